import Verif.RaceFree
import Verif.Props.Linear
import Verif.Props.CsrBasic
import Verif.Props.Split
import Verif.Props.Permute
import Verif.Props.Transpose
import Verif.Props.Laplacian
import Verif.Props.Levels
import Verif.Props.Coo
import Verif.Props.BinFile
import Verif.Props.Utils
import Verif.Props.Schedules
import Verif.Props.SchedulesEx
import Verif.Props.Ilu
/-
Theorems for C58: no data races. `s.RaceFree m0` (Verif/Spec/Race.lean): in no execution of `s` from `m0` two threads are ever about to
perform conflicting accesses to one cell. The hypotheses are those of the property that describes the result of the function.
-/

namespace SpMP.Props
open SpMP SpMP.Spec

variable {R : Type}

/-! ## Helpers of Utils and PrefixSum -/

/-- C58: prefixSum and prefixSumMultiple, for every team size. -/
theorem C58_prefixSum (T : Nat) (hT : 1 ≤ T) (m : Mem PTy) :
    (∀ x : Nat → Int, (∀ t, t < T → m (.io t) 0 = some (x t)) → (prefixSum T).RaceFree m) ∧
    ∀ (n : Nat) (x : Nat → Nat → Int), (∀ t i, t < T → i < n → m (.io t) i = some (x t i)) → (prefixSumMultiple T n).RaceFree m := by
  let _ : Races PArr := Races.none
  exact ⟨fun x h => (prefixSum_ok T hT x m h).not_racy, fun n x h => (prefixSumMultiple_ok T n hT x m h).not_racy⟩

/-- C58: getInversePerm, and reordering a vector by a permutation. -/
theorem C58_reorder (n : Nat) (p : Nat → Nat) (hp : IsPermFn n p) (m : Mem (VTy R))
    (hm : ∀ i : Nat, i < n → m .perm (i : Int) = some (p i : Int)) :
    (getInversePerm (R := R) n).RaceFree m ∧
    ∀ v : Nat → R, (∀ i : Nat, i < n → m (.vec 0) (i : Int) = some (v i)) → (reorderVector (R := R) true n).RaceFree m := by
  let _ : Races VArr := Races.none
  exact ⟨(getInversePerm_ok n p hp m hm).not_racy, fun v hv => (reorderVector_ok n p hp v m hm hv).not_racy⟩

/-- C58: parMemset and parMemcpy, below 2^31 bytes. -/
theorem C58_parMem (T : Nat) (hT : 1 ≤ T) (n : Nat) (hn : n < 2147483648) (m : Mem BTy) :
    (∀ c : Int, (parMemset T c n).RaceFree m) ∧
    ∀ v : Int → Int, (∀ i : Int, 0 ≤ i → i < n → m .src i = some (v i)) → (parMemcpy T n).RaceFree m := by
  let _ : Races BArr := Races.none
  exact ⟨fun c => (parMemset_ok T hT c n hn m).not_racy, fun v hv => (parMemcpy_ok T hT n hn v m hv).not_racy⟩

/-! ## Numerical kernels -/

/-- C58: multiplyWithVector, every branch, base, team size and aliasing. -/
theorem C58_spmv [CommRing R] [DecidableEq R] {sz : CArr → Int} {T k base : Nat} {A : Csr R} {pat : Bool}
    {w x y tmp : Nat} {α β γ : R} {m0 : Mem (CTy R)} {xv yv : Nat → R} (hT : 1 ≤ T)
    (htmp : tmp ≠ w ∧ tmp ≠ x ∧ tmp ≠ y) (halias : w = x → A.n ≤ A.m)
    (hwf : A.WF) (hp : HoldsPat m0 k base A) (hv : pat = false → HoldsVal m0 k A)
    (hx : ∀ c : Nat, c < max A.n (if w = x then A.m else 0) → m0 (.vec x) (c : Int) = some (xv c))
    (hy : ¬ (α = 1 ∧ β = 0 ∧ γ = 0) → ∀ i : Nat, i < A.m → m0 (.vec y) (i : Int) = some (yv i))
    (hsz : (A.m : Int) ≤ sz (.vec w)) (hszt : w = x → (A.m : Int) ≤ sz (.vec tmp)) :
    (multiplyWithVector sz T k A.m pat w x y tmp α β γ).RaceFree m0 := by
  let _ : Races CArr := Races.none
  exact (multiplyWithVector_ok (xv := xv) (yv := yv) hT htmp halias hwf hp hv hx hy hsz hszt).not_racy

/-- C58: multiplyWithDenseMatrix. -/
theorem C58_spmdm [CommRing R] [DecidableEq R] {sz : CArr → Int} {T k base kk : Nat} {A : Csr R}
    {w x y : DenseOp} {α β γ : R} {m0 : Mem (CTy R)} {xv yv : Nat → Nat → R} (hT : 1 ≤ T) (hwx : w.id ≠ x.id)
    (hwy : w.id = y.id → w = y) (hbase : base = 0 ∨ (w.rs = 1 ∧ x.rs = 1 ∧ y.rs = 1))
    (hwf : A.WF) (hp : HoldsPat m0 k base A) (hv : HoldsVal m0 k A)
    (hx : ∀ c i3 : Nat, c < A.n → i3 < kk → m0 (.vec x.id) ((c : Int) * x.rs + (i3 : Int) * x.cs) = some (xv c i3))
    (hy : ∀ i i3 : Nat, i < A.m → i3 < kk → m0 (.vec y.id) ((i : Int) * y.rs + (i3 : Int) * y.cs) = some (yv i i3))
    (hinj : ∀ i c i' c' : Nat, i < A.m → c < kk → i' < A.m → c' < kk →
      (i : Int) * w.rs + (c : Int) * w.cs = (i' : Int) * w.rs + (c' : Int) * w.cs → i = i' ∧ c = c')
    (hsz : ∀ i c : Nat, i < A.m → c < kk →
      0 ≤ (i : Int) * w.rs + (c : Int) * w.cs ∧ (i : Int) * w.rs + (c : Int) * w.cs < sz (.vec w.id)) :
    (multiplyWithDenseMatrix sz T k A.m kk w x y α β γ).RaceFree m0 := by
  let _ : Races CArr := Races.none
  exact (multiplyWithDenseMatrix_ok hT hwx hwy hbase hwf hp hv hx hy hinj hsz).not_racy

/-- C58: waxpby, also when `w` is `x` or `y`. -/
theorem C58_waxpby [CommRing R] [DecidableEq R] {sz : CArr → Int} {n w x y : Nat} {α β : R} {m0 : Mem (CTy R)}
    {xv yv : Nat → R}
    (hx : ∀ i : Nat, i < n → m0 (.vec x) (i : Int) = some (xv i))
    (hy : ∀ i : Nat, i < n → m0 (.vec y) (i : Int) = some (yv i)) (hsz : (n : Int) ≤ sz (.vec w)) :
    (waxpby sz n w x y α β).RaceFree m0 := by
  let _ : Races CArr := Races.none
  exact (waxpby_ok hx hy hsz).not_racy

/-- C58: the sweeps with a barrier after every task, forward and backward, for every schedule with at most one level per barrier. -/
theorem C58_barrier_sweeps [Sub R] [Mul R] [Add R] {S : Schedule} {sz : CArr → Int} {m0 : Mem (CTy R)} {base L : Nat} {A : Csr R}
    {b idg y0 : Nat → R} (h : SolveSetup S sz m0 base A b idg y0) (hb : S.Barriered L A.Nbr) (u : Update) :
    (barrierFrom sz S.T (fwdPhase S) (rowKernel base u false) 0 L).RaceFree m0 ∧
    (barrierFrom sz S.T (bwdPhase S) (rowKernel base u true) 0 L).RaceFree m0 := by
  let _ : Races CArr := Races.none
  obtain ⟨_, h1, h2⟩ := C36_barrier h hb u
  exact ⟨h1.not_racy, h2.not_racy⟩

/-! ## Building and changing matrices -/

/-- Clearing the flags is race-free, and afterwards no reachable state of the task loops has a data race: no two threads inside rows are
about to make conflicting accesses to one cell, and rows do not touch the flags. -/
def P2PRaceFree (sz : CArr → Int) (S : Schedule) (P : P2P (CTy R)) (m0 : Mem (CTy R)) : Prop :=
  (clearFlags (R := R) sz S.T S.ntasks).RaceFree m0 ∧
  (clearFlags sz S.T S.ntasks).Ok m0 fun _ m1 =>
    ∀ ls g, TeamReach (p2pMachine sz P) S.T (fun t => .next (P.tasksOf t)) m1 ls g → P.NoRace S.T ls

theorem p2pRaceFree_of {sz : CArr → Int} {S : Schedule} {P : P2P (CTy R)} {m0 : Mem (CTy R)} {Post : Mem (CTy R) → Prop} (hT : 1 ≤ S.T)
    (hsz : (S.ntasks : Int) ≤ sz (.itmp 0)) (h : RunsTo sz S P m0 Post) : P2PRaceFree sz S P m0 := by
  refine ⟨?_, Script.Ok.mono h fun _ m1 h1 => h1.2⟩
  let _ : Races CArr := Races.none
  exact (clearFlags_ok hT hsz).not_racy

/-- C58: the forward and backward sweeps with point-to-point synchronisation. -/
theorem C58_p2p_sweeps [Sub R] [Mul R] [Add R] {S : Schedule} {sz : CArr → Int} {m0 : Mem (CTy R)} {base : Nat} {A : Csr R}
    {b idg y0 : Nat → R} {lvl : Nat → Nat} (h : SolveSetup S sz m0 base A b idg y0) (hl : S.Levelled lvl)
    (hf : S.CoversFwd A.Nbr) (hb : S.CoversBwd A.Nbr) (u : Update) :
    P2PRaceFree sz S (forwardExec (R := R) S base u) m0 ∧ P2PRaceFree sz S (backwardExec (R := R) S base u) m0 := by
  obtain ⟨y, _, h1, _⟩ := C33_forward_p2p h hl hf u
  exact ⟨p2pRaceFree_of h.team h.size_flags h1, p2pRaceFree_of h.team h.size_flags (C34_backward_p2p h hl hb u).1⟩

/-- C58: the parallel incomplete factorisation. -/
theorem C58_ilu0 [Sub R] [Mul R] [Div R] {S : Schedule} {sz : CArr → Int} {m0 : Mem (CTy R)} {base : Nat} {A : Csr R} {dp ep : Nat → Nat} {ub : Bool}
    {L : List (List Nat)} (hA : Schedulable A dp ep) (hb : Built S A dp ep ub L) (h : IluSetup S sz m0 base A dp) :
    (iluInit sz A.nnz).RaceFree m0 ∧ (iluInit sz A.nnz).Ok m0 fun _ m1 => P2PRaceFree sz S (iluExec (R := R) S base) m1 := by
  obtain ⟨_, _, _, _, hT⟩ := hb.good hA
  refine ⟨?_, Script.Ok.mono (C39_parallel_ilu0 hA hb h).1 fun _ m1 h1 => p2pRaceFree_of hT h.size_flags h1⟩
  let _ : Races CArr := Races.none
  exact (iluInit_ok h.val h.size_lu).not_racy

/-- C58: make1BasedIndexing and make0BasedIndexing. -/
theorem C58_base_conversion {sz : CArr → Int} {k base : Nat} {A : Csr R} {o : Opt} {m0 : Mem (CTy R)} (hwf : A.WF)
    (hb : base = 0 ∨ base = 1) (hp : HoldsPat m0 k base A)
    (hdi : o.diagptr → ∀ i : Nat, i < A.m → ∃ v, m0 (.diagptr k) (i : Int) = some v) (hsz : SizesOk sz k A o) :
    (make1Based sz k A.m o).RaceFree m0 ∧ (make0Based sz k A.m o).RaceFree m0 := by
  let _ : Races CArr := Races.none
  exact ⟨(make1Based_ok hwf hp hb hdi hsz).not_racy, (make0Based_ok hwf hp hb hdi hsz).not_racy⟩

/-- C58: the copy constructor. -/
theorem C58_copy {sz : CArr → Int} {k k' : Nat} (hk : k' ≠ k) {A : Csr R} {o : Opt} {base : Nat}
    {m0 : Mem (CTy R)} (hwf : A.WF) (hA : HoldsPat m0 k base A) (ho : OptInit m0 k A o) (hsz : SizesOk sz k' A o) :
    (copyCsr sz k k' A.m o).RaceFree m0 := by
  let _ : Races CArr := Races.none
  exact (copyCsr_ok hk hwf hA ho hsz).not_racy

/-- C58: transpose. With diagonal pointers every thread writes the last row pointer (the same value), which is a data race on that one
cell (`C58_transpose_false`); there is no other, and none at all without diagonal pointers. -/
theorem C58_transpose_partial {sz : CArr → Int} {T k k' base : Nat} {A : Csr R} {vals diag : Bool} {asg : Nat → Int × Int}
    {m0 : Mem (CTy R)} (hT : 1 ≤ T) (hkk : k' ≠ k) (hwf : A.WF) (hn : 0 < A.n)
    (hasg : PartRng T A.n fun t x => x = asg t)
    (hp : HoldsPat m0 k base A) (hv : vals = true → HoldsVal m0 k A) :
    (transpose sz T k k' base A.m A.n vals diag asg).RaceFreeExcept
      (fun a i => diag = true ∧ a = .rowptr k' ∧ i = (A.n : Int)) m0 := by
  let _ : Races CArr := ⟨fun a i => diag = true ∧ a = .rowptr k' ∧ i = (A.n : Int)⟩
  exact (transpose_ok hwf hn (fun h => show _ ∧ _ from ⟨h, rfl, rfl⟩) hT hkk hasg hp hv).not_racy

/-- C58: permute. Threads without rows all write the last row pointer of the result (the value 0, overwritten later), a data race if
there are two of them (`C58_permute_false`); there is no other. -/
theorem C58_permute_partial {sz : CArr → Int} {T k k2 base nl : Nat} {A : Csr R} {o : Opt} {dbg hasRow sort : Bool}
    {ep ri cp : Nat → Nat} {m0 : Mem (CTy R)} (hT : 1 ≤ T) (hk : k ≠ k2) (hb : base = 0 ∨ base = 1) (hwf : A.WF)
    (hp : HoldsPat m0 k base A) (hv : o.values = true → HoldsVal m0 k A) (he : HoldsExt m0 k base A o.extptr ep)
    (hrow : hasRow = true → ∀ i : Nat, i < A.m → m0 (.itmp 0) (i : Int) = some (ri i : Int))
    (hnull : hasRow = false → ∀ i, i < A.m → ri i = i) (hri : IsPermFn A.m ri)
    (hcol : ∀ c : Nat, c < nl → m0 (.itmp 1) (c : Int) = some (cp c : Int)) (hcp : IsPermFn nl cp) (hnl : nl ≤ A.n)
    (hloc : ∀ i j, i < A.m → A.ptr i ≤ j → j < ep i → A.col j < nl)
    (hdiag : o.diagptr = true → ∀ i, i < A.m → ∃ j, A.ptr i ≤ j ∧ j < ep i ∧ A.col j = i)
    (hid : o.idiag = true → ∀ i : Nat, i < A.m → ∃ v, m0 (.idiag k) (i : Int) = some v)
    (hnoext : o.values = false → ∀ i, i < A.m → ep i = A.ptr (i + 1)) (hsort : sort = true → o.values = true)
    (hdbg : dbg = true → hasRow = true ∨ A.m = 0) :
    (permute sz T k k2 A.m o dbg hasRow sort).RaceFreeExcept (fun a i => a = .rowptr k2 ∧ i = (A.m : Int)) m0 := by
  let _ : Races CArr := ⟨fun a i => a = .rowptr k2 ∧ i = (A.m : Int)⟩
  exact (permute_ok (show _ ∧ _ from ⟨rfl, rfl⟩)
    ⟨hk, hwf, hp, hv, he, ⟨hrow, hnull⟩, hri, hcol, hcp, hnl, hloc, hdiag, hid, hnoext, hsort⟩ hT hb hdbg).not_racy

/-- C58: permuteRows, as for permute. -/
theorem C58_permuteRows_partial {sz : CArr → Int} {T k k2 : Nat} {A : Csr R} {o : Opt} {dbg hasRow : Bool}
    {ep dp ri : Nat → Nat} {m0 : Mem (CTy R)} (hT : 1 ≤ T) (hk : k ≠ k2) (hwf : A.WF)
    (hp : HoldsPat m0 k 0 A) (hv : o.values = true → HoldsVal m0 k A) (he : HoldsExt m0 k 0 A o.extptr ep)
    (hrow : hasRow = true → ∀ i : Nat, i < A.m → m0 (.itmp 0) (i : Int) = some (ri i : Int))
    (hnull : hasRow = false → ∀ i, i < A.m → ri i = i) (hri : IsPermFn A.m ri)
    (hdp : o.diagptr = true → ∀ i : Nat, i < A.m → A.ptr i ≤ dp i ∧ m0 (.diagptr k) (i : Int) = some (dp i : Int))
    (hid : o.idiag = true → ∀ i : Nat, i < A.m → ∃ v, m0 (.idiag k) (i : Int) = some v)
    (hdbg : dbg = true → hasRow = true ∨ A.m = 0) :
    (permuteRows sz T k k2 A.m o dbg hasRow).RaceFreeExcept (fun a i => a = .rowptr k2 ∧ i = (A.m : Int)) m0 := by
  let _ : Races CArr := ⟨fun a i => a = .rowptr k2 ∧ i = (A.m : Int)⟩
  exact (permuteRows_ok (show _ ∧ _ from ⟨rfl, rfl⟩) ⟨hk, hwf, hp, hv, he, ⟨hrow, hnull⟩, hri, hdp, hid⟩ hT hdbg).not_racy

/-- C58: permuteColsInPlace. -/
theorem C58_permuteColsInPlace {sz : CArr → Int} {k base nl : Nat} {A : Csr R} {o : Opt} {dbg : Bool}
    {ep cp : Nat → Nat} {m0 : Mem (CTy R)} (hb : base = 0 ∨ base = 1) (hwf : A.WF)
    (hp : HoldsPat m0 k base A) (hv : o.values = true → HoldsVal m0 k A) (he : HoldsExt m0 k base A o.extptr ep)
    (hcol : ∀ c : Nat, c < nl → m0 (.itmp 1) (c : Int) = some (cp c : Int)) (hcp : IsPermFn nl cp) (hnl : nl ≤ A.n)
    (hloc : ∀ i j, i < A.m → A.ptr i ≤ j → j < ep i → A.col j < nl)
    (hdiag : o.diagptr = true → ∀ i, i < A.m → ∃ j, A.ptr i ≤ j ∧ j < ep i ∧ A.col j = i)
    (hdbg : dbg = true → base = 0 ∧ nl ≤ A.m) (hvals : o.diagptr = false ∨ base = 1 → o.values = true)
    (hz : (A.nnz : Int) ≤ sz (.colidx k)) (hz2 : o.values = true → (A.nnz : Int) ≤ sz (.values k))
    (hz3 : o.diagptr = true → (A.m : Int) ≤ sz (.diagptr k)) :
    (permuteColsInPlace sz k A.m o dbg).RaceFree m0 := by
  let _ : Races CArr := Races.none
  exact (permuteColsInPlace_ok ⟨hwf, hp, hv, he, hcol, hcp, hnl, hloc, hdiag, hdbg, hvals⟩ hb hz hz2 hz3).not_racy

/-- C58: splitLU. -/
theorem C58_splitLU {sz : CArr → Int} {T k kl ku base : Nat} {A : Csr R} {o : Opt} {ep : Nat → Nat}
    {m0 : Mem (CTy R)} (hT : 1 ≤ T) (hk : k ≠ kl ∧ k ≠ ku ∧ kl ≠ ku)
    (hwf : A.WF) (hb : base = 0 ∨ base = 1) (hbe : base = 1 → o.extptr = false)
    (hp : HoldsPat m0 k base A) (hv : HoldsVal m0 k A) (hsz : SizesOk sz k A o)
    (he : HoldsExt m0 k base A o.extptr ep) (hx : ∀ i j, i < A.m → ep i ≤ j → j < A.ptr (i + 1) → i < A.col j)
    (hdp : o.diagptr → ∀ i : Nat, i < A.m → ∃ v, m0 (.diagptr k) (i : Int) = some v)
    (hd : ∀ i : Nat, i < A.m → ∃ v, m0 (.idiag k) (i : Int) = some v) :
    (splitLU sz T k kl ku A.m o).RaceFree m0 := by
  let _ : Races CArr := Races.none
  exact (splitLU_ok hT hk hwf hb hbe hp hv hsz he hx hdp hd).not_racy

/-- C58: generate3D27PtLaplacian. -/
theorem C58_laplacian [One R] [Div R] {k nx ny nz base : Nat} {d o : R} {m0 : Mem (CTy R)} (hx : nx = 1 ↔ nz = 1) (hy : ny = 1 ↔ nz = 1)
    (hb : base = 0 ∨ base = 1) : (laplacian k nx ny nz d o base).RaceFree m0 := by
  let _ : Races CArr := Races.none
  exact (laplacian_ok hx hy hb).not_racy

/-- C58: dcoo2csr (the sorting of the rows is parallel), with and without diagonal data. -/
theorem C58_dcoo2csr [One R] [Div R] {sz : CArr → Int} {k ob : Nat} {C : Coo R} {dp sep : Bool} {m0 : Mem (CTy R)}
    (hwf : C.WF) (hc : HoldsCoo m0 C)
    (hs : (C.m : Int) + 1 ≤ sz (.rowptr k)) (hsc : (C.nnz : Int) ≤ sz (.colidx k)) (hsv : (C.nnz : Int) ≤ sz (.values k))
    (hsd : dp = true → (C.m : Int) ≤ sz (.diagptr k))
    (hss : sep = true → (C.m : Int) ≤ sz (.idiag k) ∧ (C.m : Int) ≤ sz (.diag k)) :
    (dcoo2csr sz k C.m C.nnz ob dp sep).RaceFree m0 := by
  let _ : Races CArr := Races.none
  exact (dcoo2csr_ok hwf hc hs hsc hsv hsd hss).not_racy

/-- C58: constructDiagPtr and computeInverseDiag. -/
theorem C58_diag [One R] [Div R] {sz : CArr → Int} {k base : Nat} {A : Csr R} {m0 : Mem (CTy R)} (hwf : A.WF)
    (hp : HoldsPat m0 k base A) (hs : ∀ i, i < A.m → A.RowSorted i ∧ ∃ d, A.InRow i d ∧ A.col d = i)
    (hsz : (A.m : Int) ≤ sz (.diagptr k)) :
    (constructDiagPtr sz k A.m false).RaceFree m0 ∧
    (HoldsVal m0 k A → (A.m : Int) ≤ sz (.idiag k) → (computeInverseDiag sz k A.m false false).RaceFree m0) := by
  let _ : Races CArr := Races.none
  exact ⟨(constructDiagPtr_ok hwf hp hs hsz).not_racy,
    fun hv hszi => (computeInverseDiag_ok hwf hp hv (fun _ => hs) (by simp) (fun _ => hsz) hszi).not_racy⟩

/-! ## Queries -/

/-- C58: isSymmetric. The threads share the answer in a plain variable: a data race on it (`C58_isSymmetric_false`), and no other. -/
theorem C58_isSymmetric_partial [DecidableEq R] {sz : CArr → Int} {T k : Nat} {A : Csr R} {ep : Nat → Nat}
    {ext chk print : Bool} {m0 : Mem (CTy R)} (hT : 1 ≤ T) (hwf : A.WF) (hp : HoldsPat m0 k 0 A)
    (hv : chk = true → HoldsVal m0 k A) (he : HoldsExt m0 k 0 A ext ep) (hsz : 1 ≤ sz (.itmp 0)) :
    (isSymmetric sz T k A.m A.n ext chk print).RaceFreeExcept (fun a i => a = .itmp 0 ∧ i = 0) m0 := by
  let _ : Races CArr := ⟨fun a i => a = .itmp 0 ∧ i = 0⟩
  exact (isSymmetric_ok (show _ ∧ _ from ⟨rfl, rfl⟩) hT hwf hp hv he hsz).not_racy

/-- C58: hasZeroDiag. The threads share the answer in a plain variable: a data race on it (`C58_hasZeroDiag_false`), and no other. -/
theorem C58_hasZeroDiag_partial [DecidableEq R] [Zero R] {sz : CArr → Int} {T k : Nat} {A : Csr R} {m0 : Mem (CTy R)}
    (hT : 1 ≤ T) (hwf : A.WF) (hp : HoldsPat m0 k 0 A) (hv : HoldsVal m0 k A) (hsz : 1 ≤ sz (.itmp 0)) :
    (hasZeroDiag sz T k A.m).RaceFreeExcept (fun a i => a = .itmp 0 ∧ i = 0) m0 := by
  let _ : Races CArr := ⟨fun a i => a = .itmp 0 ∧ i = 0⟩
  exact (hasZeroDiag_ok (show _ ∧ _ from ⟨rfl, rfl⟩) hT hwf hp hv hsz).not_racy

/-- C58: getBandwidth. -/
theorem C58_bandwidth {sz : CArr → Int} {T k base : Nat} {A : Csr R} {m0 : Mem (CTy R)} {tr : RedTree} (hT : 1 ≤ T)
    (htr : tr.Admissible T) (hwf : A.WF) (hp : HoldsPat m0 k base A) : (getBandwidth sz T k A.m tr).RaceFree m0 := by
  let _ : Races CArr := Races.none
  exact (getBandwidth_ok hT htr hwf hp).not_racy

/-! ## Level search -/

/-- C58: the level search races only on its in-degree counters (a debug assertion reads a counter that other threads update
atomically): queues, results and the matrix are accessed without races. The counters are the last `m` cells of the work array. -/
theorem C58_findLevels_partial {sz : CArr → Int} {T base : Nat} {A : Csr R} {dp ep : Nat → Nat} {hasExt : Bool} {m0 : Mem (CTy R)} {cb : Nat → Nat}
    (hT : 1 ≤ T) (hwf : A.WF) (hs : SplitRows A dp ep) (hd : NoDup A) (hsym : SymPat A)
    (hp : HoldsPat m0 0 base A) (hdp : HoldsDiag m0 0 base A dp) (he : HoldsExt m0 0 base A hasExt ep)
    (cb0 : cb 0 = 0) (cbT : cb T = A.m) (cbm : ∀ t, t < T → cb t ≤ cb (t + 1)) (cbc : ∀ t, t < T → cb (t + 1) - cb t ≤ (A.m + T - 1) / T)
    (hszb : 5 * (max T (A.m + T - 1) : Nat) ≤ sz (.itmp 20)) (hszr : (A.m : Int) ≤ sz (.itmp 21))
    (hcap : A.m < max T (A.m + T - 1) / T * 2 + 64) :
    (findLevels sz hasExt base T A.m cb).RaceFreeExcept
      (fun a i => a = .itmp 20 ∧ 4 * ((max T (A.m + T - 1) : Nat) : Int) ≤ i ∧ i < 4 * ((max T (A.m + T - 1) : Nat) : Int) + A.m) m0 := by
  have h1 : A.m ≤ lvMx T A.m := (lvMx_ge hT).1
  have h2 : 5 * (lvMx T A.m : Int) ≤ sz (.itmp 20) := hszb
  let _ : Races CArr := ⟨NpCell T A.m⟩
  refine (findLevels_ok hs hwf hd hsym hT ⟨hp, hdp, he⟩ cb0 cbT cbm cbc (fun _ _ h => h) ?_ hszr hcap).not_racy.mono ?_
  · show 4 * (lvMx T A.m : Int) + A.m ≤ sz (.itmp 20)
    omega
  · rintro a i ⟨rfl, g1, g2⟩
    unfold npOff lvMx at g1 g2
    refine ⟨rfl, ?_, ?_⟩ <;> push_cast at * <;> omega

/-! ## The races that exist -/

/-- The 2x2 antidiagonal matrix: one entry per row, none on the diagonal. -/
def antiCsr : Csr Int := ⟨2, 2, fun i => i, fun j => 1 - j, fun j => j⟩

theorem antiCsr_wf : antiCsr.WF := by
  refine ⟨rfl, ?_, ?_⟩
  · intro i hi; exact Nat.le_succ i
  · intro j hj; change 1 - j < 2; omega

/-- A schedule that lets four threads finish one after the other. -/
def inTurn : List Nat := List.replicate 60 0 ++ List.replicate 60 1 ++ List.replicate 60 2 ++ List.replicate 60 3

set_option maxRecDepth 100000 in
/-- C58 is false of isSymmetric: one thread clears the shared flag while another one reads it. -/
theorem C58_isSymmetric_false :
    ¬ ∀ (sz : CArr → Int) (A : Csr Int) (m0 : Mem (CTy Int)), A.WF → HoldsPat m0 0 0 A → 1 ≤ sz (.itmp 0) →
      (isSymmetric sz 2 0 A.m A.n false false false).RaceFree m0 := by
  intro h
  refine Script.not_raceFree_of_raceAt (t := 0) (u := 1) [[0], [0], [0, 0, 0, 0, 0, 1, 1]] ?_
    (h (fun _ => 1) upperCsr (csrMem 0 0 upperCsr (fun _ => 0) (fun _ => 0)) upperCsr_wf (csrMem_pat _ _ _ _ _) (by decide))
  decide +kernel

set_option maxRecDepth 100000 in
/-- C58 is false of hasZeroDiag: two threads set the shared flag at the same time. -/
theorem C58_hasZeroDiag_false :
    ¬ ∀ (sz : CArr → Int) (A : Csr Int) (m0 : Mem (CTy Int)), A.WF → HoldsPat m0 0 0 A → HoldsVal m0 0 A → 1 ≤ sz (.itmp 0) →
      (hasZeroDiag sz 2 0 A.m).RaceFree m0 := by
  intro h
  refine Script.not_raceFree_of_raceAt (t := 0) (u := 1) [[0, 0], List.replicate 7 0 ++ List.replicate 7 1] ?_
    (h (fun _ => 1) antiCsr (csrMem 0 0 antiCsr (fun _ => 0) (fun _ => 0)) antiCsr_wf (csrMem_pat _ _ _ _ _) (csrMem_val _ _ _ _ _)
      (by decide))
  decide +kernel

set_option maxRecDepth 100000 in
/-- C58 is false of transpose with diagonal pointers: all threads write the last row pointer. -/
theorem C58_transpose_false :
    ¬ ∀ (sz : CArr → Int) (A : Csr Int) (m0 : Mem (CTy Int)), A.WF → 0 < A.n → HoldsPat m0 0 0 A → HoldsVal m0 0 A →
      (transpose sz 2 0 1 0 A.m A.n true true fun t => (simpleBegin 2 t A.n, simpleEnd 2 t A.n)).RaceFree m0 := by
  intro h
  refine Script.not_raceFree_of_raceAt (t := 0) (u := 1) [inTurn, inTurn, inTurn, inTurn, inTurn, inTurn, []] ?_
    (h (fun _ => 1) upperCsr (csrMem 0 0 upperCsr (fun _ => 0) (fun _ => 0)) upperCsr_wf (by decide) (csrMem_pat _ _ _ _ _)
      (csrMem_val _ _ _ _ _))
  decide +kernel

set_option maxRecDepth 100000 in
/-- C58 is false of permute: with two or more threads without rows, all of them write the last row pointer of the result. -/
theorem C58_permute_false :
    ¬ ∀ (sz : CArr → Int) (A : Csr Int) (m0 : Mem (CTy Int)), A.WF → HoldsPat m0 0 0 A →
      (∀ c : Nat, c < A.n → m0 (.itmp 1) (c : Int) = some (c : Int)) →
      (permute sz 4 0 1 A.m ⟨false, false, false, false, false⟩ false false false).RaceFree m0 := by
  intro h
  refine Script.not_raceFree_of_raceAt (t := 2) (u := 3) [inTurn, inTurn, []] ?_
    (h (fun _ => 1) permCsr (withPerms (csrMem 0 0 permCsr (fun _ => 0) (fun _ => 0)) 2 (fun i => i) (fun i => i)) permCsr_wf
      (withPerms_pat (csrMem_pat _ _ _ _ _)) ?_)
  · decide +kernel
  · intro c hc; change c < 2 at hc; interval_cases c <;> rfl

/-! ## The hypotheses are met -/

/-- Two threads transpose the base-1 example matrix; the only cell with races is the last row pointer. -/
example : (transpose (R := Int) (fun _ => 0) 2 0 1 1 exampleCsr.m exampleCsr.n true true
      fun t => (simpleBegin 2 t exampleCsr.n, simpleEnd 2 t exampleCsr.n)).RaceFreeExcept
    (fun a i => true = true ∧ a = .rowptr 1 ∧ i = (exampleCsr.n : Int)) (csrMem 0 1 exampleCsr (fun _ => 0) (fun _ => 0)) :=
  C58_transpose_partial (by omega) (by omega) exampleCsr_wf (by decide) (asg_simple 2 _ (by omega))
    (csrMem_pat 0 1 exampleCsr _ _) (fun _ => csrMem_val 0 1 exampleCsr _ _)

/-- Three threads compute the bandwidth. -/
example : (getBandwidth (R := Int) (fun _ => 0) 3 0 exampleCsr.m (.chain 3)).RaceFree (csrMem 0 1 exampleCsr (fun _ => 0) (fun _ => 0)) :=
  C58_bandwidth (by decide) (RedTree.chain_admissible 3) exampleCsr_wf (csrMem_pat _ _ _ _ _)

/-- Two threads multiply in place: `x = 2*A*x + 3*x + 4`. -/
example : (multiplyWithVector (R := Int) (fun _ => 3) 2 0 exampleCsr.m false 0 0 0 1 2 3 4).RaceFree
    (withVec (csrMem 0 1 exampleCsr (fun _ => 0) (fun _ => 0)) 0 3 (fun i => (i : Int) + 1)) :=
  C58_spmv (xv := fun i => (i : Int) + 1) (yv := fun i => (i : Int) + 1) (by decide) (by decide) (by decide) exampleCsr_wf
    (withVec_pat (csrMem_pat 0 1 exampleCsr _ _)) (fun _ => withVec_val (csrMem_val 0 1 exampleCsr _ _))
    (fun c hc => withVec_get hc) (fun _ i hi => withVec_get hi) (by decide) (by decide)

/-- Two threads look for zero diagonal entries. -/
example : (hasZeroDiag (R := Int) (fun _ => 1) 2 0 antiCsr.m).RaceFreeExcept (fun a i => a = .itmp 0 ∧ i = 0)
    (csrMem 0 0 antiCsr (fun _ => 0) (fun _ => 0)) :=
  C58_hasZeroDiag_partial (by decide) antiCsr_wf (csrMem_pat _ _ _ _ _) (csrMem_val _ _ _ _ _) (by decide)

end SpMP.Props
