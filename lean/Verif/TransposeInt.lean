import Verif.IntRange
import Verif.Transpose
/-
CSR::transpose (/repo/CSR.cpp:457-629) with the index arithmetic in 32-bit ints. The pieces correspond one by one to those of
Transpose.lean. Left unchecked: the values stored in the bucket array (counts of entries and their prefix sums), and the
increments of loop counters (a counter stops at its bound, which is an int).
-/

namespace SpMP
open Spec

set_option linter.unusedSectionVars false

variable {R : Type} [Races CArr]

/-- CSR.cpp:462-465 transpose_idx, `idx%dim1*dim2 + idx/dim1`. -/
def trIdxC (idx dim1 dim2 : Int) : Prog (CTy R) Int := do
  let a ← iMod idx dim1
  let b ← iMul a dim2
  let c ← iDiv idx dim1
  iAdd b c

/-- CSR.hpp getNnz(), and CSR.cpp:499: the size `(n + 1)*omp_get_max_threads()` of the bucket array (not reached when
`n == 0`). -/
def trHeadC (k m n T : Nat) : Prog (CTy R) Int := do
  let l ← Prog.read (ty := CTy R) (.rowptr k) m
  let b ← Prog.read (ty := CTy R) (.rowptr k) 0
  let nnz ← iSub (l : Int) b
  if n = 0 then pure nnz else do
    let n1 ← iAdd n 1
    let _ ← iMul n1 T
    pure nnz

/-- CSR.cpp:514-532. -/
def trCountC (k k' base m n T t : Nat) : Prog (CTy R) (Int × Int) := do
  let be ← loadBalancedC (fun i => Prog.read (ty := CTy R) (.rowptr k) i) T t m
  let _ ← iAdd be.1 base
  let _ ← iAdd be.2 base
  let tn ← iMul t n
  Prog.forUp (ty := CTy R) 0 (n : Int) () fun i _ => Prog.write (ty := CTy R) (.rowptr k') (tn + i) (0 : Int)
  let lo ← Prog.read (ty := CTy R) (.rowptr k) be.1
  let hi ← Prog.read (ty := CTy R) (.rowptr k) be.2
  Prog.forUp (ty := CTy R) (lo : Int) (hi : Int) () fun j _ => do
    let idx ← Prog.read (ty := CTy R) (.colidx k) (j - base)
    let nb ← iAdd n base
    Prog.assert (ty := CTy R) ((base : Int) ≤ idx ∧ (idx : Int) < nb)
    let tn ← iMul t n
    let x ← iAdd tn idx
    let v ← Prog.read (ty := CTy R) (.rowptr k') (x - base)
    Prog.write (ty := CTy R) (.rowptr k') (x - base) ((v : Int) + 1)
  pure be

/-- CSR.cpp:538-543. -/
def trScanC (k' base n T t : Nat) : Prog (CTy R) Unit := do
  let tn ← iMul t n
  let lo ← iAdd tn 1
  let t1 ← iAdd t 1
  let hi ← iMul t1 n
  Prog.forUp (ty := CTy R) lo hi () fun i _ => do
    let x ← trIdxC i T n
    let i1 ← iSub i 1
    let y ← trIdxC i1 T n
    let _ ← iAdd x base
    let _ ← iAdd y base
    let a ← Prog.read (ty := CTy R) (.rowptr k') x
    let b ← Prog.read (ty := CTy R) (.rowptr k') y
    Prog.write (ty := CTy R) (.rowptr k') x ((a : Int) + b)

/-- CSR.cpp:546-555. -/
def trMasterC (k' base n T : Nat) : Prog (CTy R) Unit :=
  Prog.forUp (ty := CTy R) 1 (T : Int) () fun i _ => do
    let ni ← iMul n i
    let j0 ← iSub ni 1
    let i1 ← iAdd i 1
    let ni1 ← iMul n i1
    let j1 ← iSub ni1 1
    let y ← trIdxC j0 T n
    let x ← trIdxC j1 T n
    let _ ← iAdd x base
    let _ ← iAdd y base
    let a ← Prog.read (ty := CTy R) (.rowptr k') x
    let b ← Prog.read (ty := CTy R) (.rowptr k') y
    Prog.write (ty := CTy R) (.rowptr k') x ((a : Int) + b)

/-- CSR.cpp:558-566. -/
def trAddC (k' base n T t : Nat) : Prog (CTy R) Unit :=
  if t > 0 then do
    let nt ← iMul n t
    let j0 ← iSub nt 1
    let y ← trIdxC j0 T n
    let lo ← iMul t n
    let t1 ← iAdd t 1
    let e ← iMul t1 n
    let hi ← iSub e 1
    Prog.forUp (ty := CTy R) lo hi () fun i _ => do
      let x ← trIdxC i T n
      let _ ← iAdd x base
      let _ ← iAdd y base
      let a ← Prog.read (ty := CTy R) (.rowptr k') x
      let b ← Prog.read (ty := CTy R) (.rowptr k') y
      Prog.write (ty := CTy R) (.rowptr k') x ((a : Int) + b)
  else pure ()

/-- CSR.cpp:570-595 (both branches): `iEnd - 1`, `i + 1`, `rowptr[i + 1] - 1`, `tid*n + idx`. -/
def trPlaceC (k k' base n : Nat) (vals : Bool) (nnz : Int) (t : Nat) (be : Int × Int) : Prog (CTy R) Unit := do
  let e ← iAdd be.2 base
  let b ← iAdd be.1 base
  let _ ← iSub e 1
  Prog.forDown (ty := CTy R) e b () fun i _ => do
    let i1 ← iAdd i 1
    let hi ← Prog.read (ty := CTy R) (.rowptr k) (i1 - base)
    let lo ← Prog.read (ty := CTy R) (.rowptr k) (i - base)
    let _ ← iSub (hi : Int) 1
    Prog.forDown (ty := CTy R) (hi : Int) (lo : Int) () fun j _ => do
      let idx ← Prog.read (ty := CTy R) (.colidx k) (j - base)
      let tn ← iMul t n
      let x ← iAdd tn idx
      let v ← Prog.read (ty := CTy R) (.rowptr k') (x - base)
      Prog.write (ty := CTy R) (.rowptr k') (x - base) ((v : Int) - 1)
      let offset ← Prog.read (ty := CTy R) (.rowptr k') (x - base)
      (if vals then do
        Prog.assert (ty := CTy R) (0 ≤ (offset : Int) ∧ (offset : Int) < nnz)
        let x ← Prog.read (ty := CTy R) (.values k) (j - base)
        Prog.write (ty := CTy R) (.values k') offset x
      else pure () : Prog (CTy R) Unit)
      Prog.write (ty := CTy R) (.colidx k') offset i

/-- CSR.cpp:606-621: `n + base`, `nnz + base`, `i + 1`. -/
def trDiagC (k' base n : Nat) (nnz : Int) (rg : Int × Int) : Prog (CTy R) Unit := do
  let nb ← iAdd n base
  let zb ← iAdd nnz base
  Prog.write (ty := CTy R) (.rowptr k') (nb - base) zb
  let b ← iAdd rg.1 base
  let e ← iAdd rg.2 base
  Prog.forUp (ty := CTy R) b e () fun i _ => do
    let lo ← Prog.read (ty := CTy R) (.rowptr k') (i - base)
    let i1 ← iAdd i 1
    let hi ← Prog.read (ty := CTy R) (.rowptr k') (i1 - base)
    Prog.forUp (ty := CTy R) (lo : Int) (hi : Int) () fun j _ => do
      let c ← Prog.read (ty := CTy R) (.colidx k') (j - base)
      if (c : Int) = i then Prog.write (ty := CTy R) (.diagptr k') (i - base) j else pure ()

/-- CSR.cpp:597-604 (`n + base`) and 625: `bucket[n + base] = nnz + base`. -/
def trLastC (k' base n : Nat) (nnz : Int) : Prog (CTy R) Unit := do
  let nb ← iAdd n base
  let zb ← iAdd nnz base
  Prog.write (ty := CTy R) (.rowptr k') (nb - base) zb

/-- CSR.cpp:471-629 transpose, index arithmetic checked. See `transpose`. -/
def transposeC (sz : CArr → Int) (T k k' base m n : Nat) (vals diag : Bool) (asg : Nat → Int × Int) : Script (CTy R) Unit :=
  Script.seq sz (trHeadC k m n T) fun nnz =>
  let sz' := trSize sz k' n T nnz vals diag
  if n = 0 then .done () else
  .phase sz' T (trCountC k k' base m n T) fun be =>
  .phase sz' T (trScanC k' base n T) fun _ =>
  Script.seq sz' (trMasterC k' base n T) fun _ =>
  .phase sz' T (trAddC k' base n T) fun _ =>
  .phase sz' T (fun t => trPlaceC k k' base n vals nnz t (be t)) fun _ =>
  (if base > 0 then
    (parMap sz' (.rowptr k') n (fun v : Int => v + base)).bind fun _ =>
    .phase sz' T (fun _ => do
      let v ← Prog.read (ty := CTy R) (.rowptr k') 0
      Prog.assert (ty := CTy R) ((v : Int) = base)) fun _ => .done ()
   else .done () : Script (CTy R) Unit).bind fun _ =>
  (if diag then .phase sz' T (fun t => trDiagC k' base n nnz (asg t)) fun _ => .done ()
   else .done () : Script (CTy R) Unit).bind fun _ =>
  Script.seq sz' (trLastC k' base n nnz) fun _ => .done ()

/-! ### Proofs -/

section
variable {A : Csr R} {k k' base T : Nat} {m0 : Mem (CTy R)}

/-- The arrays of the matrix that is read. -/
def TrSrc (k : Nat) (a : CArr) : Prop := a = .rowptr k ∨ a = .colidx k

theorem trIdxC_sim {α : Type} {C : CArr → Prop} {Q : α → Prop} {f : Int → Prog (CTy R) α} {p : Prog (CTy R) α} {i : Int} {n T : Nat}
    (h0 : 0 ≤ i) (h1 : i < (n : Int) * T) (hb : (n : Int) * T ≤ 2147483647)
    (hf : 0 ≤ trIdx i T n → trIdx i T n < (n : Int) * T → Prog.Sim C m0 Q (f (trIdx i T n)) p) :
    Prog.Sim C m0 Q ((trIdxC i T n : Prog (CTy R) Int) >>= f) p := by
  obtain ⟨i, rfl⟩ := Int.eq_ofNat_of_zero_le h0
  have hT : 0 < T := by
    rcases Nat.eq_zero_or_pos T with h | h
    · subst h; simp at h1; omega
    · exact h
  have hi : i < n * T := by exact_mod_cast h1
  have hr := trIdx_range (n := n) (T := T) hi
  have d0 := Int.ediv_nonneg h0 (by omega : 0 ≤ (T : Int))
  have m0' := Int.emod_nonneg (i : Int) (by omega : (T : Int) ≠ 0)
  have m1 : 0 ≤ (i : Int) % T * n := Int.mul_nonneg m0' (by omega)
  have e : (trIdxC (i : Int) T n : Prog (CTy R) Int) = .ret (trIdx (i : Int) T n) := by
    unfold trIdx at hr ⊢
    unfold trIdxC
    refine (iMod_bind h0 (by omega) ⟨by omega, by omega⟩).trans ((ck_bind ⟨by omega, by omega⟩).trans
      ((iDiv_bind h0 (by omega) ⟨by omega, by omega⟩).trans ?_))
    unfold iAdd ck
    rw [if_pos ⟨by omega, by omega⟩]
  rw [e]
  exact hf hr.1 hr.2

/-- What the bounds on the sizes give. -/
theorem tr_mul {n T t : Nat} (ht : t < T) : 0 ≤ (t : Int) * n ∧ (t : Int) * n + n ≤ (n : Int) * T ∧ ((t : Int) + 1) * n = (t : Int) * n + n ∧
    (n : Int) * t = (t : Int) * n ∧ (n : Int) * ((t : Int) + 1) = (t : Int) * n + n := by
  have h1 : (t + 1) * n ≤ T * n := Nat.mul_le_mul_right n ht
  have h2 : ((t : Int) + 1) * n ≤ (T : Int) * n := by exact_mod_cast h1
  have h3 : 0 ≤ t * n := Nat.zero_le _
  have h4 : (0 : Int) ≤ (t : Int) * n := by exact_mod_cast h3
  refine ⟨h4, ?_, by ring, by ring, by ring⟩
  have e1 : ((t : Int) + 1) * n = (t : Int) * n + n := by ring
  have e2 : (T : Int) * n = (n : Int) * T := by ring
  omega

variable (hT : 1 ≤ T) (hkk : k' ≠ k) (hwf : A.WF) (hp : HoldsPat m0 k base A) (hbase : base ≤ 1)
  (hn : ((A.n : Int) + 1) * T ≤ 2147483647) (hm : (A.m : Int) < 2147483647) (hz : (A.nnz : Int) + T ≤ 2147483647)
include hT hkk hwf hp hbase hn hm hz

theorem tr_bound : (A.n : Int) * T + T ≤ 2147483647 ∧ (A.n : Int) ≤ (A.n : Int) * T := by
  have e : ((A.n : Int) + 1) * T = (A.n : Int) * T + T := by ring
  refine ⟨by omega, ?_⟩
  have : A.n * 1 ≤ A.n * T := Nat.mul_le_mul_left _ hT
  have h : ((A.n * 1 : Nat) : Int) ≤ ((A.n * T : Nat) : Int) := by exact_mod_cast this
  push_cast at h; omega

theorem not_src_rowptr : ¬ TrSrc k (.rowptr k') := by rintro (h | h) <;> injection h <;> omega
theorem not_src_colidx : ¬ TrSrc k (.colidx k') := by rintro (h | h) <;> injection h <;> omega
theorem not_src_values : ¬ TrSrc k (.values k') := by rintro (h | h) <;> injection h
theorem not_src_diagptr : ¬ TrSrc k (.diagptr k') := by rintro (h | h) <;> injection h

/-- What a read of the source row pointers returns. -/
theorem tr_ptr {i v : Int} (h0 : 0 ≤ i) (h1 : i ≤ A.m) (h : TrSrc k (.rowptr k) → m0 (.rowptr k) i = some v) :
    v = (A.ptr i.toNat : Int) + base ∧ A.ptr i.toNat ≤ A.nnz := by
  obtain ⟨i, rfl⟩ := Int.eq_ofNat_of_zero_le h0
  have := h (Or.inl rfl)
  rw [hp.rowptr i (by omega)] at this
  exact ⟨(Option.some.inj this).symm, hwf.ptr_mono (by omega) (by omega)⟩

theorem sim_trHead : Prog.Sim (TrSrc k) m0 (fun z => z = (A.nnz : Int)) (trHeadC k A.m A.n T : Prog (CTy R) Int) (getNnz k A.m) := by
  have hb := tr_bound hT hkk hwf hp hbase hn hm hz
  unfold trHeadC getNnz
  refine Prog.Sim.bind Prog.Sim.read fun l hl => Prog.Sim.bind Prog.Sim.read fun b hb' => ?_
  have e1 := tr_ptr hT hkk hwf hp hbase hn hm hz (by omega) (by omega) hl
  have e2 := tr_ptr hT hkk hwf hp hbase hn hm hz (by omega) (by omega) hb'
  rw [show ((A.m : Int)).toNat = A.m by omega] at e1
  rw [show (0 : Int).toNat = 0 from rfl, hwf.ptr_zero] at e2
  have e3 : A.ptr A.m = A.nnz := rfl
  rw [e3] at e1
  have f1 : (l : Int) = (A.nnz : Int) + base := e1.1
  have f2 : (b : Int) = ((0 : Nat) : Int) + base := e2.1
  have hv : (A.nnz : Int) + base - (((0 : Nat) : Int) + base) = (A.nnz : Int) := by omega
  have hn' : -2147483648 ≤ ((A.n : Int) + 1) * T := by
    have : ((A.n : Int) + 1) * T = (A.n : Int) * T + T := by ring
    omega
  subst f1 f2
  refine sim_ck (by rw [hv]; exact ⟨by omega, by omega⟩) ?_
  split
  · exact .ret _ hv
  · exact sim_ck ⟨by omega, by omega⟩ (sim_ck ⟨hn', hn⟩ (.ret _ hv))

theorem sim_trCount {t : Nat} (ht : t < T) : Prog.Sim (TrSrc k) m0 (fun x : Int × Int => 0 ≤ x.1 ∧ x.1 ≤ x.2 ∧ x.2 ≤ A.m)
    (trCountC k k' base A.m A.n T t : Prog (CTy R) (Int × Int)) (trCount k k' base A.m A.n T t) := by
  have hb := tr_bound hT hkk hwf hp hbase hn hm hz
  have ht' := tr_mul (n := A.n) ht
  have nr := not_src_rowptr hT hkk hwf hp hbase hn hm hz
  unfold trCountC trCount lbPart
  refine Prog.Sim.bind (sim_loadBalanced (lo := base) (hi := A.nnz + base) (by omega) (by omega) (by omega) ?_ ?_ (by omega) (by omega) (by omega) (by omega)) fun be hbe => ?_
  · intro i
    refine Prog.Sim.mono (Q := fun v => TrSrc k (.rowptr k) → m0 (.rowptr k) i = some v) Prog.Sim.read fun v hv h0 => ?_
    subst h0
    have e2 := tr_ptr hT hkk hwf hp hbase hn hm hz (by omega) (by omega) hv
    rw [show (0 : Int).toNat = 0 from rfl, hwf.ptr_zero] at e2
    exact e2.1.trans (by omega)
  · refine Prog.Sim.mono (Q := fun v => TrSrc k (.rowptr k) → m0 (.rowptr k) A.m = some v) Prog.Sim.read fun v hv => ?_
    have e1 := tr_ptr hT hkk hwf hp hbase hn hm hz (by omega) (by omega) hv
    rw [show ((A.m : Int)).toNat = A.m by omega] at e1
    exact e1.1
  · refine sim_ck ⟨by omega, by omega⟩ (sim_ck ⟨by omega, by omega⟩ (sim_ck ⟨by omega, by omega⟩ ?_))
    refine Prog.Sim.bind (Prog.Sim.forUp' fun i _ _ => Prog.Sim.write nr) fun _ _ => ?_
    refine Prog.Sim.bind Prog.Sim.read fun lo _ => Prog.Sim.bind Prog.Sim.read fun hi _ => ?_
    refine Prog.Sim.bind (Prog.Sim.forUp' fun j _ _ => ?_) fun _ _ => .ret _ hbe
    refine Prog.Sim.bind Prog.Sim.read fun (idx : Int) _ => sim_ck ⟨by omega, by omega⟩ ?_
    refine Prog.Sim.bind Prog.Sim.assert fun _ (hi : (base : Int) ≤ idx ∧ idx < A.n + base) => sim_ck ⟨by omega, by omega⟩ (sim_ck ⟨by omega, by omega⟩ ?_)
    exact Prog.Sim.bind Prog.Sim.read fun v _ => Prog.Sim.write nr

theorem sim_trScan {t : Nat} (ht : t < T) : Prog.Sim (TrSrc k) m0 (fun _ => True)
    (trScanC k' base A.n T t : Prog (CTy R) Unit) (trScan k' A.n T t) := by
  have hb := tr_bound hT hkk hwf hp hbase hn hm hz
  have ht' := tr_mul (n := A.n) ht
  have nr := not_src_rowptr hT hkk hwf hp hbase hn hm hz
  unfold trScanC trScan
  refine sim_ck ⟨by omega, by omega⟩ (sim_ck ⟨by omega, by omega⟩ (sim_ck ⟨by omega, by omega⟩ (sim_ck ⟨by omega, by omega⟩ ?_)))
  refine Prog.Sim.forUp' fun i h1 h2 => ?_
  refine trIdxC_sim (by omega) (by omega) (by omega) fun g1 g2 => sim_ck ⟨by omega, by omega⟩ ?_
  refine trIdxC_sim (by omega) (by omega) (by omega) fun g3 g4 => sim_ck ⟨by omega, by omega⟩ (sim_ck ⟨by omega, by omega⟩ ?_)
  exact Prog.Sim.bind Prog.Sim.read fun _ _ => Prog.Sim.bind Prog.Sim.read fun _ _ => Prog.Sim.write nr

theorem sim_trMaster (hn0 : 0 < A.n) : Prog.Sim (TrSrc k) m0 (fun _ => True) (trMasterC k' base A.n T : Prog (CTy R) Unit) (trMaster k' A.n T) := by
  have hb := tr_bound hT hkk hwf hp hbase hn hm hz
  have nr := not_src_rowptr hT hkk hwf hp hbase hn hm hz
  unfold trMasterC trMaster
  refine Prog.Sim.forUp' fun i h1 h2 => ?_
  obtain ⟨t, rfl⟩ := Int.eq_ofNat_of_zero_le (by omega : 0 ≤ i)
  have ht' := tr_mul (n := A.n) (T := T) (t := t) (by omega)
  have hq := tr_mul (n := A.n) (T := T) (t := t - 1) (by omega)
  have hq' : (((t - 1 : Nat) : Int) + 1) * A.n = (t : Int) * A.n := by rw [show ((t - 1 : Nat) : Int) + 1 = t by omega]
  refine sim_ck ⟨by omega, by omega⟩ (sim_ck ⟨by omega, by omega⟩ (sim_ck ⟨by omega, by omega⟩ (sim_ck ⟨by omega, by omega⟩
    (sim_ck ⟨by omega, by omega⟩ ?_))))
  refine trIdxC_sim (by omega) (by omega) (by omega) fun g1 g2 => trIdxC_sim (by omega) (by omega) (by omega) fun g3 g4 => ?_
  refine sim_ck ⟨by omega, by omega⟩ (sim_ck ⟨by omega, by omega⟩ ?_)
  exact Prog.Sim.bind Prog.Sim.read fun _ _ => Prog.Sim.bind Prog.Sim.read fun _ _ => Prog.Sim.write nr

theorem sim_trAdd (hn0 : 0 < A.n) {t : Nat} (ht : t < T) : Prog.Sim (TrSrc k) m0 (fun _ => True)
    (trAddC k' base A.n T t : Prog (CTy R) Unit) (trAdd k' A.n T t) := by
  have hb := tr_bound hT hkk hwf hp hbase hn hm hz
  have ht' := tr_mul (n := A.n) ht
  have nr := not_src_rowptr hT hkk hwf hp hbase hn hm hz
  unfold trAddC trAdd
  refine Prog.Sim.ite (fun h0 => ?_) fun _ => .ret _ trivial
  have hq := tr_mul (n := A.n) (T := T) (t := t - 1) (by omega)
  have hq' : (((t - 1 : Nat) : Int) + 1) * A.n = (t : Int) * A.n := by rw [show ((t - 1 : Nat) : Int) + 1 = t by omega]
  refine sim_ck ⟨by omega, by omega⟩ (sim_ck ⟨by omega, by omega⟩ ?_)
  refine trIdxC_sim (by omega) (by omega) (by omega) fun g1 g2 => ?_
  refine sim_ck ⟨by omega, by omega⟩ (sim_ck ⟨by omega, by omega⟩ (sim_ck ⟨by omega, by omega⟩ (sim_ck ⟨by omega, by omega⟩ ?_)))
  refine Prog.Sim.forUp' fun i h1 h2 => ?_
  refine trIdxC_sim (by omega) (by omega) (by omega) fun g3 g4 => sim_ck ⟨by omega, by omega⟩ (sim_ck ⟨by omega, by omega⟩ ?_)
  exact Prog.Sim.bind Prog.Sim.read fun _ _ => Prog.Sim.bind Prog.Sim.read fun _ _ => Prog.Sim.write nr

theorem sim_trPlace {vals : Bool} {t : Nat} (ht : t < T) {be : Int × Int} (hbe : 0 ≤ be.1 ∧ be.1 ≤ be.2 ∧ be.2 ≤ (A.m : Int)) :
    Prog.Sim (TrSrc k) m0 (fun _ => True) (trPlaceC k k' base A.n vals A.nnz t be : Prog (CTy R) Unit)
      (trPlace k k' base A.n vals A.nnz t be) := by
  have hb := tr_bound hT hkk hwf hp hbase hn hm hz
  have ht' := tr_mul (n := A.n) ht
  have nr := not_src_rowptr hT hkk hwf hp hbase hn hm hz
  have nc := not_src_colidx hT hkk hwf hp hbase hn hm hz
  have nv := not_src_values hT hkk hwf hp hbase hn hm hz
  unfold trPlaceC trPlace
  refine sim_ck ⟨by omega, by omega⟩ (sim_ck ⟨by omega, by omega⟩ (sim_ck ⟨by omega, by omega⟩ ?_))
  refine Prog.Sim.forDown fun i h1 h2 => sim_ck ⟨by omega, by omega⟩ ?_
  refine Prog.Sim.bind Prog.Sim.read fun (hi : Int) hhi => Prog.Sim.bind Prog.Sim.read fun (lo : Int) hlo => ?_
  have e1 := tr_ptr hT hkk hwf hp hbase hn hm hz (by omega) (by omega) hhi
  have e2 := tr_ptr hT hkk hwf hp hbase hn hm hz (by omega) (by omega) hlo
  have e1' : hi ≤ A.nnz + base ∧ 0 ≤ hi := by have f : hi = _ := e1.1; have := e1.2; omega
  have e2' : (base : Int) ≤ lo := by have f : lo = _ := e2.1; omega
  refine sim_ck ⟨by have := e1'.2; omega, by have := e1'.1; omega⟩ ?_
  refine Prog.Sim.forDown fun j g1 g2 => ?_
  refine Prog.Sim.bind Prog.Sim.read fun (idx : Int) hidx => ?_
  obtain ⟨j', hj'⟩ := Int.eq_ofNat_of_zero_le (by omega : 0 ≤ j - base)
  have hjn : j' < A.nnz := by have := e1'.1; omega
  have hcol := hp.colidx j' hjn
  rw [← hj', hidx (Or.inr rfl)] at hcol
  have hc : (idx : Int) = (A.col j' : Int) + base := Option.some.inj hcol
  have hlt := hwf.col_lt j' hjn
  have hc' : 0 ≤ (idx : Int) ∧ (idx : Int) ≤ A.n - 1 + base := by rw [hc]; omega
  refine sim_ck ⟨by omega, by omega⟩ (sim_ck ⟨by have := hc'.1; omega, by have := hc'.2; omega⟩ ?_)
  refine Prog.Sim.bind Prog.Sim.read fun _ _ => Prog.Sim.bind (Prog.Sim.write nr) fun _ _ => Prog.Sim.bind Prog.Sim.read fun o _ => ?_
  refine Prog.Sim.bind (Q := fun _ => True) ?_ fun _ _ => Prog.Sim.write nc
  refine Prog.Sim.ite (fun _ => ?_) fun _ => .ret _ trivial
  exact Prog.Sim.bind Prog.Sim.assert fun _ _ => Prog.Sim.bind Prog.Sim.read fun _ _ => Prog.Sim.write nv

theorem sim_trDiag {rg : Int × Int} (hrg : 0 ≤ rg.1 ∧ rg.1 ≤ rg.2 ∧ rg.2 ≤ A.n) :
    Prog.Sim (TrSrc k) m0 (fun _ => True) (trDiagC k' base A.n A.nnz rg : Prog (CTy R) Unit) (trDiag k' base A.n A.nnz rg) := by
  have hb := tr_bound hT hkk hwf hp hbase hn hm hz
  have nr := not_src_rowptr hT hkk hwf hp hbase hn hm hz
  have nd := not_src_diagptr hT hkk hwf hp hbase hn hm hz
  unfold trDiagC trDiag
  refine sim_ck ⟨by omega, by omega⟩ (sim_ck ⟨by omega, by omega⟩ ?_)
  rw [Int.add_sub_cancel]
  refine Prog.Sim.bind (Prog.Sim.write nr) fun _ _ => sim_ck ⟨by omega, by omega⟩ (sim_ck ⟨by omega, by omega⟩ ?_)
  refine Prog.Sim.forUp' fun i h1 h2 => Prog.Sim.bind Prog.Sim.read fun lo _ => sim_ck ⟨by omega, by omega⟩ ?_
  refine Prog.Sim.bind Prog.Sim.read fun hi _ => Prog.Sim.forUp' fun j _ _ => Prog.Sim.bind Prog.Sim.read fun c _ => ?_
  exact Prog.Sim.ite (fun _ => Prog.Sim.write nd) fun _ => .ret _ trivial

theorem sim_trLast : Prog.Sim (TrSrc k) m0 (fun _ => True) (trLastC k' base A.n A.nnz : Prog (CTy R) Unit)
    (Prog.write (ty := CTy R) (.rowptr k') (A.n : Int) ((A.nnz : Int) + base)) := by
  have hb := tr_bound hT hkk hwf hp hbase hn hm hz
  have nr := not_src_rowptr hT hkk hwf hp hbase hn hm hz
  unfold trLastC
  refine sim_ck ⟨by omega, by omega⟩ (sim_ck ⟨by omega, by omega⟩ ?_)
  rw [Int.add_sub_cancel]
  exact Prog.Sim.write nr

theorem sim_transpose {sz : CArr → Int} {vals diag : Bool} {asg : Nat → Int × Int} (hn0 : 0 < A.n)
    (hasg : ∀ t, t < T → 0 ≤ (asg t).1 ∧ (asg t).1 ≤ (asg t).2 ∧ (asg t).2 ≤ A.n) :
    Script.Sim (TrSrc k) m0 (transposeC sz T k k' base A.m A.n vals diag asg : Script (CTy R) Unit)
      (transpose sz T k k' base A.m A.n vals diag asg) := by
  have nr := not_src_rowptr hT hkk hwf hp hbase hn hm hz
  unfold transposeC transpose
  refine Script.Sim.seq (sim_trHead hT hkk hwf hp hbase hn hm hz) fun z hz' => ?_
  subst hz'
  rw [if_neg (Nat.ne_of_gt hn0), if_neg (Nat.ne_of_gt hn0)]
  refine .phase _ _ (fun _ (x : Int × Int) => 0 ≤ x.1 ∧ x.1 ≤ x.2 ∧ x.2 ≤ A.m) _ _ _ _ (fun t ht => sim_trCount hT hkk hwf hp hbase hn hm hz ht) fun be hbe => ?_
  refine .phase _ _ (fun _ _ => True) _ _ _ _ (fun t ht => sim_trScan hT hkk hwf hp hbase hn hm hz ht) fun _ _ => ?_
  refine Script.Sim.seq (sim_trMaster hT hkk hwf hp hbase hn hm hz hn0) fun _ _ => ?_
  refine .phase _ _ (fun _ _ => True) _ _ _ _ (fun t ht => sim_trAdd hT hkk hwf hp hbase hn hm hz hn0 ht) fun _ _ => ?_
  refine .phase _ _ (fun _ _ => True) _ _ _ _ (fun t ht => sim_trPlace hT hkk hwf hp hbase hn hm hz ht (hbe t ht)) fun _ _ => ?_
  refine Script.Sim.bind ?_ fun _ => Script.Sim.bind ?_ fun _ => ?_
  · split
    · refine Script.Sim.bind ?_ fun _ => ?_
      · exact .phase _ _ (fun _ _ => True) _ _ _ _ (fun t ht => Prog.Sim.bind Prog.Sim.read fun _ _ => Prog.Sim.write nr) fun _ _ => .done _
      · exact .phase _ _ (fun _ _ => True) _ _ _ _ (fun t ht => Prog.Sim.bind Prog.Sim.read fun _ _ => Prog.Sim.assert.mono fun _ _ => trivial) fun _ _ => .done _
    · exact .done _
  · split
    · exact .phase _ _ (fun _ _ => True) _ _ _ _ (fun t ht => sim_trDiag hT hkk hwf hp hbase hn hm hz (hasg t ht)) fun _ _ => .done _
    · exact .done _
  · exact Script.Sim.seq (sim_trLast hT hkk hwf hp hbase hn hm hz) fun _ _ => .done _

end
end SpMP
