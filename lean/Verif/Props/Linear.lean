import Verif.SpMV
import Verif.SpMDM
import Verif.CsrQuery
import Verif.CsrDiag
import Verif.CsrMetrics
/-
Property theorems C22, C23, C25-C28, C49, C52.
-/

namespace SpMP.Props
open SpMP SpMP.Spec

variable {R : Type}

/-- Memory `m` with vector `v` of length `n` holding `f`. -/
def withVec (m : Mem (CTy R)) (v n : Nat) (f : Nat → R) : Mem (CTy R)
  | .vec j, i => if j = v then (if 0 ≤ i ∧ i < n then some (f i.toNat) else none) else m (.vec j) i
  | a, i => m a i

theorem withVec_pat {m : Mem (CTy R)} {v n : Nat} {f : Nat → R} {k b : Nat} {A : Csr R} (h : HoldsPat m k b A) :
    HoldsPat (withVec m v n f) k b A := ⟨h.rowptr, h.colidx⟩

theorem withVec_val {m : Mem (CTy R)} {v n : Nat} {f : Nat → R} {k : Nat} {A : Csr R} (h : HoldsVal m k A) :
    HoldsVal (withVec m v n f) k A := h

theorem withVec_get {m : Mem (CTy R)} {v n : Nat} {f : Nat → R} {c : Nat} (h : c < n) :
    withVec m v n f (.vec v) (c : Int) = some (f c) := by
  show (if v = v then (if 0 ≤ (c : Int) ∧ (c : Int) < n then some (f (c : Int).toNat) else none) else m (.vec v) c) = _
  rw [if_pos rfl, if_pos (by omega)]; rfl

/-! ## C22 -/

/-- C22: `w = alpha*A*x + beta*y + gamma` for every branch, base, team size, schedule and aliasing of `w` with `x` or `y`,
except that a call with `w == x` needs a matrix with no more columns than rows (see `C22_alias_false`). `pat`: the matrix
has no values array and every stored entry counts as 1. Nothing but `w` (and the internal copy `tmp`) changes; `y` need not
be initialised when it is not used. -/
theorem C22_spmv_partial [CommRing R] [DecidableEq R] {sz : CArr → Int} {T k base : Nat} {A : Csr R} {pat : Bool}
    {w x y tmp : Nat} {α β γ : R} {m0 : Mem (CTy R)} {xv yv : Nat → R} (hT : 1 ≤ T)
    (htmp : tmp ≠ w ∧ tmp ≠ x ∧ tmp ≠ y) (halias : w = x → A.n ≤ A.m)
    (hwf : A.WF) (hp : HoldsPat m0 k base A) (hv : pat = false → HoldsVal m0 k A)
    (hx : ∀ c : Nat, c < max A.n (if w = x then A.m else 0) → m0 (.vec x) (c : Int) = some (xv c))
    (hy : ¬ (α = 1 ∧ β = 0 ∧ γ = 0) → ∀ i : Nat, i < A.m → m0 (.vec y) (i : Int) = some (yv i))
    (hsz : (A.m : Int) ≤ sz (.vec w)) (hszt : w = x → (A.m : Int) ≤ sz (.vec tmp)) :
    (multiplyWithVector sz T k A.m pat w x y tmp α β γ).Ok m0 (fun _ m' =>
      (∀ i : Nat, i < A.m → m' (.vec w) (i : Int) =
        some (α * (∑ j ∈ Finset.Ico (A.ptr i) (A.ptr (i + 1)), (if pat then 1 else A.val j) * xv (A.col j)) + β * yv i + γ)) ∧
      (∀ i : Int, ¬ (0 ≤ i ∧ i < A.m) → m' (.vec w) i = m0 (.vec w) i) ∧
      ∀ a, a ≠ .vec w → a ≠ .vec tmp → m' a = m0 a) := by
  refine Script.Ok.mono (multiplyWithVector_ok (xv := xv) (yv := yv) hT htmp halias hwf hp hv hx hy hsz hszt) ?_
  rintro _ m' ⟨h1, h2, h3⟩
  refine ⟨?_, h2, h3⟩
  intro i hi
  rw [h1 i hi]
  cases pat <;> simp [Csr.eff, Csr.mulVec, Csr.ones]

/-- C22, the two-argument overload `multiplyWithVector(w, x)`, which calls the general one with `alpha = 1`,
`y = w`, `beta = gamma = 0` (CSR.hpp): `w = A*x`; `w` need not be initialised. -/
theorem C22_spmv_plain [CommRing R] [DecidableEq R] {sz : CArr → Int} {T k base : Nat} {A : Csr R} {pat : Bool}
    {w x tmp : Nat} {m0 : Mem (CTy R)} {xv : Nat → R} (hT : 1 ≤ T) (htmp : tmp ≠ w ∧ tmp ≠ x) (hwx : w ≠ x)
    (hwf : A.WF) (hp : HoldsPat m0 k base A) (hv : pat = false → HoldsVal m0 k A)
    (hx : ∀ c : Nat, c < A.n → m0 (.vec x) (c : Int) = some (xv c)) (hsz : (A.m : Int) ≤ sz (.vec w)) :
    (multiplyWithVector sz T k A.m pat w x w tmp 1 0 0).Ok m0 (fun _ m' =>
      (∀ i : Nat, i < A.m → m' (.vec w) (i : Int) =
        some (∑ j ∈ Finset.Ico (A.ptr i) (A.ptr (i + 1)), (if pat then 1 else A.val j) * xv (A.col j)))) := by
  refine Script.Ok.mono (C22_spmv_partial (xv := xv) (yv := fun _ => 0) hT ⟨htmp.1, htmp.2, htmp.1⟩
    (fun h => absurd h hwx) hwf hp hv ?_ ?_ hsz (fun h => absurd h hwx)) ?_
  · intro c hc; rw [if_neg hwx] at hc; exact hx c (by omega)
  · intro h; exact absurd ⟨rfl, rfl, rfl⟩ h
  · rintro _ m' ⟨h1, _, _⟩
    intro i hi
    rw [h1 i hi]; simp

/-- A 1x2 matrix with the single entry (0,1). -/
def wideCsr : Csr Int where
  m := 1
  n := 2
  ptr := fun i => [0, 1].getD i 1
  col := fun _ => 1
  val := fun _ => 3

theorem wideCsr_wf : wideCsr.WF := by
  refine ⟨rfl, ?_, ?_⟩
  · intro i hi; change i < 1 at hi
    match i, hi with
    | 0, _ => decide
  · intro j _; show (_ : Nat) < _; first | exact Nat.one_lt_two | exact Nat.one_pos

/-- C22 is false for `w == x` when the matrix has more columns than rows: only `m` elements of `x` are saved, and the
product reads beyond them. -/
theorem C22_alias_false :
    ¬ (∀ (sz : CArr → Int) (T : Nat) (A : Csr Int) (m0 : Mem (CTy Int)) (xv : Nat → Int),
      1 ≤ T → A.WF → HoldsPat m0 0 0 A → HoldsVal m0 0 A →
      (∀ c : Nat, c < max A.n A.m → m0 (.vec 0) (c : Int) = some (xv c)) →
      (∀ v, (max A.n A.m : Int) ≤ sz (.vec v)) →
      (multiplyWithVector sz T 0 A.m false 0 0 0 1 1 0 0).Ok m0 (fun _ m' =>
        ∀ i : Nat, i < A.m → m' (.vec 0) (i : Int) = some (A.mulVec xv i))) := by
  intro h
  let m0 : Mem (CTy Int) := withVec (csrMem 0 0 wideCsr (fun _ => 0) (fun _ => 0)) 0 2 (fun _ => 1)
  have h1 := h (fun _ => 2) 1 wideCsr m0 (fun _ => 1) (by omega) wideCsr_wf
    (withVec_pat (csrMem_pat 0 0 wideCsr _ _)) (withVec_val (csrMem_val 0 0 wideCsr _ _))
    (fun c hc => withVec_get (f := fun _ => 1) hc) (fun _ => by decide)
  have h2 := h1.not_runUB
  have h3 : (multiplyWithVector (R := Int) (fun _ => 2) 1 0 1 false 0 0 0 1 1 0 0).runUB m0 = true := by rfl
  rw [show wideCsr.m = 1 from rfl, h3] at h2
  cases h2

-- the hypotheses are met by a base-1 3x3 matrix, x = y = w aliased, two threads; and the result is the product
example : ∃ m0 : Mem (CTy Int), HoldsPat m0 0 1 exampleCsr ∧ HoldsVal m0 0 exampleCsr ∧
    (∀ c : Nat, c < 3 → m0 (.vec 0) (c : Int) = some ((c : Int) + 1)) ∧
    ((multiplyWithVector (fun _ => 3) 2 0 3 false 0 0 0 1 2 3 4).run m0).map
      (fun r => ([r.2 (.vec 0) 0, r.2 (.vec 0) 1, r.2 (.vec 0) 2] : List (Option Int))) =
      some [some (2 * 26 + 3 * 1 + 4), some (3 * 2 + 4), some (2 * (14 + 27) + 3 * 3 + 4)] := by
  refine ⟨withVec (csrMem 0 1 exampleCsr (fun _ => 0) (fun _ => 0)) 0 3 (fun i => (i : Int) + 1),
    withVec_pat (csrMem_pat 0 1 exampleCsr _ _), withVec_val (csrMem_val 0 1 exampleCsr _ _),
    fun c hc => withVec_get hc, by rfl⟩

/-! ## C23 -/

/-- C23 where the row strides are compatible with the base (base 0, or all row strides 1): every element (i,c) of `W` is
`alpha*(A X)_{ic} + beta*Y_{ic} + gamma`; no other element changes. `W` does not overlap `X`; `W` and `Y` are the same
operand or different arrays; the layout of `W` addresses distinct elements. -/
theorem C23_spmdm_partial [CommRing R] [DecidableEq R] {sz : CArr → Int} {T k base kk : Nat} {A : Csr R}
    {w x y : DenseOp} {α β γ : R} {m0 : Mem (CTy R)} {xv yv : Nat → Nat → R} (hT : 1 ≤ T) (hwx : w.id ≠ x.id)
    (hwy : w.id = y.id → w = y) (hbase : base = 0 ∨ (w.rs = 1 ∧ x.rs = 1 ∧ y.rs = 1))
    (hwf : A.WF) (hp : HoldsPat m0 k base A) (hv : HoldsVal m0 k A)
    (hx : ∀ c i3 : Nat, c < A.n → i3 < kk → m0 (.vec x.id) ((c : Int) * x.rs + (i3 : Int) * x.cs) = some (xv c i3))
    (hy : ∀ i i3 : Nat, i < A.m → i3 < kk → m0 (.vec y.id) ((i : Int) * y.rs + (i3 : Int) * y.cs) = some (yv i i3))
    (hinj : ∀ i c i' c' : Nat, i < A.m → c < kk → i' < A.m → c' < kk →
      (i : Int) * w.rs + (c : Int) * w.cs = (i' : Int) * w.rs + (c' : Int) * w.cs → i = i' ∧ c = c')
    (hsz : ∀ i c : Nat, i < A.m → c < kk →
      0 ≤ (i : Int) * w.rs + (c : Int) * w.cs ∧ (i : Int) * w.rs + (c : Int) * w.cs < sz (.vec w.id)) :
    (multiplyWithDenseMatrix sz T k A.m kk w x y α β γ).Ok m0 (fun _ m' =>
      (∀ i c : Nat, i < A.m → c < kk → m' (.vec w.id) ((i : Int) * w.rs + (c : Int) * w.cs) =
        some (α * (∑ j ∈ Finset.Ico (A.ptr i) (A.ptr (i + 1)), A.val j * xv (A.col j) c) + β * yv i c + γ)) ∧
      (∀ p : Int, (∀ i c : Nat, i < A.m → c < kk → p ≠ (i : Int) * w.rs + (c : Int) * w.cs) →
        m' (.vec w.id) p = m0 (.vec w.id) p) ∧
      ∀ a, a ≠ .vec w.id → m' a = m0 a) :=
  multiplyWithDenseMatrix_ok hT hwx hwy hbase hwf hp hv hx hy hinj hsz

/-- The 1x1 matrix (5). -/
def oneCsr : Csr Int where
  m := 1
  n := 1
  ptr := fun i => [0, 1].getD i 1
  col := fun _ => 0
  val := fun _ => 5

theorem oneCsr_wf : oneCsr.WF := by
  refine ⟨rfl, ?_, ?_⟩
  · intro i hi; change i < 1 at hi
    match i, hi with
    | 0, _ => decide
  · intro j _; show (_ : Nat) < _; first | exact Nat.one_lt_two | exact Nat.one_pos

/-- C23 is false for base-1 matrices with a row stride other than 1: the operand pointers are moved back by `base`
elements, not by `base` rows, so a 1x1 product reads beyond `X`. -/
theorem C23_stride_false :
    ¬ (∀ (sz : CArr → Int) (A : Csr Int) (rs : Int) (m0 : Mem (CTy Int)) (xv : Nat → Int),
      A.WF → HoldsPat m0 0 1 A → HoldsVal m0 0 A → 1 ≤ rs →
      (∀ c : Nat, c < A.n → m0 (.vec 0) ((c : Int) * rs) = some (xv c)) →
      (∀ i : Nat, i < A.m → m0 (.vec 1) ((i : Int) * 1) = some 0) →
      (∀ v, (max A.n A.m : Int) ≤ sz (.vec v)) →
      (multiplyWithDenseMatrix sz 1 0 A.m 1 ⟨1, 1, 1⟩ ⟨0, rs, 1⟩ ⟨1, 1, 1⟩ 1 0 0).Ok m0 (fun _ m' =>
        ∀ i : Nat, i < A.m → m' (.vec 1) ((i : Int) * 1) = some (A.mulVec xv i))) := by
  intro h
  let m0 : Mem (CTy Int) := withVec (withVec (csrMem 0 1 oneCsr (fun _ => 0) (fun _ => 0)) 0 1 (fun _ => 1)) 1 1 (fun _ => 0)
  have h1 := h (fun _ => 2) oneCsr 2 m0 (fun _ => 1) oneCsr_wf
    (withVec_pat (withVec_pat (csrMem_pat 0 1 oneCsr _ _))) (withVec_val (withVec_val (csrMem_val 0 1 oneCsr _ _))) (by omega)
    (by intro c hc
        have hc : c < 1 := hc
        obtain rfl : c = 0 := by omega
        rfl)
    (by intro c hc
        have hc : c < 1 := hc
        obtain rfl : c = 0 := by omega
        rfl) (fun _ => by decide)
  have h2 := h1.not_runUB
  have h3 : (multiplyWithDenseMatrix (R := Int) (fun _ => 2) 1 0 1 1 ⟨1, 1, 1⟩ ⟨0, 2, 1⟩ ⟨1, 1, 1⟩ 1 0 0).runUB m0 = true := by rfl
  rw [show oneCsr.m = 1 from rfl, h3] at h2
  cases h2

-- base 0, row-major operands with two columns (row stride 2): the hypotheses on the layout are met
example : ∀ i c i' c' : Nat, i < 3 → c < 2 → i' < 3 → c' < 2 →
    (i : Int) * 2 + (c : Int) * 1 = (i' : Int) * 2 + (c' : Int) * 1 → i = i' ∧ c = c' := by omega
example : ((multiplyWithDenseMatrix (R := Int) (fun _ => 6) 2 0 3 2 ⟨1, 2, 1⟩ ⟨0, 2, 1⟩ ⟨1, 2, 1⟩ 1 0 0).run
    (withVec (withVec (csrMem 0 0 exampleCsr (fun _ => 0) (fun _ => 0)) 0 6 (fun i => (i : Int))) 1 6 (fun _ => 0))).map
      (fun r => ([r.2 (.vec 1) 0, r.2 (.vec 1) 1, r.2 (.vec 1) 4, r.2 (.vec 1) 5] : List (Option Int))) =
      some [some (7 * 4), some (7 * 5 + 5 * 1), some (3 * 2 + 4 * 2 + 9 * 4), some (3 * 3 + 4 * 3 + 9 * 5)] := by rfl

/-! ## C25 -/

/-- Entry `j` belongs to the local part of row `i`: before `ep i` (the row end if the matrix has no external columns). -/
def LocalEntry (A : Csr R) (ep : Nat → Nat) (i j : Nat) : Prop := i < A.m ∧ A.ptr i ≤ j ∧ j < ep i

/-- C25 for base 0 and rows without duplicate columns: the answer is `true` exactly if the matrix is square (or has an
external part) and every local off-diagonal entry (i,c) with `c < m` has a local partner (c,i), with the same value if
values are checked. Both the parallel and the printing version; all team sizes and schedules. -/
theorem C25_isSymmetric_partial [DecidableEq R] {sz : CArr → Int} {T k : Nat} {A : Csr R} {ep : Nat → Nat}
    {ext chk print : Bool} {m0 : Mem (CTy R)} (hT : 1 ≤ T) (hwf : A.WF) (hp : HoldsPat m0 k 0 A)
    (hv : chk = true → HoldsVal m0 k A) (he : HoldsExt m0 k 0 A ext ep) (hsz : 1 ≤ sz (.itmp 0))
    (hnd : chk = true → ∀ i a b, LocalEntry A ep i a → LocalEntry A ep i b → A.col a = A.col b → a = b) :
    (isSymmetric sz T k A.m A.n ext chk print).Ok m0 (fun res m' =>
      (res = true ↔ (A.m = A.n ∨ ext = true) ∧
        ∀ i j, LocalEntry A ep i j → A.col j ≠ i → A.col j < A.m →
          ∃ l, LocalEntry A ep (A.col j) l ∧ A.col l = i ∧ (chk = true → A.val l = A.val j)) ∧
      ∀ a, a ≠ .itmp 0 → m' a = m0 a) := by
  refine Script.Ok.mono (isSymmetric_ok trivial hT hwf hp hv he hsz) ?_
  rintro res m' ⟨h1, h2⟩
  refine ⟨h1.trans ?_, h2⟩
  constructor
  · rintro ⟨h3, h4⟩
    refine ⟨h3, ?_⟩
    rintro i j ⟨g1, g2, g3⟩ g4 g5
    obtain ⟨l, d1, d2, d3, _, d5⟩ := h4 i g1 j g2 g3 g4 (by omega)
    exact ⟨l, ⟨by omega, d1, d2⟩, d3, fun h => (d5 h).symm⟩
  · rintro ⟨h3, h4⟩
    refine ⟨h3, ?_⟩
    intro i hi j g1 g2 g3 g4
    obtain ⟨l, ⟨d1, d2, d3⟩, d4, d5⟩ := h4 i j ⟨hi, g1, g2⟩ g3 (by omega)
    have hex : ∃ l, A.ptr (A.col j) ≤ l ∧ l < ep (A.col j) ∧ A.col l = i := ⟨l, d2, d3, d4⟩
    classical
    obtain ⟨f1, f2, f3⟩ := Nat.find_spec hex
    have hmin := fun q hq => Nat.find_min hex (m := q) hq
    generalize Nat.find hex = f at f1 f2 f3 hmin
    refine ⟨f, f1, f2, f3, ?_, ?_⟩
    · intro l' e1 e2 e3; exact hmin l' e2 ⟨e1, by omega, e3⟩
    · intro hc
      have : f = l := hnd hc (A.col j) f l ⟨d1, f1, f2⟩ ⟨d1, d2, d3⟩ (by rw [f3, d4])
      subst this; exact (d5 hc).symm

/-- The 2x2 matrix with the single entry (0,1). -/
def upperCsr : Csr Int where
  m := 2
  n := 2
  ptr := fun i => [0, 1, 1].getD i 1
  col := fun _ => 1
  val := fun _ => 3

theorem upperCsr_wf : upperCsr.WF := by
  refine ⟨rfl, ?_, ?_⟩
  · intro i hi; change i < 2 at hi
    match i, hi with
    | 0, _ => decide
    | 1, _ => decide
  · intro j _; show (_ : Nat) < _; first | exact Nat.one_lt_two | exact Nat.one_pos

/-- C25 is false for base 1: entries in the last column are skipped, so the matrix with the single entry (0,1) is called
symmetric. -/
theorem C25_base1_false :
    ¬ (∀ (sz : CArr → Int) (A : Csr Int) (m0 : Mem (CTy Int)), A.WF → A.m = A.n → HoldsPat m0 0 1 A → 1 ≤ sz (.itmp 0) →
      (isSymmetric sz 1 0 A.m A.n false false false).Ok m0 (fun res _ =>
        res = true ↔ ∀ i j, A.InRow i j → A.col j ≠ i → ∃ l, A.InRow (A.col j) l ∧ A.col l = i)) := by
  intro h
  have h1 := (h (fun _ => 1) upperCsr (csrMem 0 1 upperCsr (fun _ => 0) (fun _ => 0)) upperCsr_wf rfl
    (csrMem_pat 0 1 upperCsr _ _) (by decide)).run
  have hr : ∃ m', (isSymmetric (R := Int) (fun _ => 1) 1 0 2 2 false false false).run
      (csrMem 0 1 upperCsr (fun _ => 0) (fun _ => 0)) = some (true, m') := ⟨_, rfl⟩
  obtain ⟨m', hr⟩ := hr
  obtain ⟨l, hl, _⟩ := (h1 _ _ hr).1 rfl 0 0 ⟨by decide, by decide, by decide⟩ (by decide)
  have g1 : upperCsr.ptr 1 ≤ l := hl.2.1
  have g2 : l < upperCsr.ptr 2 := hl.2.2
  have e1 : upperCsr.ptr 1 = 1 := rfl
  have e2 : upperCsr.ptr 2 = 1 := rfl
  omega

-- base 0: the same matrix is correctly refused, and a symmetric one accepted, by two threads
example : HoldsExt (csrMem 0 0 upperCsr (fun _ => 0) (fun _ => 0)) 0 0 upperCsr false (fun i => upperCsr.ptr (i + 1)) :=
  ⟨by simp, fun _ _ _ => rfl, fun i hi => ⟨upperCsr_wf.ptr_step i hi, Nat.le_refl _⟩⟩
example : ((isSymmetric (R := Int) (fun _ => 1) 2 0 2 2 false false false).run
    (csrMem 0 0 upperCsr (fun _ => 0) (fun _ => 0))).map (·.1) = some false := by rfl
example : ((isSymmetric (R := Int) (fun _ => 1) 2 0 2 2 false true false).run
    (csrMem 0 0 ⟨2, 2, fun i => i, fun j => 1 - j, fun _ => 4⟩ (fun _ => 0) (fun _ => 0))).map (·.1) = some true := by rfl

/-! ## C26 -/

/-- C26 for base 0: `hasZeroDiag` answers `true` exactly if some row stores no nonzero diagonal entry; all team sizes and
schedules. -/
theorem C26_hasZeroDiag_partial [DecidableEq R] [Zero R] {sz : CArr → Int} {T k : Nat} {A : Csr R} {m0 : Mem (CTy R)}
    (hT : 1 ≤ T) (hwf : A.WF) (hp : HoldsPat m0 k 0 A) (hv : HoldsVal m0 k A) (hsz : 1 ≤ sz (.itmp 0)) :
    (hasZeroDiag sz T k A.m).Ok m0 (fun res m' =>
      (res = true ↔ ∃ i, i < A.m ∧ ∀ j, A.InRow i j → A.col j = i → A.val j = 0) ∧
      ∀ a, a ≠ .itmp 0 → m' a = m0 a) := by
  refine Script.Ok.mono (hasZeroDiag_ok trivial hT hwf hp hv hsz) ?_
  rintro res m' ⟨h1, h2⟩
  refine ⟨h1.trans ?_, h2⟩
  constructor
  · rintro ⟨i, hi, h⟩
    refine ⟨i, hi, fun j g1 g2 => ?_⟩
    by_contra hc; exact h ⟨j, g1, g2, hc⟩
  · rintro ⟨i, hi, h⟩
    refine ⟨i, hi, ?_⟩
    rintro ⟨j, g1, g2, g3⟩; exact g3 (h j g1 g2)

/-- C26 is false for base 1: the unshifted arrays are indexed from 1, so that already the 1x1 matrix (5) makes the code
read beyond the row pointers. -/
theorem C26_base1_false :
    ¬ (∀ (sz : CArr → Int) (A : Csr Int) (m0 : Mem (CTy Int)), A.WF → HoldsPat m0 0 1 A → HoldsVal m0 0 A →
      1 ≤ sz (.itmp 0) →
      (hasZeroDiag sz 1 0 A.m).Ok m0 (fun res _ =>
        res = true ↔ ∃ i, i < A.m ∧ ∀ j, A.InRow i j → A.col j = i → A.val j = 0)) := by
  intro h
  have h1 := (h (fun _ => 1) oneCsr (csrMem 0 1 oneCsr (fun _ => 0) (fun _ => 0)) oneCsr_wf
    (csrMem_pat 0 1 oneCsr _ _) (csrMem_val 0 1 oneCsr _ _) (by decide)).not_runUB
  have h3 : (hasZeroDiag (R := Int) (fun _ => 1) 1 0 1).runUB (csrMem 0 1 oneCsr (fun _ => 0) (fun _ => 0)) = true := by rfl
  rw [show oneCsr.m = 1 from rfl, h3] at h1
  cases h1

-- base 0: exampleCsr has an empty row (true), the 1x1 matrix (5) has a full diagonal (false)
example : ((hasZeroDiag (R := Int) (fun _ => 1) 2 0 3).run (csrMem 0 0 exampleCsr (fun _ => 0) (fun _ => 0))).map (·.1) =
    some true := by rfl
example : ((hasZeroDiag (R := Int) (fun _ => 1) 2 0 1).run (csrMem 0 0 oneCsr (fun _ => 0) (fun _ => 0))).map (·.1) =
    some false := by rfl

/-! ## C27 -/

/-- C27, bandwidth: the result is the largest distance `|i - column|` of a stored entry (INT_MIN for an empty matrix),
for every team size, schedule and reduction order. -/
theorem C27_bandwidth {sz : CArr → Int} {T k base : Nat} {A : Csr R} {m0 : Mem (CTy R)} {tr : RedTree} (hT : 1 ≤ T)
    (htr : tr.Admissible T) (hwf : A.WF) (hp : HoldsPat m0 k base A) :
    (getBandwidth sz T k A.m tr).Ok m0 (fun b m' => m' = m0 ∧
      (∀ i j, A.InRow i j → |(A.col j : Int) - i| ≤ b) ∧
      (0 < A.nnz → ∃ i j, A.InRow i j ∧ b = |(A.col j : Int) - i|) ∧ (A.nnz = 0 → b = intMin)) := by
  refine Script.Ok.mono (getBandwidth_ok hT htr hwf hp) ?_
  rintro b m' ⟨h1, h2, h3⟩
  have habs : ∀ z : Int, |z| = (z.natAbs : Int) := fun z => Int.abs_eq_natAbs z
  refine ⟨h1, fun i j hij => by rw [habs]; exact h2 i j hij, ?_, ?_⟩
  · intro hn
    rcases h3 with h3 | ⟨i, j, hij, h3⟩
    · obtain ⟨i, hi⟩ := hwf.exists_row hn
      have := h2 i 0 hi
      subst h3; unfold intMin at this; omega
    · exact ⟨i, j, hij, by rw [habs]; exact h3⟩
  · intro hn
    rcases h3 with h3 | ⟨i, j, hij, h3⟩
    · exact h3
    · have := hij.lt_nnz hwf; omega

/-- C27, average width: mean over the rows of (largest column - smallest column), empty rows counting 0, for every team
size, schedule and reduction order; the `sorted` variant needs sorted rows. Columns fit in an `int`. -/
theorem C27_averageWidth {sz : CArr → Int} {T k base : Nat} {A : Csr R} {m0 : Mem (CTy R)} {tr : RedTree} {sorted : Bool}
    (hT : 1 ≤ T) (htr : tr.Admissible (if sorted then A.m else T)) (hwf : A.WF) (hp : HoldsPat m0 k base A)
    (hs : sorted = true → ∀ i, i < A.m → A.RowSorted i) (hn : (A.n : Int) + base ≤ intMax + 1) :
    ∃ w : Nat → Nat, (∀ i, i < A.m → IsRowWidth A i (w i)) ∧
    (getAverageWidth sz T k A.m sorted tr).Ok m0 (fun q m' => m' = m0 ∧
      q = ((∑ i ∈ Finset.range A.m, w i : Nat) : Rat) / A.m) := by
  have : ∀ i, ∃ w, i < A.m → IsRowWidth A i w := by
    intro i
    by_cases hi : i < A.m
    · obtain ⟨w, hw⟩ := exists_rowWidth hwf i hi; exact ⟨w, fun _ => hw⟩
    · exact ⟨0, fun h => absurd h hi⟩
  choose w hw using this
  exact ⟨w, hw, getAverageWidth_ok hT htr hwf hp hs hn hw⟩

/-- C27, degree: the largest row length (0 if there are no rows). -/
theorem C27_maxDegree {sz : CArr → Int} {k base : Nat} {A : Csr R} {m0 : Mem (CTy R)} (hwf : A.WF)
    (hp : HoldsPat m0 k base A) :
    (Script.seq sz (getMaxDegree k A.m) Script.done).Ok m0 (fun d m' => m' = m0 ∧
      (∀ i, i < A.m → (A.ptr (i + 1) : Int) - A.ptr i ≤ d) ∧ (A.m = 0 → d = 0) ∧
      (0 < A.m → ∃ i, i < A.m ∧ d = (A.ptr (i + 1) : Int) - A.ptr i)) :=
  seq_rule (wp_getMaxDegree hwf hp (fun _ _ => trivial))

-- exampleCsr (row 0: columns 2,0; row 2: columns 1,1,2): bandwidth 2, widths 2,0,1, degree 3, for three threads and base 1
example : (RedTree.chain 3).Admissible 3 := RedTree.chain_admissible 3
example : ((getBandwidth (R := Int) (fun _ => 0) 3 0 3 (RedTree.chain 3)).run
    (csrMem 0 1 exampleCsr (fun _ => 0) (fun _ => 0))).map (·.1) = some 2 := by rfl
example : (exampleCsr.n : Int) + 1 ≤ intMax + 1 := by decide
example : ([0, 1, 2].map fun i => ((widthRow (R := Int) 0 1 (i + 1)).run (fun _ => 0)
    (csrMem 0 1 exampleCsr (fun _ => 0) (fun _ => 0))).map (·.1)) = [some 2, some 0, some 1] := by rfl
example : ((getMaxDegree (R := Int) 0 3).run (fun _ => 0)
    (csrMem 0 1 exampleCsr (fun _ => 0) (fun _ => 0))).map (·.1) = some 3 := by rfl

/-! ## C28 -/

/-- C28: `equals` returns `true` exactly when base, dimensions, row pointers, column indices and values agree. -/
theorem C28_equals [DecidableEq R] {sz : CArr → Int} {k k' base base' : Nat} {A B : Csr R} {m : Mem (CTy R)}
    (hA : A.WF) (hB : B.WF) (hpA : HoldsPat m k base A) (hpB : HoldsPat m k' base' B) (hvA : HoldsVal m k A)
    (hvB : HoldsVal m k' B) :
    (Script.seq sz (csrEquals k k' A.m A.n B.m B.n) Script.done).Ok m (fun res m' => m' = m ∧
      (res = true ↔ base = base' ∧ A.m = B.m ∧ A.n = B.n ∧ (∀ i, i ≤ A.m → A.ptr i = B.ptr i) ∧
        ∀ j, j < A.nnz → A.col j = B.col j ∧ A.val j = B.val j)) :=
  seq_rule (wp_csrEquals hA hB hpA hpB hvA hvB (fun _ _ => trivial))

example : ((csrEquals (R := Int) 0 0 3 3 3 3).run (fun _ => 0)
    (csrMem 0 1 exampleCsr (fun _ => 0) (fun _ => 0))).map (·.1) = some true := by rfl

/-! ## C49 -/

/-- C49: if every row is sorted and contains its diagonal entry, constructDiagPtr points at a diagonal entry of each row,
for base 0 and 1 and every schedule. -/
theorem C49_constructDiagPtr {sz : CArr → Int} {k base : Nat} {A : Csr R} {m0 : Mem (CTy R)} (hwf : A.WF)
    (hp : HoldsPat m0 k base A) (hs : ∀ i, i < A.m → A.RowSorted i ∧ ∃ d, A.InRow i d ∧ A.col d = i)
    (hsz : (A.m : Int) ≤ sz (.diagptr k)) :
    (constructDiagPtr sz k A.m false).Ok m0 (fun _ m' =>
      (∀ i : Nat, i < A.m → ∃ d, A.InRow i d ∧ A.col d = i ∧ m' (.diagptr k) (i : Int) = some ((d : Int) + base)) ∧
      ∀ a, a ≠ .diagptr k → m' a = m0 a) := by
  refine Script.Ok.mono (constructDiagPtr_ok hwf hp hs hsz) ?_
  rintro _ m' ⟨⟨dp, h1⟩, h2⟩
  exact ⟨fun i hi => ⟨dp i, h1 i hi⟩, h2⟩

/-- C49: computeInverseDiag stores the reciprocal of the stored diagonal value of every row, constructing the diagonal
pointers first if they do not exist. -/
theorem C49_computeInverseDiag [One R] [Div R] {sz : CArr → Int} {k base : Nat} {A : Csr R} {m0 : Mem (CTy R)}
    (hwf : A.WF) (hp : HoldsPat m0 k base A) (hv : HoldsVal m0 k A)
    (hs : ∀ i, i < A.m → A.RowSorted i ∧ ∃ d, A.InRow i d ∧ A.col d = i)
    (hsz : (A.m : Int) ≤ sz (.diagptr k)) (hszi : (A.m : Int) ≤ sz (.idiag k)) :
    (computeInverseDiag sz k A.m false false).Ok m0 (fun _ m' =>
      (∀ i : Nat, i < A.m → ∃ d, A.InRow i d ∧ A.col d = i ∧ m' (.diagptr k) (i : Int) = some ((d : Int) + base) ∧
        m' (.idiag k) (i : Int) = some (1 / A.val d)) ∧
      ∀ a, a ≠ .diagptr k → a ≠ .idiag k → m' a = m0 a) := by
  refine Script.Ok.mono (computeInverseDiag_ok hwf hp hv (fun _ => hs) (by simp) (fun _ => hsz) hszi) ?_
  rintro _ m' ⟨⟨dp, h1, h3⟩, h2⟩
  exact ⟨fun i hi => ⟨dp i, (h1 i hi).1, (h1 i hi).2.1, (h1 i hi).2.2, h3 i hi⟩, h2⟩

/-- C49, second call: with `diagptr` already constructed it is used as it is. -/
theorem C49_computeInverseDiag_again [One R] [Div R] {sz : CArr → Int} {k base : Nat} {A : Csr R} {m0 : Mem (CTy R)}
    {dp : Nat → Nat} (hwf : A.WF) (hp : HoldsPat m0 k base A) (hv : HoldsVal m0 k A)
    (hd : ∀ i : Nat, i < A.m → A.InRow i (dp i) ∧ A.col (dp i) = i ∧ m0 (.diagptr k) (i : Int) = some ((dp i : Int) + base))
    (hszi : (A.m : Int) ≤ sz (.idiag k)) :
    (computeInverseDiag sz k A.m false true).Ok m0 (fun _ m' =>
      ∀ i : Nat, i < A.m → ∃ d, A.InRow i d ∧ A.col d = i ∧ m' (.idiag k) (i : Int) = some (1 / A.val d)) := by
  refine Script.Ok.mono (computeInverseDiag_ok hwf hp hv (by simp) (fun _ => ⟨dp, hd⟩) (by simp) hszi) ?_
  rintro _ m' ⟨⟨dp, h1, h3⟩, h2⟩
  exact fun i hi => ⟨dp i, (h1 i hi).1, (h1 i hi).2.1, h3 i hi⟩

/-- A 2x2 example: row 0: (0,4) (1,7); row 1: (0,2) (1,5). -/
def fullCsr : Csr Int where
  m := 2
  n := 2
  ptr := fun i => [0, 2, 4].getD i 4
  col := fun j => [0, 1, 0, 1].getD j 0
  val := fun j => [4, 7, 2, 5].getD j 0

example : ∀ i, i < fullCsr.m → fullCsr.RowSorted i ∧ ∃ d, fullCsr.InRow i d ∧ fullCsr.col d = i := by
  intro i hi; change i < 2 at hi
  match i, hi with
  | 0, _ => exact ⟨fun a b h1 h2 h3 => by
      change 0 ≤ a at h1; change b < 2 at h3
      obtain rfl : a = 0 := by omega
      obtain rfl : b = 1 := by omega
      decide, 0, ⟨by decide, by decide, by decide⟩, rfl⟩
  | 1, _ => exact ⟨fun a b h1 h2 h3 => by
      change 2 ≤ a at h1; change b < 4 at h3
      obtain rfl : a = 2 := by omega
      obtain rfl : b = 3 := by omega
      decide, 3, ⟨by decide, by decide, by decide⟩, rfl⟩
example : ((computeInverseDiag (R := Int) (fun _ => 2) 0 2 false false).run
    (csrMem 0 1 fullCsr (fun _ => 0) (fun _ => 0))).map
      (fun r => ([r.2 (.diagptr 0) 0, r.2 (.diagptr 0) 1] : List (Option Int))) = some [some 1, some 4] := by rfl

/-! ## C52 -/

/-- C52: waxpby computes `alpha*x + beta*y` on every branch, also when `w` is `x` or `y` (or all three), for every
schedule; nothing else changes. -/
theorem C52_waxpby [CommRing R] [DecidableEq R] {sz : CArr → Int} {n w x y : Nat} {α β : R} {m0 : Mem (CTy R)}
    {xv yv : Nat → R}
    (hx : ∀ i : Nat, i < n → m0 (.vec x) (i : Int) = some (xv i))
    (hy : ∀ i : Nat, i < n → m0 (.vec y) (i : Int) = some (yv i)) (hsz : (n : Int) ≤ sz (.vec w)) :
    (waxpby sz n w x y α β).Ok m0 (fun _ m' =>
      (∀ i : Nat, i < n → m' (.vec w) (i : Int) = some (α * xv i + β * yv i)) ∧
      (∀ i : Int, ¬ (0 ≤ i ∧ i < n) → m' (.vec w) i = m0 (.vec w) i) ∧ ∀ a, a ≠ .vec w → m' a = m0 a) :=
  waxpby_ok hx hy hsz

-- w == x, alpha = -1, beta = 3
example : ((waxpby (R := Int) (fun _ => 2) 2 0 0 1 (-1) 3).run
    (withVec (withVec (fun _ _ => none) 0 2 (fun i => (i : Int) + 5)) 1 2 (fun _ => 10))).map
      (fun r => ([r.2 (.vec 0) 0, r.2 (.vec 0) 1] : List (Option Int))) = some [some 25, some 24] := by rfl

end SpMP.Props
