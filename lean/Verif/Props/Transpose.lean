import Verif.Transpose
import Verif.Spec.TransposeRel
import Verif.Props.Linear
/-
Property theorems C09, C10 (transpose).
-/

namespace SpMP.Props
open SpMP SpMP.Spec

variable {R : Type}

/-- C09 for matrices with at least one column (see `C09_zero_cols_false`): transpose() stores in the new object `k'`, in the
index base of A, a matrix that is the transpose of A (entry by entry, with multiplicities, rows ordered by column), with
values iff A has values and, if A has diagonal pointers, with diagonal pointers that point to a diagonal entry of each row
that has one; nothing outside the new object changes; no assertion fails and no access is out of bounds. For every team size,
interleaving and assignment `asg` of the rows to threads in the last loop. -/
theorem C09_transpose_partial {sz : CArr → Int} {T k k' base : Nat} {A : Csr R} {vals diag : Bool} {asg : Nat → Int × Int}
    {m0 : Mem (CTy R)} (hT : 1 ≤ T) (hkk : k' ≠ k) (hwf : A.WF) (hn : 0 < A.n)
    (hasg : PartRng T A.n fun t x => x = asg t)
    (hp : HoldsPat m0 k base A) (hv : vals = true → HoldsVal m0 k A) :
    (transpose sz T k k' base A.m A.n vals diag asg).Ok m0 (fun _ m => ∃ B : Csr R, IsTranspose A B ∧
      HoldsPat m k' base B ∧ (vals = true → HoldsVal m k' B) ∧
      (diag = true → ∀ c j, B.InRow c j → B.col j = c →
        ∃ j', B.InRow c j' ∧ B.col j' = c ∧ m (.diagptr k') (c : Int) = some ((j' : Int) + base)) ∧
      ∀ a i, a ≠ .rowptr k' → a ≠ .colidx k' → a ≠ .values k' → a ≠ .diagptr k' → m a i = m0 a i) := by
  refine Script.Ok.mono (transpose_ok hwf hn (fun _ => trivial) hT hkk hasg hp hv) ?_
  rintro _ m ⟨h1, h2, h3, h4⟩
  refine ⟨A.transp, isTranspose_transp A, h1, h2, fun hd => h3 hd, ?_⟩
  rintro a i g1 g2 g3 g4
  exact h4 a i fun h => h.elim g1 fun h => h.elim g2 fun h => h.elim g3 g4

/-- A 1x0 matrix. -/
def noColCsr : Csr Int where
  m := 1
  n := 0
  ptr := fun _ => 0
  col := fun _ => 0
  val := fun _ => 0

theorem noColCsr_wf : noColCsr.WF := by
  refine ⟨rfl, fun _ _ => Nat.le_refl _, ?_⟩
  intro j hj; exact absurd hj (Nat.not_lt_zero j)

/-- C09 is false without columns: the function returns an object whose row pointers are not allocated. -/
theorem C09_zero_cols_false :
    ¬ (∀ (sz : CArr → Int) (A : Csr Int) (m0 : Mem (CTy Int)), A.WF → HoldsPat m0 0 0 A → HoldsVal m0 0 A →
      (transpose sz 1 0 1 0 A.m A.n true false fun _ => (0, A.n)).Ok m0 (fun _ m => ∃ B : Csr Int, IsTranspose A B ∧
        HoldsPat m 1 0 B)) := by
  intro h
  have h1 := (h (fun _ => 0) noColCsr (csrMem 0 0 noColCsr (fun _ => 0) (fun _ => 0)) noColCsr_wf
    (csrMem_pat 0 0 noColCsr _ _) (csrMem_val 0 0 noColCsr _ _)).run
  obtain ⟨m', h3, h4⟩ : ∃ m', (transpose (fun _ => 0) 1 0 1 0 1 0 true false fun _ => (0, 0)).run
      (csrMem 0 0 noColCsr (fun _ => 0) (fun _ => 0)) = some ((), m') ∧ m' (.rowptr 1) 0 = none := ⟨_, rfl, rfl⟩
  obtain ⟨B, _, hB⟩ := h1 _ _ h3
  have := hB.rowptr 0 (Nat.zero_le _)
  rw [show m' (.rowptr 1) ((0 : Nat) : Int) = none from h4] at this
  cases this

theorem asg_simple (T n : Nat) (hT : 1 ≤ T) :
    PartRng T n fun t x => x = ((simpleBegin T t n : Int), simpleEnd T t n) := simpleRng T n hT (by omega)

-- The hypotheses are met by `fullCsr`-like matrices; here two threads transpose the base-1 example matrix (with values and
-- diagonal pointers) under the simple partition.
example : (transpose (R := Int) (fun _ => 0) 2 0 1 1 exampleCsr.m exampleCsr.n true true
      fun t => (simpleBegin 2 t exampleCsr.n, simpleEnd 2 t exampleCsr.n)).Ok
    (csrMem 0 1 exampleCsr (fun _ => 0) (fun _ => 0)) (fun _ m => ∃ B : Csr Int, IsTranspose exampleCsr B ∧
      HoldsPat m 1 1 B ∧ HoldsVal m 1 B) :=
  Script.Ok.mono (C09_transpose_partial (by omega) (by omega) exampleCsr_wf (by decide) (asg_simple 2 _ (by omega))
    (csrMem_pat 0 1 exampleCsr _ _) (fun _ => csrMem_val 0 1 exampleCsr _ _))
    (by rintro _ m ⟨B, h1, h2, h3, _⟩; exact ⟨B, h1, h2, h3 rfl⟩)

/-- C10 (for matrices with at least one row and one column, the domain of C09): transposing twice gives an object that holds,
in the base of A, a matrix of the same dimensions in which row `i` is row `i` of A stably sorted by column: a permutation,
ordered by column, with the entries of each column in their original order. If row `i` of A is ordered by column it is kept
as it is. -/
theorem C10_transpose_twice_partial {sz : CArr → Int} {T T' k k' k'' base : Nat} {A : Csr R} {vals diag : Bool}
    {asg asg' : Nat → Int × Int} {m0 : Mem (CTy R)} (hT : 1 ≤ T) (hT' : 1 ≤ T') (hk : k' ≠ k) (hk' : k'' ≠ k') (hwf : A.WF)
    (hn : 0 < A.n) (hm : 0 < A.m)
    (hasg : PartRng T A.n fun t x => x = asg t) (hasg' : PartRng T' A.m fun t x => x = asg' t)
    (hp : HoldsPat m0 k base A) (hv : vals = true → HoldsVal m0 k A) :
    ((transpose sz T k k' base A.m A.n vals diag asg).bind fun _ =>
      transpose sz T' k' k'' base A.n A.m vals diag asg').Ok m0 (fun _ m => ∃ C : Csr R,
        HoldsPat m k'' base C ∧ (vals = true → HoldsVal m k'' C) ∧ C.WF ∧ C.m = A.m ∧ C.n = A.n ∧
        ∀ i, i < A.m → (C.row i).Perm (A.row i) ∧ (C.row i).Pairwise (fun x y => x.1 ≤ y.1) ∧
          (∀ c, (C.row i).filter (fun x => x.1 = c) = (A.row i).filter (fun x => x.1 = c)) ∧
          ((A.row i).Pairwise (fun x y => x.1 ≤ y.1) → C.row i = A.row i)) := by
  rw [Script.ok_bind]
  refine Script.Ok.mono (C09_transpose_partial hT hk hwf hn hasg hp hv) ?_
  rintro _ m ⟨B, hB, p1, v1, _, _⟩
  have := C09_transpose_partial (sz := sz) (diag := diag) hT' hk' hB.wf (by rw [hB.cols]; exact hm) (by rw [hB.cols]; exact hasg') p1 v1
  rw [hB.rows, hB.cols] at this
  refine Script.Ok.mono this ?_
  rintro _ m' ⟨C, hC, p2, v2, _, _⟩
  refine ⟨C, p2, v2, hC.wf, hC.rows.trans hB.cols, hC.cols.trans hB.rows, ?_⟩
  intro i hi
  have hic := hB.twice hwf hC hi
  have hord := hC.ordered i (by rw [hB.cols]; exact hi)
  exact ⟨perm_of_inCol hic, hord, fun c => filter_of_inCol hic c, fun hs => eq_of_inCol hic hord hs⟩

example : ((transpose (R := Int) (fun _ => 0) 2 0 1 1 exampleCsr.m exampleCsr.n true true
      fun t => (simpleBegin 2 t exampleCsr.n, simpleEnd 2 t exampleCsr.n)).bind fun _ =>
      transpose (fun _ => 0) 3 1 2 1 exampleCsr.n exampleCsr.m true true
        fun t => (simpleBegin 3 t exampleCsr.m, simpleEnd 3 t exampleCsr.m)).Ok
    (csrMem 0 1 exampleCsr (fun _ => 0) (fun _ => 0)) (fun _ m => ∃ C : Csr Int, HoldsPat m 2 1 C ∧ HoldsVal m 2 C) :=
  Script.Ok.mono (C10_transpose_twice_partial (by omega) (by omega) (by omega) (by omega) exampleCsr_wf (by decide)
    (by decide) (asg_simple 2 _ (by omega)) (asg_simple 3 _ (by omega))
    (csrMem_pat 0 1 exampleCsr _ _) (fun _ => csrMem_val 0 1 exampleCsr _ _))
    (by rintro _ m ⟨C, h2, h3, _⟩; exact ⟨C, h2, h3 rfl⟩)

end SpMP.Props
