/-
Specification of a sparse matrix in compressed-row form, independent of the code model.
-/

namespace SpMP.Spec

/-- A sparse matrix with `m` rows and `n` columns whose stored entries are numbered by positions
`0 .. ptr m - 1`; row `i` owns positions `ptr i .. ptr (i+1) - 1`; position `j` holds column `col j` (0-based)
and value `val j`. -/
structure Csr (R : Type) where
  m : Nat
  n : Nat
  ptr : Nat → Nat
  col : Nat → Nat
  val : Nat → R

variable {R : Type}

/-- Number of stored entries. -/
def Csr.nnz (A : Csr R) : Nat := A.ptr A.m

/-- Well-formedness: row pointers start at 0 and do not decrease, columns are in range. -/
structure Csr.WF (A : Csr R) : Prop where
  ptr_zero : A.ptr 0 = 0
  ptr_step : ∀ i, i < A.m → A.ptr i ≤ A.ptr (i + 1)
  col_lt : ∀ j, j < A.nnz → A.col j < A.n

/-- Position `j` belongs to row `i`. -/
def Csr.InRow (A : Csr R) (i j : Nat) : Prop := i < A.m ∧ A.ptr i ≤ j ∧ j < A.ptr (i + 1)

/-- Row `i` is sorted by column without duplicates. -/
def Csr.RowSorted (A : Csr R) (i : Nat) : Prop :=
  ∀ j j', A.ptr i ≤ j → j < j' → j' < A.ptr (i + 1) → A.col j < A.col j'

theorem Csr.WF.ptr_mono {A : Csr R} (h : A.WF) : ∀ {i j : Nat}, i ≤ j → j ≤ A.m → A.ptr i ≤ A.ptr j := by
  intro i j hij
  induction j with
  | zero => intro _; have : i = 0 := by omega
            subst this; exact Nat.le_refl _
  | succ j ih =>
    intro hj
    by_cases he : i = j + 1
    · subst he; exact Nat.le_refl _
    · exact Nat.le_trans (ih (by omega) (by omega)) (h.ptr_step j (by omega))

theorem Csr.WF.ptr_le_nnz {A : Csr R} (h : A.WF) {i : Nat} (hi : i ≤ A.m) : A.ptr i ≤ A.nnz :=
  h.ptr_mono hi (Nat.le_refl _)

theorem Csr.InRow.lt_nnz {A : Csr R} (h : A.WF) {i j : Nat} (hj : A.InRow i j) : j < A.nnz :=
  Nat.lt_of_lt_of_le hj.2.2 (h.ptr_le_nnz hj.1)

/-- Every position belongs to a row. -/
theorem Csr.WF.exists_row {A : Csr R} (h : A.WF) {j : Nat} (hj : j < A.nnz) : ∃ i, A.InRow i j := by
  have : ∀ k, k ≤ A.m → j < A.ptr k → ∃ i, A.InRow i j := by
    intro k
    induction k with
    | zero => intro _ hk; rw [h.ptr_zero] at hk; omega
    | succ k ih =>
      intro hk hjk
      by_cases hlt : j < A.ptr k
      · exact ih (by omega) hlt
      · exact ⟨k, by omega, by omega, hjk⟩
  exact this A.m (Nat.le_refl _) hj

/-- ... and only to one. -/
theorem Csr.InRow.unique {A : Csr R} (h : A.WF) {i i' j : Nat} (h1 : A.InRow i j) (h2 : A.InRow i' j) :
    i = i' := by
  rcases Nat.lt_trichotomy i i' with hlt | heq | hgt
  · have := h.ptr_mono (i := i + 1) (j := i') (by omega) (by have := h2.1; omega)
    have := h1.2.2; have := h2.2.1; omega
  · exact heq
  · have := h.ptr_mono (i := i' + 1) (j := i) (by omega) (by have := h1.1; omega)
    have := h2.2.2; have := h1.2.1; omega

/-- A 3x3 example with an empty middle row, an unsorted row and a duplicate column:
row 0: (2,7) (0,5); row 1: empty; row 2: (1,3) (1,4) (2,9). -/
def exampleCsr : Csr Int where
  m := 3
  n := 3
  ptr := fun i => [0, 2, 2, 5].getD i 5
  col := fun j => [2, 0, 1, 1, 2].getD j 0
  val := fun j => [7, 5, 3, 4, 9].getD j 0

theorem exampleCsr_wf : exampleCsr.WF := by
  refine ⟨rfl, ?_, ?_⟩
  · intro i hi; change i < 3 at hi
    match i, hi with
    | 0, _ => decide
    | 1, _ => decide
    | 2, _ => decide
  · intro j hj; change j < 5 at hj
    match j, hj with
    | 0, _ => decide
    | 1, _ => decide
    | 2, _ => decide
    | 3, _ => decide
    | 4, _ => decide

end SpMP.Spec
