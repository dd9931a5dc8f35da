import Verif.Spec.Csr
/-
A sparse matrix as a list of (column, value) pairs per row: the specification vocabulary for functions that build a new
matrix. Nothing here mentions the model of the code.
-/

namespace SpMP.Spec

variable {R : Type}

/-- Row `i` of `A` as the list of its (column, value) pairs, in storage order. -/
def Csr.row (A : Csr R) (i : Nat) : List (Nat × R) :=
  (List.range' (A.ptr i) (A.ptr (i + 1) - A.ptr i)).map fun j => (A.col j, A.val j)

/-- Total length of rows `0 .. i-1`. -/
def rowStart (rows : Nat → List (Nat × R)) : Nat → Nat
  | 0 => 0
  | i + 1 => rowStart rows i + (rows i).length

/-- The matrix with the given rows (`d` is an arbitrary value for positions beyond the last entry). -/
def Csr.ofRows (m n : Nat) (rows : Nat → List (Nat × R)) (d : R) : Csr R where
  m := m
  n := n
  ptr := rowStart rows
  col := fun j => (((List.range m).flatMap rows)[j]?.getD (0, d)).1
  val := fun j => (((List.range m).flatMap rows)[j]?.getD (0, d)).2

/-! ### Facts -/

@[simp] theorem Csr.row_length (A : Csr R) (i : Nat) : (A.row i).length = A.ptr (i + 1) - A.ptr i := by
  simp [Csr.row]

theorem Csr.row_getElem (A : Csr R) (i q : Nat) (h : q < (A.row i).length) :
    (A.row i)[q] = (A.col (A.ptr i + q), A.val (A.ptr i + q)) := by
  simp [Csr.row]

theorem Csr.mem_row {A : Csr R} {i : Nat} {x : Nat × R} :
    x ∈ A.row i ↔ ∃ j, A.ptr i ≤ j ∧ j < A.ptr (i + 1) ∧ (A.col j, A.val j) = x := by
  unfold Csr.row
  simp only [List.mem_map, List.mem_range'_1]
  constructor
  · rintro ⟨j, ⟨h1, h2⟩, h3⟩; exact ⟨j, h1, by omega, h3⟩
  · rintro ⟨j, h1, h2, h3⟩; exact ⟨j, ⟨h1, by omega⟩, h3⟩

theorem rowStart_mono (rows : Nat → List (Nat × R)) {i j : Nat} (h : i ≤ j) : rowStart rows i ≤ rowStart rows j := by
  induction j with
  | zero => obtain rfl : i = 0 := by omega
            exact Nat.le_refl _
  | succ j ih =>
    by_cases he : i = j + 1
    · subst he; exact Nat.le_refl _
    · have := ih (by omega)
      have e : rowStart rows (j + 1) = rowStart rows j + (rows j).length := rfl
      omega

theorem rowStart_succ (rows : Nat → List (Nat × R)) (i : Nat) :
    rowStart rows (i + 1) = rowStart rows i + (rows i).length := rfl

theorem flat_length (rows : Nat → List (Nat × R)) (m : Nat) :
    ((List.range m).flatMap rows).length = rowStart rows m := by
  induction m with
  | zero => rfl
  | succ m ih => rw [List.range_succ, List.flatMap_append, List.length_append, ih]; simp [rowStart]

theorem flat_get (rows : Nat → List (Nat × R)) {m i : Nat} (hi : i < m) {q : Nat} (hq : q < (rows i).length) :
    ((List.range m).flatMap rows)[rowStart rows i + q]? = some (rows i)[q] := by
  induction m with
  | zero => omega
  | succ m ih =>
    rw [List.range_succ, List.flatMap_append]
    by_cases h : i = m
    · subst h
      rw [List.getElem?_append_right (by rw [flat_length]; omega), flat_length, Nat.add_sub_cancel_left]
      simp [hq]
    · have h1 := rowStart_mono rows (i := i + 1) (j := m) (by omega)
      rw [rowStart_succ] at h1
      rw [List.getElem?_append_left (by rw [flat_length]; omega)]
      exact ih (by omega)

theorem Csr.ofRows_nnz (m n : Nat) (rows : Nat → List (Nat × R)) (d : R) :
    (Csr.ofRows m n rows d).nnz = rowStart rows m := rfl

theorem Csr.ofRows_col {m n : Nat} {rows : Nat → List (Nat × R)} {d : R} {i q : Nat} (hi : i < m)
    (hq : q < (rows i).length) : (Csr.ofRows m n rows d).col (rowStart rows i + q) = (rows i)[q].1 := by
  show (((List.range m).flatMap rows)[_]?.getD (0, d)).1 = _
  rw [flat_get rows hi hq]; rfl

theorem Csr.ofRows_val {m n : Nat} {rows : Nat → List (Nat × R)} {d : R} {i q : Nat} (hi : i < m)
    (hq : q < (rows i).length) : (Csr.ofRows m n rows d).val (rowStart rows i + q) = (rows i)[q].2 := by
  show (((List.range m).flatMap rows)[_]?.getD (0, d)).2 = _
  rw [flat_get rows hi hq]; rfl

/-- Position `j` of the concatenated rows lies in some row. -/
theorem rowStart_find (rows : Nat → List (Nat × R)) {m j : Nat} (hj : j < rowStart rows m) :
    ∃ i q, i < m ∧ q < (rows i).length ∧ j = rowStart rows i + q := by
  induction m with
  | zero => exact absurd hj (by simp [rowStart])
  | succ m ih =>
    by_cases h : j < rowStart rows m
    · obtain ⟨i, q, h1, h2, h3⟩ := ih h; exact ⟨i, q, by omega, h2, h3⟩
    · rw [rowStart_succ] at hj
      exact ⟨m, j - rowStart rows m, by omega, by omega, by omega⟩

theorem Csr.ofRows_wf {m n : Nat} {rows : Nat → List (Nat × R)} {d : R}
    (h : ∀ i, i < m → ∀ x ∈ rows i, x.1 < n) : (Csr.ofRows m n rows d).WF := by
  refine ⟨rfl, ?_, ?_⟩
  · intro i _; exact rowStart_mono rows (Nat.le_succ i)
  · intro j hj
    obtain ⟨i, q, h1, h2, rfl⟩ := rowStart_find rows hj
    rw [show (Csr.ofRows m n rows d).col _ = _ from Csr.ofRows_col h1 h2]
    exact h i h1 _ (List.getElem_mem h2)

theorem Csr.ofRows_row {m n : Nat} {rows : Nat → List (Nat × R)} {d : R} {i : Nat} (hi : i < m) :
    (Csr.ofRows m n rows d).row i = rows i := by
  have hl : ((Csr.ofRows m n rows d).row i).length = (rows i).length := by
    rw [Csr.row_length]; show rowStart rows (i + 1) - rowStart rows i = _; rw [rowStart_succ]; omega
  refine List.ext_getElem hl ?_
  intro q h1 h2
  rw [Csr.row_getElem]
  have e1 := Csr.ofRows_col (n := n) (d := d) hi h2
  have e2 := Csr.ofRows_val (n := n) (d := d) hi h2
  have : (Csr.ofRows m n rows d).ptr i = rowStart rows i := rfl
  rw [this, e1, e2]

/-- The row starts of a matrix are those of its rows. -/
theorem Csr.WF.rowStart_row {A : Csr R} (h : A.WF) {i : Nat} (hi : i ≤ A.m) : rowStart A.row i = A.ptr i := by
  induction i with
  | zero => exact h.ptr_zero.symm
  | succ i ih =>
    rw [rowStart_succ, ih (by omega), Csr.row_length]
    have := h.ptr_step i (by omega); omega

/-! ### Filtering a list from left to right -/

theorem filter_take_succ {α : Type} (p : α → Bool) (l : List α) {q : Nat} (hq : q < l.length) :
    (l.take (q + 1)).filter p = (l.take q).filter p ++ (if p l[q] then [l[q]] else []) := by
  rw [List.take_succ_eq_append_getElem hq, List.filter_append]
  congr 1
  by_cases h : p l[q] = true <;> simp [h]

theorem filter_take_le {α : Type} (p : α → Bool) (l : List α) (q : Nat) :
    ((l.take q).filter p).length ≤ (l.filter p).length :=
  ((List.take_sublist q l).filter p).length_le

/-- The element number `x` of the filtered prefix is element number `x` of the filtered list. -/
theorem filter_take_get {α : Type} (p : α → Bool) (l : List α) (q x : Nat) (hx : x < ((l.take q).filter p).length) :
    (l.filter p)[x]? = ((l.take q).filter p)[x]? := by
  have h : l.filter p = (l.take q).filter p ++ (l.drop q).filter p := by
    rw [← List.filter_append, List.take_append_drop]
  rw [h, List.getElem?_append_left hx]

theorem filter_take_all {α : Type} (p : α → Bool) (l : List α) (q : Nat) (h : ∀ x ∈ l.drop q, p x = false) :
    ((l.take q).filter p).length = (l.filter p).length := by
  have e : l.filter p = (l.take q).filter p ++ (l.drop q).filter p := by
    rw [← List.filter_append, List.take_append_drop]
  have e2 : (l.drop q).filter p = [] := by
    rw [List.filter_eq_nil_iff]; intro x hx; simp [h x hx]
  rw [e, e2, List.append_nil]

theorem filter_take_rest {α : Type} (p : α → Bool) (l : List α) (q : Nat) (h : ∀ x ∈ l.drop q, p x = true) :
    ((l.take q).filter p).length + (l.length - q) = (l.filter p).length := by
  have e : l.filter p = (l.take q).filter p ++ (l.drop q).filter p := by
    rw [← List.filter_append, List.take_append_drop]
  have e2 : (l.drop q).filter p = l.drop q := by
    rw [List.filter_eq_self]; exact h
  rw [e, e2, List.length_append, List.length_drop]

end SpMP.Spec
