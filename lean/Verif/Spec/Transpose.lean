import Verif.Spec.Rows
/-
Specification of the transpose of a sparse matrix, and the counting facts behind the counting sort.
-/

namespace SpMP.Spec

variable {R : Type}

/-- Row `c` of the transpose: the entries of column `c` of `A`, by increasing row of `A`, within a row in storage order. -/
def Csr.tRow (A : Csr R) (c : Nat) : List (Nat × R) :=
  (List.range A.m).flatMap fun i => ((A.row i).filter fun x => decide (x.1 = c)).map fun x => (i, x.2)

/-- The transpose of `A`. -/
def Csr.transp (A : Csr R) : Csr R := Csr.ofRows A.n A.m A.tRow (A.val 0)

/-! ### Counting -/

/-- Number of positions below `x` that hold column `c`. -/
def Csr.cnt (A : Csr R) (c : Nat) : Nat → Nat
  | 0 => 0
  | x + 1 => A.cnt c x + if A.col x = c then 1 else 0

theorem Csr.cnt_mono (A : Csr R) (c : Nat) {x y : Nat} (h : x ≤ y) : A.cnt c x ≤ A.cnt c y := by
  induction y with
  | zero => obtain rfl : x = 0 := by omega
            exact Nat.le_refl _
  | succ y ih =>
    by_cases he : x = y + 1
    · subst he; exact Nat.le_refl _
    · have := ih (by omega)
      have e : A.cnt c (y + 1) = A.cnt c y + if A.col y = c then 1 else 0 := rfl
      omega

theorem Csr.cnt_lt (A : Csr R) {c x y : Nat} (h : x < y) (hc : A.col x = c) : A.cnt c x < A.cnt c y := by
  have := A.cnt_mono c (x := x + 1) (y := y) h
  have e : A.cnt c (x + 1) = A.cnt c x + if A.col x = c then 1 else 0 := rfl
  rw [if_pos hc] at e; omega

/-- The entries of row `i` in column `c`, by position. -/
theorem Csr.row_filter (A : Csr R) (i c : Nat) :
    ((A.row i).filter fun x => decide (x.1 = c)).map (fun x => (i, x.2)) =
      ((List.range' (A.ptr i) (A.ptr (i + 1) - A.ptr i)).filter fun j => decide (A.col j = c)).map fun j => (i, A.val j) := by
  unfold Csr.row
  rw [List.filter_map, List.map_map]
  rfl

theorem Csr.cnt_range (A : Csr R) (c a k : Nat) :
    ((List.range' a k).filter fun j => decide (A.col j = c)).length + A.cnt c a = A.cnt c (a + k) := by
  induction k with
  | zero => simp
  | succ k ih =>
    rw [List.range'_concat, List.filter_append, List.length_append]
    have e : A.cnt c (a + (k + 1)) = A.cnt c (a + k) + if A.col (a + k) = c then 1 else 0 := rfl
    rw [e, ← ih]
    by_cases h : A.col (a + k) = c
    · simp [h]; omega
    · simp [h]

theorem Csr.get_range (A : Csr R) (c a k x j : Nat)
    (h : ((List.range' a k).filter fun j => decide (A.col j = c))[x]? = some j) :
    a ≤ j ∧ j < a + k ∧ A.col j = c ∧ x + A.cnt c a = A.cnt c j := by
  induction k with
  | zero => simp at h
  | succ k ih =>
    rw [List.range'_concat, List.filter_append] at h
    by_cases hx : x < ((List.range' a k).filter fun j => decide (A.col j = c)).length
    · rw [List.getElem?_append_left hx] at h
      have := ih h
      exact ⟨this.1, by omega, this.2.2⟩
    · rw [List.getElem?_append_right (by omega)] at h
      have hl := A.cnt_range c a k
      by_cases hc : A.col (a + k) = c
      · simp only [Nat.one_mul, hc, decide_true, List.filter_cons_of_pos, List.filter_nil] at h
        have hx0 : x - ((List.range' a k).filter fun j => decide (A.col j = c)).length = 0 := by
          refine Classical.byContradiction fun hne => ?_
          rw [List.getElem?_eq_none (by simp; omega)] at h; cases h
        rw [hx0] at h
        simp only [List.getElem?_cons_zero, Option.some.injEq] at h
        subst h
        exact ⟨by omega, by omega, hc, by omega⟩
      · simp [hc] at h

/-- The transpose restricted to the first `I` rows of `A`. -/
def Csr.tRowTo (A : Csr R) (c I : Nat) : List (Nat × R) :=
  (List.range I).flatMap fun i => ((A.row i).filter fun x => decide (x.1 = c)).map fun x => (i, x.2)

theorem Csr.tRowTo_succ (A : Csr R) (c I : Nat) : A.tRowTo c (I + 1) = A.tRowTo c I ++
    ((List.range' (A.ptr I) (A.ptr (I + 1) - A.ptr I)).filter fun j => decide (A.col j = c)).map fun j => (I, A.val j) := by
  unfold Csr.tRowTo
  rw [List.range_succ, List.flatMap_append, ← A.row_filter I c]; simp

theorem Csr.tRowTo_length {A : Csr R} (h : A.WF) (c : Nat) {I : Nat} (hI : I ≤ A.m) :
    (A.tRowTo c I).length = A.cnt c (A.ptr I) := by
  induction I with
  | zero => rw [h.ptr_zero]; rfl
  | succ I ih =>
    rw [A.tRowTo_succ, List.length_append, List.length_map, ih (by omega)]
    have := A.cnt_range c (A.ptr I) (A.ptr (I + 1) - A.ptr I)
    have e := h.ptr_step I (by omega)
    rw [show A.ptr I + (A.ptr (I + 1) - A.ptr I) = A.ptr (I + 1) by omega] at this
    omega

theorem Csr.tRowTo_get {A : Csr R} (h : A.WF) (c : Nat) {I : Nat} (hI : I ≤ A.m) {x : Nat} {y : Nat × R}
    (hxy : (A.tRowTo c I)[x]? = some y) : ∃ i j, A.InRow i j ∧ A.col j = c ∧ y = (i, A.val j) ∧ x = A.cnt c j := by
  induction I with
  | zero => simp [Csr.tRowTo] at hxy
  | succ I ih =>
    rw [A.tRowTo_succ] at hxy
    have hl := tRowTo_length h c (I := I) (by omega)
    by_cases hx : x < (A.tRowTo c I).length
    · rw [List.getElem?_append_left hx] at hxy
      exact ih (by omega) hxy
    · rw [List.getElem?_append_right (by omega), List.getElem?_map] at hxy
      obtain ⟨j, hj, rfl⟩ := Option.map_eq_some_iff.mp hxy
      obtain ⟨g1, g2, g3, g4⟩ := A.get_range c _ _ _ _ hj
      have e := h.ptr_step I (by omega)
      exact ⟨I, j, ⟨by omega, g1, by omega⟩, g3, rfl, by omega⟩

theorem Csr.tRow_length {A : Csr R} (h : A.WF) (c : Nat) : (A.tRow c).length = A.cnt c A.nnz :=
  tRowTo_length h c (Nat.le_refl _)

theorem Csr.tRow_get {A : Csr R} (h : A.WF) {c x : Nat} {y : Nat × R}
    (hxy : (A.tRow c)[x]? = some y) : ∃ i j, A.InRow i j ∧ A.col j = c ∧ y = (i, A.val j) ∧ x = A.cnt c j :=
  tRowTo_get h c (Nat.le_refl _) hxy

theorem Csr.tRow_mem_lt {A : Csr R} {c : Nat} {y : Nat × R} (hy : y ∈ A.tRow c) : y.1 < A.m := by
  unfold Csr.tRow at hy
  obtain ⟨i, hi, hy⟩ := List.mem_flatMap.mp hy
  obtain ⟨x, _, rfl⟩ := List.mem_map.mp hy
  exact List.mem_range.mp hi

theorem Csr.transp_wf (A : Csr R) : A.transp.WF := Csr.ofRows_wf fun _ _ _ hx => tRow_mem_lt hx

/-- Start of column `c` in the transpose. -/
abbrev Csr.tPtr (A : Csr R) (c : Nat) : Nat := rowStart A.tRow c

/-- Where position `j` of `A` goes in the transpose. -/
def Csr.tPos (A : Csr R) (j : Nat) : Nat := A.tPtr (A.col j) + A.cnt (A.col j) j

theorem Csr.tPtr_succ {A : Csr R} (h : A.WF) (c : Nat) : A.tPtr (c + 1) = A.tPtr c + A.cnt c A.nnz := by
  show rowStart A.tRow (c + 1) = _
  rw [rowStart_succ, tRow_length h]

theorem Csr.tPos_range {A : Csr R} (h : A.WF) {j : Nat} (hj : j < A.nnz) :
    A.tPtr (A.col j) ≤ A.tPos j ∧ A.tPos j < A.tPtr (A.col j + 1) := by
  have := A.cnt_lt hj (rfl : A.col j = A.col j)
  have e := tPtr_succ h (A.col j)
  unfold Csr.tPos; omega

theorem Csr.tPos_inj {A : Csr R} (h : A.WF) {j j' : Nat} (hj : j < A.nnz) (hj' : j' < A.nnz) (he : A.tPos j = A.tPos j') :
    j = j' := by
  have h1 := tPos_range h hj
  have h2 := tPos_range h hj'
  have hc : A.col j = A.col j' := by
    rcases Nat.lt_trichotomy (A.col j) (A.col j') with g | g | g
    · have : A.tPtr (A.col j + 1) ≤ A.tPtr (A.col j') := rowStart_mono A.tRow g
      omega
    · exact g
    · have : A.tPtr (A.col j' + 1) ≤ A.tPtr (A.col j) := rowStart_mono A.tRow g
      omega
  rcases Nat.lt_trichotomy j j' with g | g | g
  · have := A.cnt_lt g (rfl : A.col j = A.col j)
    unfold Csr.tPos at he; rw [← hc] at he; omega
  · exact g
  · have := A.cnt_lt g (rfl : A.col j' = A.col j')
    unfold Csr.tPos at he; rw [hc] at he; omega

/-- Number of positions below `x` whose column is below `n`. -/
def Csr.cntBelow (A : Csr R) (x : Nat) : Nat → Nat
  | 0 => 0
  | n + 1 => A.cntBelow x n + A.cnt n x

theorem Csr.cntBelow_succ (A : Csr R) (x n : Nat) :
    A.cntBelow (x + 1) n = A.cntBelow x n + if A.col x < n then 1 else 0 := by
  induction n with
  | zero => simp [Csr.cntBelow]
  | succ n ih =>
    have e1 : A.cntBelow (x + 1) (n + 1) = A.cntBelow (x + 1) n + A.cnt n (x + 1) := rfl
    have e2 : A.cntBelow x (n + 1) = A.cntBelow x n + A.cnt n x := rfl
    have e3 : A.cnt n (x + 1) = A.cnt n x + if A.col x = n then 1 else 0 := rfl
    rw [e1, e2, ih, e3]
    by_cases h1 : A.col x < n
    · rw [if_pos h1, if_neg (by omega), if_pos (by omega)]; omega
    · by_cases h2 : A.col x = n
      · rw [if_neg h1, if_pos h2, if_pos (by omega)]; omega
      · rw [if_neg h1, if_neg h2, if_neg (by omega)]; omega

theorem Csr.cntBelow_all (A : Csr R) (n : Nat) {x : Nat} (h : ∀ j, j < x → A.col j < n) : A.cntBelow x n = x := by
  induction x with
  | zero =>
    clear h
    induction n with
    | zero => rfl
    | succ n ih => show A.cntBelow 0 n + 0 = 0; omega
  | succ x ih => rw [A.cntBelow_succ, ih (fun j hj => h j (by omega)), if_pos (h x (by omega))]

theorem Csr.tPtr_eq {A : Csr R} (h : A.WF) (c : Nat) : A.tPtr c = A.cntBelow A.nnz c := by
  induction c with
  | zero => rfl
  | succ c ih => rw [tPtr_succ h, ih]; rfl

/-- The number of entries is preserved. -/
theorem Csr.tPtr_last {A : Csr R} (h : A.WF) : A.tPtr A.n = A.nnz := by
  rw [tPtr_eq h]; exact A.cntBelow_all A.n h.col_lt

theorem Csr.tPos_lt {A : Csr R} (h : A.WF) {j : Nat} (hj : j < A.nnz) : A.tPos j < A.nnz := by
  have h1 := (tPos_range h hj).2
  have h2 : A.tPtr (A.col j + 1) ≤ A.tPtr A.n := rowStart_mono A.tRow (h.col_lt j hj)
  rw [tPtr_last h] at h2; omega

end SpMP.Spec
