import Verif.Spec.Transpose
/-
What "B is the transpose of A" means, entry by entry, and the list facts needed for transposing twice. Nothing here mentions
the model of the code.
-/

namespace SpMP.Spec

variable {R : Type}

/-- Values of the entries of `l` in column `c`, in order. -/
def inCol (l : List (Nat × R)) (c : Nat) : List R := (l.filter fun x => x.1 = c).map (·.2)

/-- `B` is the transpose of `A`: swapped dimensions; the entries of `B` in row `c` and column `i` are those of `A` in row `i`
and column `c`, with the same multiplicity and order; and each row of `B` is ordered by column. -/
structure IsTranspose (A B : Csr R) : Prop where
  rows : B.m = A.n
  cols : B.n = A.m
  wf : B.WF
  entries : ∀ i c, i < A.m → c < A.n → inCol (B.row c) i = inCol (A.row i) c
  ordered : ∀ c, c < A.n → (B.row c).Pairwise fun x y => x.1 ≤ y.1

/-! ### Facts -/

theorem inCol_tRowTo (A : Csr R) (c i I : Nat) :
    inCol ((List.range I).flatMap fun i => ((A.row i).filter fun x => decide (x.1 = c)).map fun x => (i, x.2)) i =
      if i < I then inCol (A.row i) c else [] := by
  induction I with
  | zero => rfl
  | succ I ih =>
    rw [List.range_succ, List.flatMap_append]
    unfold inCol at *
    rw [List.filter_append, List.map_append, ih]
    simp only [List.flatMap_cons, List.flatMap_nil, List.append_nil, List.filter_map]
    rcases Nat.lt_trichotomy i I with h | h | h
    · rw [if_pos h, if_pos (by omega)]
      have : (List.filter ((fun x : Nat × R => decide (x.1 = i)) ∘ fun x => (I, x.2))
          (List.filter (fun x => decide (x.1 = c)) (A.row I))) = [] := by
        refine List.filter_eq_nil_iff.mpr ?_
        intro x _; simp; omega
      rw [this]; simp
    · subst h
      rw [if_neg (by omega), if_pos (by omega)]
      have : (List.filter ((fun x : Nat × R => decide (x.1 = i)) ∘ fun x => (i, x.2))
          (List.filter (fun x => decide (x.1 = c)) (A.row i))) = List.filter (fun x => decide (x.1 = c)) (A.row i) := by
        refine List.filter_eq_self.mpr ?_
        intro x _; simp
      rw [this]; simp [Function.comp_def]
    · rw [if_neg (by omega), if_neg (by omega)]
      have : (List.filter ((fun x : Nat × R => decide (x.1 = i)) ∘ fun x => (I, x.2))
          (List.filter (fun x => decide (x.1 = c)) (A.row I))) = [] := by
        refine List.filter_eq_nil_iff.mpr ?_
        intro x _; simp; omega
      rw [this]; simp

theorem tRow_ordered (A : Csr R) (c : Nat) : (A.tRow c).Pairwise fun x y => x.1 ≤ y.1 := by
  unfold Csr.tRow
  generalize A.m = I
  induction I with
  | zero => exact List.Pairwise.nil
  | succ I ih =>
    rw [List.range_succ, List.flatMap_append, List.pairwise_append]
    refine ⟨ih, ?_, ?_⟩
    · simp only [List.flatMap_cons, List.flatMap_nil, List.append_nil, List.pairwise_map]
      exact List.pairwise_iff_getElem.mpr fun _ _ _ _ _ => Nat.le_refl _
    · intro x hx y hy
      obtain ⟨i, hi, hx⟩ := List.mem_flatMap.mp hx
      obtain ⟨_, _, rfl⟩ := List.mem_map.mp hx
      obtain ⟨j, hj, hy⟩ := List.mem_flatMap.mp hy
      obtain ⟨_, _, rfl⟩ := List.mem_map.mp hy
      have := List.mem_range.mp hi
      obtain rfl : j = I := by simpa using hj
      show i ≤ j
      omega

theorem isTranspose_transp (A : Csr R) : IsTranspose A A.transp where
  rows := rfl
  cols := rfl
  wf := A.transp_wf
  entries := by
    intro i c hi hc
    rw [show A.transp.row c = A.tRow c from Csr.ofRows_row hc]
    unfold Csr.tRow
    rw [inCol_tRowTo, if_pos hi]
  ordered := by
    intro c hc
    rw [show A.transp.row c = A.tRow c from Csr.ofRows_row hc]
    exact tRow_ordered A c

theorem filter_of_inCol {l l' : List (Nat × R)} (h : ∀ c, inCol l c = inCol l' c) (c : Nat) :
    l.filter (fun x => x.1 = c) = l'.filter (fun x => x.1 = c) := by
  have e : ∀ l : List (Nat × R), l.filter (fun x => x.1 = c) = (inCol l c).map fun v => (c, v) := by
    intro l
    unfold inCol
    rw [List.map_map]
    refine (List.map_congr_left (g := id) ?_).trans (List.map_id _) |>.symm
    intro x hx
    have := (List.mem_filter.mp hx).2
    simp only [decide_eq_true_eq] at this
    rw [← this]; rfl
  rw [e, e, h c]

/-- Lists with the same entries in each column are permutations of each other. -/
theorem perm_of_inCol {l l' : List (Nat × R)} (h : ∀ c, inCol l c = inCol l' c) : l.Perm l' := by
  classical
  rw [List.perm_iff_count]
  intro x
  have e : ∀ l : List (Nat × R), (l.filter (fun y => y.1 = x.1)).count x = l.count x := fun l => List.count_filter (by simp)
  rw [← e l, ← e l', filter_of_inCol h]

/-- Two lists ordered by column with the same entries in each column are equal. -/
theorem eq_of_inCol {l l' : List (Nat × R)} (h : ∀ c, inCol l c = inCol l' c) (hs : l.Pairwise fun x y => x.1 ≤ y.1)
    (hs' : l'.Pairwise fun x y => x.1 ≤ y.1) : l = l' := by
  induction l generalizing l' with
  | nil => exact (perm_of_inCol h).symm.eq_nil.symm
  | cons x xs ih =>
    cases l' with
    | nil => exact (perm_of_inCol h).eq_nil
    | cons y ys =>
      have hp := perm_of_inCol h
      have h1 : x.1 ≤ y.1 := by
        rcases List.mem_cons.mp (hp.symm.subset (List.mem_cons_self (a := y) (l := ys))) with h | h
        · rw [h]; exact Nat.le_refl _
        · exact (List.pairwise_cons.mp hs).1 y h
      have h2 : y.1 ≤ x.1 := by
        rcases List.mem_cons.mp (hp.subset (List.mem_cons_self (a := x) (l := xs))) with h | h
        · rw [h]; exact Nat.le_refl _
        · exact (List.pairwise_cons.mp hs').1 x h
      have he : x.1 = y.1 := by omega
      have hc := filter_of_inCol h x.1
      rw [List.filter_cons_of_pos (by simp), List.filter_cons_of_pos (by simp [he])] at hc
      obtain ⟨hxy, hct⟩ := List.cons.inj hc
      subst hxy
      rw [ih (l' := ys) ?_ (List.pairwise_cons.mp hs).2 (List.pairwise_cons.mp hs').2]
      intro c
      by_cases e : x.1 = c
      · subst e; unfold inCol; rw [hct]
      · have := h c
        unfold inCol at *
        rw [List.filter_cons_of_neg (by simp [e]), List.filter_cons_of_neg (by simp [e])] at this
        exact this

/-- An entry outside the column range does not occur. -/
theorem Csr.WF.inCol_nil {A : Csr R} (h : A.WF) {i c : Nat} (hi : i < A.m) (hc : A.n ≤ c) : inCol (A.row i) c = [] := by
  unfold inCol
  rw [List.map_eq_nil_iff, List.filter_eq_nil_iff]
  intro x hx
  obtain ⟨j, h1, h2, rfl⟩ := Csr.mem_row.mp hx
  have := h.col_lt j (Csr.InRow.lt_nnz h ⟨hi, h1, h2⟩)
  simp only [decide_eq_true_eq]
  show A.col j ≠ c
  omega

/-- Transposing twice keeps, row by row, the entries in each column. -/
theorem IsTranspose.twice {A B C : Csr R} (hA : A.WF) (h1 : IsTranspose A B) (h2 : IsTranspose B C) {i : Nat} (hi : i < A.m)
    (c : Nat) : inCol (C.row i) c = inCol (A.row i) c := by
  by_cases hc : c < A.n
  · rw [h2.entries c i (by rw [h1.rows]; exact hc) (by rw [h1.cols]; exact hi), h1.entries i c hi hc]
  · rw [hA.inCol_nil hi (by omega), h2.wf.inCol_nil (by rw [h2.rows, h1.cols]; exact hi) (by rw [h2.cols, h1.rows]; omega)]

end SpMP.Spec
