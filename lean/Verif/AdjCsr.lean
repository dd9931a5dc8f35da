import Verif.Spec.Rows
import Verif.Spec.Level
import Mathlib.Tactic.ByContra

/-
A matrix given by the set of its entries: vocabulary for examples with a size that is a parameter. Not a model of code.
-/

namespace SpMP.Spec

/-- The columns of row `i`. -/
def adjCols (m : Nat) (adj : Nat → Nat → Bool) (i : Nat) : List Nat := (List.range m).filter (adj i)

/-- The row as a list of pairs; all values are 0. -/
def adjRow (m : Nat) (adj : Nat → Nat → Bool) (i : Nat) : List (Nat × Int) := (adjCols m adj i).map fun j => (j, 0)

/-- The square matrix with an entry (i, j) wherever `adj i j`, rows sorted by column. -/
def adjCsr (m : Nat) (adj : Nat → Nat → Bool) : Csr Int := Csr.ofRows m m (adjRow m adj) 0

/-- Position of the diagonal entry. -/
def adjDiag (m : Nat) (adj : Nat → Nat → Bool) (i : Nat) : Nat :=
  (adjCsr m adj).ptr i + ((List.range i).filter (adj i)).length

/-- End of the row. -/
def adjEnd (m : Nat) (adj : Nat → Nat → Bool) (i : Nat) : Nat := (adjCsr m adj).ptr (i + 1)

variable {m : Nat} {adj : Nat → Nat → Bool}

theorem adjCols_sorted (i : Nat) : (adjCols m adj i).Pairwise (· < ·) := List.Pairwise.filter _ List.pairwise_lt_range

theorem mem_adjCols {i j : Nat} : j ∈ adjCols m adj i ↔ j < m ∧ adj i j = true := by
  unfold adjCols; rw [List.mem_filter, List.mem_range]

theorem adjRow_length (i : Nat) : (adjRow m adj i).length = (adjCols m adj i).length := List.length_map _

theorem adjCsr_ptr (i : Nat) : (adjCsr m adj).ptr (i + 1) = (adjCsr m adj).ptr i + (adjCols m adj i).length := by
  show rowStart _ (i + 1) = rowStart _ i + _
  rw [rowStart_succ, adjRow_length]

theorem adjCsr_col {i q : Nat} (hi : i < m) (hq : q < (adjCols m adj i).length) :
    (adjCsr m adj).col ((adjCsr m adj).ptr i + q) = (adjCols m adj i)[q] := by
  have h := Csr.ofRows_col (n := m) (d := (0 : Int)) (rows := adjRow m adj) hi (by rw [adjRow_length]; exact hq)
  refine h.trans ?_
  simp [adjRow]

theorem adjCsr_pos {i p : Nat} (h : (adjCsr m adj).InRow i p) :
    ∃ q, ∃ hq : q < (adjCols m adj i).length, p = (adjCsr m adj).ptr i + q ∧ (adjCsr m adj).col p = (adjCols m adj i)[q] := by
  obtain ⟨h1, h2, h3⟩ := h
  rw [adjCsr_ptr] at h3
  have hq : p - (adjCsr m adj).ptr i < (adjCols m adj i).length := by omega
  refine ⟨_, hq, by omega, ?_⟩
  rw [← adjCsr_col (show i < m from h1) hq]
  congr 1; omega

theorem adjCsr_nbr {i j : Nat} : (∃ p, (adjCsr m adj).InRow i p ∧ (adjCsr m adj).col p = j) ↔ i < m ∧ j < m ∧ adj i j = true := by
  constructor
  · rintro ⟨p, hp, rfl⟩
    obtain ⟨q, hq, _, e⟩ := adjCsr_pos hp
    rw [e]
    have := mem_adjCols.mp (List.getElem_mem hq)
    exact ⟨hp.1, this⟩
  · rintro ⟨hi, h⟩
    obtain ⟨q, hq, e⟩ := List.mem_iff_getElem.mp (mem_adjCols.mpr h)
    refine ⟨_, ⟨hi, Nat.le_add_right _ q, ?_⟩, ?_⟩
    · rw [adjCsr_ptr]; omega
    · rw [adjCsr_col hi hq, e]

theorem adjCsr_wf : (adjCsr m adj).WF := Csr.ofRows_wf (by
  intro i _ x hx
  obtain ⟨j, hj, rfl⟩ := List.mem_map.mp hx
  exact (mem_adjCols.mp hj).1)

theorem getElem_lt_iff {l : List Nat} (hs : l.Pairwise (· < ·)) {a b : Nat} (ha : a < l.length) (hb : b < l.length) :
    l[a] < l[b] ↔ a < b := by
  constructor
  · intro h
    by_contra hc
    rcases Nat.lt_or_ge b a with g | g
    · have := List.pairwise_iff_getElem.mp hs b a hb ha g; omega
    · have : a = b := by omega
      subst this; omega
  · intro h; exact List.pairwise_iff_getElem.mp hs a b ha hb h

theorem adjCsr_noDup : NoDup (adjCsr m adj) := by
  intro i p p' hp hp' he
  obtain ⟨q, hq, e1, e2⟩ := adjCsr_pos hp
  obtain ⟨q', hq', e1', e2'⟩ := adjCsr_pos hp'
  rw [e2, e2'] at he
  have h1 := getElem_lt_iff (adjCols_sorted i) hq hq'
  have h2 := getElem_lt_iff (adjCols_sorted i) hq' hq
  omega

/-- Where the diagonal entry is. -/
theorem adjCols_diag (hr : ∀ i, adj i i = true) {i : Nat} (hi : i < m) :
    ∃ h : ((List.range i).filter (adj i)).length < (adjCols m adj i).length,
      (adjCols m adj i)[((List.range i).filter (adj i)).length] = i := by
  have e : adjCols m adj i = (List.range i).filter (adj i) ++ i :: (List.range' (i + 1) (m - (i + 1))).filter (adj i) := by
    unfold adjCols
    rw [show List.range m = List.range i ++ (i :: List.range' (i + 1) (m - (i + 1))) from ?_, List.filter_append,
      List.filter_cons_of_pos (hr i)]
    obtain ⟨d, rfl⟩ : ∃ d, m = i + (d + 1) := ⟨m - (i + 1), by omega⟩
    rw [List.range_eq_range', List.range_eq_range', ← List.range'_append_1, show i + (d + 1) - (i + 1) = d from by omega,
      Nat.zero_add, List.range'_succ]
  refine ⟨by rw [e]; simp, ?_⟩
  simp only [e]
  rw [List.getElem_append_right (Nat.le_refl _)]
  simp

theorem adjCsr_split (hr : ∀ i, adj i i = true) : SplitRows (adjCsr m adj) (adjDiag m adj) (adjEnd m adj) := by
  have hd : ∀ i, i < m → (adjCsr m adj).col (adjDiag m adj i) = i := by
    intro i hi
    obtain ⟨h1, h2⟩ := adjCols_diag hr hi
    unfold adjDiag
    rw [adjCsr_col hi h1, h2]
  refine ⟨?_, hd, ?_, ?_, ?_⟩
  · intro i hi
    obtain ⟨h1, _⟩ := adjCols_diag hr (show i < m from hi)
    unfold adjDiag adjEnd
    rw [adjCsr_ptr]; omega
  · intro i p hi h1 h2
    obtain ⟨g1, g2⟩ := adjCols_diag hr (show i < m from hi)
    unfold adjDiag at h2
    obtain ⟨q, hq, e1, e2⟩ := adjCsr_pos (m := m) (adj := adj) (i := i) (p := p) ⟨hi, h1, by rw [adjCsr_ptr]; omega⟩
    have := (getElem_lt_iff (adjCols_sorted i) hq g1).mpr (by omega)
    rw [e2]; omega
  · intro i p hi h1 h2
    obtain ⟨g1, g2⟩ := adjCols_diag hr (show i < m from hi)
    unfold adjDiag at h1
    unfold adjEnd at h2
    obtain ⟨q, hq, e1, e2⟩ := adjCsr_pos (m := m) (adj := adj) (i := i) (p := p) ⟨hi, by omega, h2⟩
    have := (getElem_lt_iff (adjCols_sorted i) g1 hq).mpr (by omega)
    rw [e2]; omega
  · intro i p _ h1 h2
    unfold adjEnd at h1; omega

theorem adjCsr_sym (hs : ∀ i j, adj i j = true → adj j i = true) : SymPat (adjCsr m adj) := by
  intro i j hi hj h
  exact adjCsr_nbr.mpr ⟨hj, hi, hs i j (adjCsr_nbr.mp h).2.2⟩

theorem adjCsr_inner {i p : Nat} (hi : i < m) (h1 : (adjCsr m adj).ptr i ≤ p) (h2 : p < adjEnd m adj i) : (adjCsr m adj).col p < m :=
  (adjCsr_nbr.mp ⟨p, ⟨hi, h1, h2⟩, rfl⟩).2.1

theorem adjCsr_dep {j i : Nat} : Dep (adjCsr m adj) j i ↔ j < i ∧ i < m ∧ adj i j = true := by
  unfold Dep
  rw [adjCsr_nbr]
  constructor
  · rintro ⟨h1, h2, _, h3⟩; exact ⟨h1, h2, h3⟩
  · rintro ⟨h1, h2, h3⟩; exact ⟨h1, h2, by omega, h3⟩

end SpMP.Spec
