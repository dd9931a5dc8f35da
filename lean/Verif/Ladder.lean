import Verif.AdjCsr
import Verif.TaskPartMain

/-
A family of matrices: `K` levels of two rows each, every row adjacent to both rows of the neighbouring levels, and the
two rows of the last level adjacent to all rows of even levels. Not a model of code: an example with a size as parameter.
-/

namespace SpMP
open SpMP.Spec

/-- A row of the last level and a row of an even level before it. -/
def ladHub (K l l' : Nat) : Bool := decide (l + 1 = K ∧ l' + 1 < K ∧ l' % 2 = 0)

/-- Adjacency of the levels of two rows. -/
def ladLev (K l l' : Nat) : Bool := decide (l + 1 = l') || decide (l' + 1 = l) || ladHub K l l' || ladHub K l' l

/-- Adjacency, with the diagonal. -/
def ladAdj (K r s : Nat) : Bool := decide (r = s) || ladLev K (r / 2) (s / 2)

/-- The matrix. -/
def ladA (K : Nat) : Csr Int := adjCsr (2 * K) (ladAdj K)

/-- Its levels. -/
def ladL (K : Nat) : List (List Nat) := (List.range K).map fun l => [2 * l, 2 * l + 1]

theorem ladLev_comm (K l l' : Nat) : ladLev K l l' = ladLev K l' l := by
  unfold ladLev
  cases decide (l + 1 = l') <;> cases decide (l' + 1 = l) <;> cases ladHub K l l' <;> cases ladHub K l' l <;> rfl

theorem ladLev_iff {K l l' : Nat} (h : l < l') (h' : l' < K) : ladLev K l l' = true ↔ l + 1 = l' ∨ (l' + 1 = K ∧ l % 2 = 0) := by
  simp only [ladLev, ladHub, Bool.or_eq_true, decide_eq_true_eq]
  omega

theorem ladLev_ne {K l l' : Nat} (h : ladLev K l l' = true) : l ≠ l' := by
  simp only [ladLev, ladHub, Bool.or_eq_true, decide_eq_true_eq] at h
  omega

theorem ladAdj_refl (K i : Nat) : ladAdj K i i = true := by simp [ladAdj]

theorem ladAdj_symm (K i j : Nat) (h : ladAdj K i j = true) : ladAdj K j i = true := by
  simp only [ladAdj, Bool.or_eq_true, decide_eq_true_eq] at h ⊢
  rw [ladLev_comm]
  rcases h with h | h
  · exact .inl h.symm
  · exact .inr h

theorem ladDep {K j i : Nat} : Dep (ladA K) j i ↔ j / 2 < i / 2 ∧ i < 2 * K ∧ ladLev K (j / 2) (i / 2) = true := by
  rw [show ladA K = adjCsr (2 * K) (ladAdj K) from rfl, adjCsr_dep]
  simp only [ladAdj, Bool.or_eq_true, decide_eq_true_eq]
  rw [ladLev_comm K (i / 2)]
  constructor
  · rintro ⟨h1, h2, h3 | h3⟩
    · omega
    · have := ladLev_ne h3
      exact ⟨by omega, h2, h3⟩
  · rintro ⟨h1, h2, h3⟩; exact ⟨by omega, h2, .inr h3⟩

theorem mem_ladL {K k i : Nat} : i ∈ (ladL K).getD k [] ↔ k < K ∧ i / 2 = k := by
  unfold ladL
  rw [List.getD_eq_getElem?_getD, List.getElem?_map]
  by_cases h : k < K
  · rw [List.getElem?_range h]
    simp only [Option.map_some, Option.getD_some, List.mem_cons, List.not_mem_nil, or_false]
    omega
  · rw [List.getElem?_eq_none (by simpa using h)]
    simp [h]

theorem ladL_flatten (K : Nat) : (ladL K).flatten = List.range (2 * K) := by
  induction K with
  | zero => rfl
  | succ K ih =>
    have : ladL (K + 1) = ladL K ++ [[2 * K, 2 * K + 1]] := by unfold ladL; rw [List.range_succ, List.map_append]; rfl
    rw [this, List.flatten_append, ih, show 2 * (K + 1) = 2 * K + 1 + 1 from by omega, List.range_succ, List.range_succ]
    simp

theorem ladL_length (K : Nat) : (ladL K).length = K := by simp [ladL]

theorem ladL_levels (K : Nat) : LevelDecomp (Dep (ladA K)) (2 * K) (ladL K) := by
  refine ⟨by rw [ladL_flatten], ?_, ?_, ?_, ?_⟩
  · intro l hl
    obtain ⟨x, _, rfl⟩ := List.mem_map.mp hl
    simp
  · intro k i j hi hd
    have h1 := mem_ladL.mp hi
    have h2 := ladDep.mp hd
    exact ⟨j / 2, by omega, mem_ladL.mpr ⟨by omega, rfl⟩⟩
  · intro k
    induction k with
    | zero => intro i _; exact .start i
    | succ k ih =>
      intro i hi
      have h1 := mem_ladL.mp hi
      refine .step (ih (2 * k) (mem_ladL.mpr ⟨by omega, by omega⟩)) (ladDep.mpr ⟨by omega, by omega, ?_⟩)
      rw [ladLev_iff (by omega) (by omega)]
      omega
  · intro k i k' hi hc
    have h1 := mem_ladL.mp hi
    have : k' ≤ i / 2 := by
      clear hi h1
      induction hc with
      | start i => exact Nat.zero_le _
      | step _ hd ih =>
        have := ladDep.mp hd
        omega
    omega

/-! ### The partition into tasks -/

theorem sortLevels_ladL (K : Nat) : sortLevels (ladL K) = ladL K := by
  unfold sortLevels ladL
  rw [List.map_map]
  refine List.map_congr_left fun l _ => ?_
  exact List.Pairwise.insertionSort_eq (by simp)

theorem revOf_ladL {K p : Nat} (h : p < 2 * K) : revOf (ladL K) p = p := by
  unfold revOf
  rw [ladL_flatten, List.getD_eq_getElem?_getD, List.getElem?_range h]
  rfl

theorem levIdx_ladL {K l : Nat} (h : l ≤ K) : levIdx (ladL K) l = 2 * l := by
  have : (ladL K).take l = ladL l := by
    unfold ladL
    rw [← List.map_take, List.take_range, Nat.min_eq_left h]
  unfold levIdx
  rw [this, ladL_flatten, List.length_range]

theorem levelTasks_pair {cost rev : Nat → Nat} {lb c : Nat} (hc : 0 < c) (h0 : cost (rev lb) = c) (h1 : cost (rev (lb + 1)) = c) :
    levelTasks false 2 cost rev lb (lb + 2) = some [(lb, lb + 1), (lb + 1, lb + 2)] := by
  have b0 : levelCost cost rev lb lb = 0 := by simp [levelCost]
  have b1 : levelCost cost rev lb (lb + 1) = c := by simp [levelCost, h0]
  have b2 : levelCost cost rev lb (lb + 2) = c + c := by
    simp [levelCost, List.range'_succ, h0, h1]
  have hper : (c + c + 2 - 1) / 2 = c := by omega
  have l0 : lowerBoundAt (levelCost cost rev lb) lb (lb + 2) ((0 + 1) * c) = lb + 1 := by
    unfold lowerBoundAt
    rw [show lb + 2 - lb = 2 from by omega]
    simp only [lowerBoundGo, b1, b0]
    simp [hc, b0]
  have l1 : lowerBoundAt (levelCost cost rev lb) (lb + 1 + 1) (lb + 2) ((0 + 1 + 1) * c) = lb + 2 := by
    unfold lowerBoundAt
    rw [show lb + 2 - (lb + 1 + 1) = 0 from by omega]
    simp [lowerBoundGo]
  unfold levelTasks
  simp only [b2, hper, partLoop, l0, cutPoint, if_neg (show ¬ false = true from by decide), Bool.false_and,
    show min (lb + 1) (lb + 2) = lb + 1 from by omega, l1, Nat.min_self]

/-- The tasks of the two threads. -/
def ladTasks (K : Nat) : List (List (Nat × Nat)) := (List.range K).map fun l => [(2 * l, 2 * l + 1), (2 * l + 1, 2 * l + 2)]

theorem allTasks_ladL {K : Nat} {cost : Nat → Nat} (hpos : ∀ i, i < 2 * K → 0 < cost i)
    (hc : ∀ l, l < K → cost (2 * l) = cost (2 * l + 1)) : allTasks false 2 cost (ladL K) = some (ladTasks K) := by
  unfold allTasks
  rw [ladL_length]
  refine mapM_some _ fun l hl => ?_
  have hl := List.mem_range.mp hl
  rw [sortLevels_ladL, levIdx_ladL (by omega), levIdx_ladL (by omega)]
  refine levelTasks_pair (c := cost (2 * l)) (hpos _ (by omega)) ?_ ?_
  · rw [revOf_ladL (by omega)]
  · rw [revOf_ladL (by omega), hc l hl]

theorem taskCnt_ladL {K t : Nat} (ht : t < 2) : taskCnt false (ladTasks K) t = K := by
  unfold taskCnt threadRow ladTasks
  rw [List.map_map, List.map_map]
  rw [List.map_congr_left (g := fun _ => 1) ?_]
  · simp
  · intro l _
    have : t = 0 ∨ t = 1 := by omega
    rcases this with rfl | rfl <;> simp

/-- The number of stored entries of a row is the same for the two rows of a level. -/
theorem ladCost {K l : Nat} (hl : l < K) : (adjCols (2 * K) (ladAdj K) (2 * l)).length = (adjCols (2 * K) (ladAdj K) (2 * l + 1)).length := by
  have key : ∀ r, r < 2 * K → (adjCols (2 * K) (ladAdj K) r).length =
      1 + ((List.range (2 * K)).countP fun s => ladLev K (r / 2) (s / 2)) := by
    intro r hr
    unfold adjCols
    rw [← List.countP_eq_length_filter]
    have h1 : (List.range (2 * K)).countP (fun s => decide (r = s)) = 1 := by
      have := List.nodup_range (n := 2 * K)
      have h2 := List.count_eq_one_of_mem this (List.mem_range.mpr hr)
      rw [← h2, List.count]
      refine List.countP_congr fun s _ => ?_
      rw [decide_eq_true_eq, beq_iff_eq]
      exact ⟨Eq.symm, Eq.symm⟩
    rw [← h1]
    generalize List.range (2 * K) = xs
    induction xs with
    | nil => rfl
    | cons x xs ih =>
      rw [List.countP_cons, List.countP_cons, List.countP_cons, ih]
      have : ladAdj K r x = true → decide (r = x) = true → ladLev K (r / 2) (x / 2) = true → False := by
        intro _ h1 h2
        have := ladLev_ne h2
        simp only [decide_eq_true_eq] at h1
        subst h1; omega
      unfold ladAdj at *
      cases h1 : decide (r = x) <;> cases h2 : ladLev K (r / 2) (x / 2)
      · simp
      · simp; omega
      · simp; omega
      · exact (this (by simp [h1, h2]) h1 h2).elim
  rw [key _ (by omega), key _ (by omega), show 2 * l / 2 = l from by omega, show (2 * l + 1) / 2 = l from by omega]

end SpMP
