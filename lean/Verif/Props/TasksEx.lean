import Verif.Props.Tasks
/-
Concrete cases meeting the hypotheses of the theorems in Props/Tasks.lean.
-/

namespace SpMP.Props
open SpMP SpMP.Spec

theorem vee_row {i p : Nat} (h : vee.InRow i p) : (i = 0 ∧ (p = 0 ∨ p = 1)) ∨ (i = 1 ∧ (p = 2 ∨ p = 3)) ∨ (i = 2 ∧ (p = 4 ∨ p = 5 ∨ p = 6)) := by
  obtain ⟨h1, h2, h3⟩ := h
  have h1 : i < 3 := h1
  rcases (by omega : i = 0 ∨ i = 1 ∨ i = 2) with rfl | rfl | rfl
  · have h3 : p < 2 := h3
    omega
  · have h2 : 2 ≤ p := h2
    have h3 : p < 4 := h3
    omega
  · have h2 : 4 ≤ p := h2
    have h3 : p < 7 := h3
    omega

def veeDp (i : Nat) : Nat := ([0, 2, 6] : List Nat).getD i 0
def veeEp (i : Nat) : Nat := vee.ptr (i + 1)

theorem vee_schedulable : Schedulable vee veeDp veeEp := by
  have hb : ∀ i < 3, vee.ptr i ≤ veeDp i ∧ veeDp i < veeEp i ∧ veeEp i ≤ vee.ptr (i + 1) := by decide
  refine ⟨⟨fun i hi => hb i hi, ?_, ?_, ?_, ?_⟩, ?_, ?_⟩
  · have : ∀ i < 3, vee.col (veeDp i) = i := by decide
    exact fun i hi => this i hi
  · intro i p hi h1 h2
    have hi : i < 3 := hi
    have := hb i hi
    rcases vee_row (i := i) (p := p) ⟨hi, h1, by omega⟩ with ⟨rfl, h⟩ | ⟨rfl, h⟩ | ⟨rfl, h⟩
    · have h2 : p < 0 := h2
      omega
    · have h2 : p < 2 := h2
      omega
    · have h2 : p < 6 := h2
      rcases h with rfl | rfl | rfl
      · decide
      · decide
      · omega
  · intro i p hi h1 h2
    have hi : i < 3 := hi
    have := hb i hi
    rcases vee_row (i := i) (p := p) ⟨hi, by omega, h2⟩ with ⟨rfl, h⟩ | ⟨rfl, h⟩ | ⟨rfl, h⟩
    · have h1 : 0 < p := h1
      rcases h with rfl | rfl
      · omega
      · decide
    · have h1 : 2 < p := h1
      rcases h with rfl | rfl
      · omega
      · decide
    · have h1 : 6 < p := h1
      omega
  · intro i p hi h1 h2
    have h1 : vee.ptr (i + 1) ≤ p := h1
    omega
  · intro i p hi h1 h2
    have hi : i < 3 := hi
    have := hb i hi
    rcases vee_row (i := i) (p := p) ⟨hi, by omega, h2⟩ with ⟨rfl, h⟩ | ⟨rfl, h⟩ | ⟨rfl, h⟩
    · rcases h with rfl | rfl <;> decide
    · rcases h with rfl | rfl <;> decide
    · rcases h with rfl | rfl | rfl <;> decide
  · intro i j hi hj hp
    obtain ⟨p, hp, hc⟩ := hp
    have hin : ∀ i p, i < 3 → vee.ptr i ≤ p → p < vee.ptr (i + 1) → vee.InRow i p := fun i p h1 h2 h3 => ⟨h1, h2, h3⟩
    rcases vee_row hp with ⟨rfl, h⟩ | ⟨rfl, h⟩ | ⟨rfl, h⟩
    · rcases h with rfl | rfl
      · have hc : 0 = j := hc
        subst hc; exact ⟨0, hp, rfl⟩
      · have hc : 2 = j := hc
        subst hc; exact ⟨4, hin 2 4 (by decide) (by decide) (by decide), rfl⟩
    · rcases h with rfl | rfl
      · have hc : 1 = j := hc
        subst hc; exact ⟨2, hp, rfl⟩
      · have hc : 2 = j := hc
        subst hc; exact ⟨5, hin 2 5 (by decide) (by decide) (by decide), rfl⟩
    · rcases h with rfl | rfl | rfl
      · have hc : 0 = j := hc
        subst hc; exact ⟨1, hin 0 1 (by decide) (by decide) (by decide), rfl⟩
      · have hc : 1 = j := hc
        subst hc; exact ⟨3, hin 1 3 (by decide) (by decide) (by decide), rfl⟩
      · have hc : 2 = j := hc
        subst hc; exact ⟨6, hp, rfl⟩

theorem vee_dep {j i : Nat} : Dep vee j i ↔ i = 2 ∧ (j = 0 ∨ j = 1) := by
  have hin : ∀ i p, i < 3 → vee.ptr i ≤ p → p < vee.ptr (i + 1) → vee.InRow i p := fun i p h1 h2 h3 => ⟨h1, h2, h3⟩
  constructor
  · rintro ⟨hlt, p, hp, hc⟩
    rcases vee_row hp with ⟨rfl, h⟩ | ⟨rfl, h⟩ | ⟨rfl, h⟩
    · omega
    · rcases h with rfl | rfl
      · have hc : 1 = j := hc
        omega
      · have hc : 2 = j := hc
        omega
    · exact ⟨rfl, by omega⟩
  · rintro ⟨rfl, rfl | rfl⟩
    · exact ⟨by decide, 4, hin 2 4 (by decide) (by decide) (by decide), rfl⟩
    · exact ⟨by decide, 5, hin 2 5 (by decide) (by decide) (by decide), rfl⟩

theorem vee_chain {k i : Nat} (h : Chain (Dep vee) k i) : k = 0 ∨ k = 1 ∧ i = 2 := by
  induction h with
  | start i => exact Or.inl rfl
  | @step k j i _ hd ih =>
    obtain ⟨h1, h2⟩ := vee_dep.mp hd
    rcases ih with rfl | ⟨_, h3⟩
    · exact Or.inr ⟨rfl, h1⟩
    · omega

/-- The level decomposition of `vee`: rows 0 and 1, then row 2. -/
theorem vee_levels : LevelDecomp (Dep vee) 3 exLevels := by
  have hm : ∀ k i, i ∈ exLevels.getD k [] → (k = 0 ∧ (i = 0 ∨ i = 1)) ∨ (k = 1 ∧ i = 2) := by
    intro k i h
    match k with
    | 0 => have h : i ∈ [1, 0] := h; simp at h; omega
    | 1 => have h : i ∈ [2] := h; simp at h; omega
    | k + 2 => have h : i ∈ ([] : List Nat) := h; simp at h
  refine ⟨by decide, by decide, ?_, ?_, ?_⟩
  · intro k i j hi hd
    obtain ⟨h1, h2⟩ := vee_dep.mp hd
    rcases hm k i hi with ⟨rfl, h⟩ | ⟨rfl, _⟩
    · omega
    · refine ⟨0, by omega, ?_⟩
      rcases h2 with rfl | rfl <;> decide
  · intro k i hi
    rcases hm k i hi with ⟨rfl, _⟩ | ⟨rfl, rfl⟩
    · exact .start i
    · exact .step (.start 0) (vee_dep.mpr ⟨rfl, Or.inl rfl⟩)
  · intro k i k' hi hc
    rcases hm k i hi with ⟨rfl, h⟩ | ⟨rfl, rfl⟩
    · rcases vee_chain hc with h' | ⟨_, h'⟩ <;> omega
    · rcases vee_chain hc with h' | ⟨h', _⟩ <;> omega

/-- A schedule of `vee` for two threads as the library builds it: with transitive reduction, no barriers. -/
theorem vee_built : ∃ S, Built S vee veeDp veeEp false exLevels ∧ S.T = 2 := by
  obtain ⟨P, lvl, h1, h2, _⟩ := C30_task_partition_partial (useBarrier := false) (agg := false) (T := 2) (m := 3) (cost := fun _ => 1) (L := exLevels)
    ⟨fun _ => 0, fun _ => 0, fun _ => 0⟩ (by decide) vee_levels.rows (fun _ _ => by decide)
  exact ⟨_, ⟨vee_levels, false, 2, fun _ => 1, _, P, by decide, fun _ _ => Nat.one_pos, h1,
    Or.inr ⟨_, _, rfl, List.Perm.refl _, List.Perm.refl _, rfl⟩⟩, h2⟩

/-- ... and with barriers. -/
theorem vee_built_barrier : ∃ S, Built S vee veeDp veeEp true exLevels ∧ S.T = 2 := by
  obtain ⟨P, lvl, h1, h2, _⟩ := C30_task_partition_partial (useBarrier := true) (agg := false) (T := 2) (m := 3) (cost := fun _ => 1) (L := exLevels)
    ⟨fun _ => 0, fun _ => 0, fun _ => 0⟩ (by decide) vee_levels.rows (fun _ _ => by decide)
  exact ⟨_, ⟨vee_levels, false, 2, fun _ => 1, _, P, by decide, fun _ _ => Nat.one_pos, h1,
    Or.inl ⟨_, List.Perm.refl _, rfl⟩⟩, h2⟩

/-- The hypotheses of C31 are met by the partition of `vee`. -/
example : ∃ S inv lvl, Partitioned S vee veeDp veeEp exLevels inv lvl ∧ S.T = 2 := by
  obtain ⟨P, lvl, h1, h2, h3, h4, _⟩ := C30_task_partition_partial (useBarrier := false) (agg := false) (T := 2) (m := 3) (cost := fun _ => 1) (L := exLevels)
    ⟨fun _ => 0, fun _ => 0, fun _ => 0⟩ (by decide) vee_levels.rows (fun _ _ => by decide)
  exact ⟨P.sched, P.o2t, lvl, ⟨h3, vee_schedulable.split, vee_schedulable.inner, vee_schedulable.sym, vee_levels, h4⟩, h2⟩

/-- Three threads with one task each, edges 0 → 1, 0 → 2, 1 → 2. -/
def triS : Schedule where
  T := 3
  ntasks := 3
  m := 3
  threadB := fun t => t
  taskB := fun k => k
  perm := fun p => p
  parF := fun _ => []
  parB := fun _ => []

def triAdj (a : Nat) : List Nat := ([[1, 2], [2]] : List (List Nat)).getD a []
def triInv (i : Nat) : List Nat := ([[], [0], [0, 1]] : List (List Nat)).getD i []

/-- The edge 0 → 2 is dropped, the others are kept. -/
example : (List.range 3).map (fun a => keptChildren triS triInv a (triAdj a)) = [[1], [2], []] := by decide

/-- The hypotheses of C32 are met by this graph. -/
example : (∀ a b, (withAll triS triAdj).Fwd a b ↔ (withKept triS triAdj triInv (parentEvents 3 fun j => keptChildren triS triInv j (triAdj j))).Fwd a b) := by
  have hone : ∀ a b, triS.SameThread a b → a = b := by
    rintro a b ⟨t, _, h1, h2, h3, h4⟩
    have h1 : t ≤ a := h1
    have h2 : a < t + 1 := h2
    have h3 : t ≤ b := h3
    have h4 : b < t + 1 := h4
    omega
  have hadj : ∀ a i, i ∈ triAdj a → (a = 0 ∧ (i = 1 ∨ i = 2)) ∨ (a = 1 ∧ i = 2) := by
    intro a i h
    match a with
    | 0 => have h : i ∈ [1, 2] := h; simp at h; omega
    | 1 => have h : i ∈ [2] := h; simp at h; omega
    | a + 2 => have h : i ∈ ([] : List Nat) := h; simp at h
  have hinv : ∀ a i, a ∈ triInv i → (i = 1 ∧ a = 0) ∨ (i = 2 ∧ (a = 0 ∨ a = 1)) := by
    intro a i h
    match i with
    | 0 => have h : a ∈ ([] : List Nat) := h; simp at h
    | 1 => have h : a ∈ [0] := h; simp at h; omega
    | 2 => have h : a ∈ [0, 1] := h; simp at h; omega
    | i + 3 => have h : a ∈ ([] : List Nat) := h; simp at h
  refine (C32_reduction (S := triS) (lvl := fun a => a) ?_ ?_ ?_ ?_ ?_ ?_ (List.Perm.refl _)).1
  · exact ⟨rfl, fun t _ => Nat.le_succ t, rfl, rfl, fun k _ => Nat.le_succ k, rfl, fun p hp => hp, fun p q _ _ h => h⟩
  · intro a
    match a with
    | 0 => decide
    | 1 => decide
    | a + 2 => exact List.Pairwise.nil
  · intro i
    match i with
    | 0 => decide
    | 1 => decide
    | 2 => decide
    | i + 3 => exact List.Pairwise.nil
  · intro a i
    constructor
    · intro h
      rcases hinv a i h with ⟨rfl, rfl⟩ | ⟨rfl, rfl | rfl⟩
      · exact ⟨by decide, Or.inl (by decide)⟩
      · exact ⟨by decide, Or.inl (by decide)⟩
      · exact ⟨by decide, Or.inl (by decide)⟩
    · rintro ⟨_, h | ⟨_, h⟩⟩
      · rcases hadj a i h with ⟨rfl, rfl | rfl⟩ | ⟨rfl, rfl⟩ <;> decide
      · have := hone _ _ h; omega
  · intro a i ha h
    have ha : a < 3 := ha
    show i < 3 ∧ a < i
    rcases hadj a i h with ⟨rfl, rfl | rfl⟩ | ⟨rfl, rfl⟩ <;> omega
  · intro a b h hlt
    have := hone a b h; omega

end SpMP.Props
