import Verif.Partition
import Verif.Spec.Basic
/-
Model of /repo/PrefixSum.cpp.
-/

namespace SpMP
open Spec

/-- Arrays seen by the team prefix sums: the shared `workspace` and `sum`, and each thread's `in_out`. -/
inductive PArr where
  | ws | sum
  | io (t : Nat)
deriving DecidableEq

abbrev PTy : PArr → Type := fun _ => Int

/-- Sizes a caller must provide (Utils.hpp: workspace has (nthreads+1)*n elements). -/
def psSize (T n : Nat) : PArr → Int
  | .ws => ((T : Int) + 1) * n
  | .sum => n
  | .io _ => n

/-- PrefixSum.cpp:6-26 prefixSum, called by all `T` threads of a team (n = 1). -/
def prefixSum (T : Nat) : Script PTy Unit :=
  .phase (psSize T 1) T (fun tid => do                -- line 11
      let v ← Prog.read (.io tid) 0
      Prog.write (ty := PTy) .ws ((tid : Int) + 1) v) fun _ =>
  .phase (psSize T 1) T (fun tid =>                   -- lines 14-22, omp master
      if tid = 0 then do
        Prog.write (ty := PTy) .ws 0 (0 : Int)
        Prog.forUp 1 T () (fun i _ => do
          let x ← Prog.read (ty := PTy) .ws (i + 1)
          let y ← Prog.read (ty := PTy) .ws i
          Prog.write (ty := PTy) .ws (i + 1) (x + y : Int))
        let s ← Prog.read (ty := PTy) .ws T
        Prog.write (ty := PTy) .sum 0 s
      else pure ()) fun _ =>
  .phase (psSize T 1) T (fun tid => do                -- line 25
      let v ← Prog.read (ty := PTy) .ws (tid : Int)
      Prog.write (ty := PTy) (.io tid) 0 v) fun _ =>
  .done ()

/-- PrefixSum.cpp:28-63 prefixSumMultiple, called by all `T` threads of a team. -/
def prefixSumMultiple (T n : Nat) : Script PTy Unit :=
  .phase (psSize T n) T (fun tid =>                   -- lines 33-36
      Prog.forUp 0 n () (fun i _ => do
        let v ← Prog.read (ty := PTy) (.io tid) i
        Prog.write (ty := PTy) .ws (((tid : Int) + 1) * n + i) v)) fun _ =>
  .phase (psSize T n) T (fun tid =>                   -- lines 39-57, omp master
      if tid = 0 then do
        Prog.forUp 0 n () (fun i _ => Prog.write (ty := PTy) .ws i (0 : Int))
        Prog.forUp 1 T () (fun t _ =>
          Prog.forUp 0 n () (fun i _ => do
            let x ← Prog.read (ty := PTy) .ws ((t + 1) * n + i)
            let y ← Prog.read (ty := PTy) .ws (t * n + i)
            Prog.write (ty := PTy) .ws ((t + 1) * n + i) (x + y : Int)))
        Prog.forUp 0 n () (fun i _ => do
          let s ← Prog.read (ty := PTy) .ws ((T : Int) * n + i)
          Prog.write (ty := PTy) .sum i s)
      else pure ()) fun _ =>
  .phase (psSize T n) T (fun tid =>                   -- lines 60-62
      Prog.forUp 0 n () (fun i _ => do
        let v ← Prog.read (ty := PTy) .ws ((tid : Int) * n + i)
        Prog.write (ty := PTy) (.io tid) i v)) fun _ =>
  .done ()

theorem cell_unique {n t u i j : Int} (hi : 0 ≤ i) (hin : i < n) (hj : 0 ≤ j) (hjn : j < n)
    (h : t * n + i = u * n + j) : t = u ∧ i = j := by
  have : t = u := by
    rcases Int.lt_trichotomy t u with h' | h' | h'
    · have : (t + 1) * n ≤ u * n := Int.mul_le_mul_of_nonneg_right (by omega) (by omega)
      have e : (t + 1) * n = t * n + n := by ring
      omega
    · exact h'
    · have : (u + 1) * n ≤ t * n := Int.mul_le_mul_of_nonneg_right (by omega) (by omega)
      have e : (u + 1) * n = u * n + n := by ring
      omega
  subst this; exact ⟨rfl, by omega⟩

set_option linter.unusedSectionVars false
variable [Races PArr]

theorem prefixSumMultiple_ok (T n : Nat) (hT : 1 ≤ T) (x : Nat → Nat → Int) (m : Mem PTy)
    (hio : ∀ t i, t < T → i < n → m (.io t) i = some (x t i)) :
    (prefixSumMultiple T n).Ok m (fun _ m' =>
      (∀ t i, t < T → i < n → m' (.io t) i = some (sumBelow (fun u => x u i) t)) ∧
      (∀ i, i < n → m' .sum i = some (sumBelow (fun u => x u i) T))) := by
  unfold prefixSumMultiple
  -- phase 1
  refine par_rule
    (W := fun t a i => a = .ws ∧ ∃ j, 0 ≤ j ∧ j < (n : Int) ∧ i = ((t : Int) + 1) * n + j)
    (R := fun t a i => a = .io t ∨ (a = .ws ∧ ∃ j, 0 ≤ j ∧ j < (n : Int) ∧ i = ((t : Int) + 1) * n + j))
    (Q := fun t _ m' => (∀ i, m' (.io t) i = m (.io t) i) ∧
      ∀ i : Nat, i < n → m' .ws (((t : Int) + 1) * n + i) = some (x t i)) ?_ ?_ ?_
  · rintro t u a i ht hu htu ⟨rfl, j, hj1, hj2, rfl⟩ (h | ⟨_, j', hj1', hj2', h⟩)
    · cases h
    · have := (cell_unique hj1 hj2 hj1' hj2' h).1; omega
  · intro t ht
    refine wp_forUp (fun i _ m' => (∀ j, m' (.io t) j = m (.io t) j) ∧
      ∀ j : Nat, (j : Int) < i → m' .ws (((t : Int) + 1) * n + j) = some (x t j)) ?_ ?_ ?_
    · exact ⟨fun _ => rfl, fun j h => by omega⟩
    · rintro i _ m' h0 h1 ⟨h2, h3⟩
      obtain ⟨i, rfl⟩ := Int.eq_ofNat_of_zero_le h0
      simp only [wp_bind, wp_read, wp_write, true_or, true_and]
      refine ⟨x t i, by rw [h2, hio t i ht (by omega)], ⟨i, by omega, by omega, rfl⟩, ?_, ?_, ?_, ?_⟩
      · have := Int.mul_nonneg (by omega : 0 ≤ (t : Int) + 1) (by omega : (0 : Int) ≤ n); omega
      · simp only [psSize]
        have : ((t : Int) + 1 + 1) * n ≤ ((T : Int) + 1) * n :=
          Int.mul_le_mul_of_nonneg_right (by omega) (by omega)
        have e : ((t : Int) + 1 + 1) * n = ((t : Int) + 1) * n + n := by ring
        omega
      · intro j; rw [Mem.set_other _ _ _ _ _ (by simp)]; exact h2 j
      · intro j hj
        rw [Mem.set_same]
        split
        · have : j = i := by omega
          rw [this]
        · exact h3 j (by omega)
    · rintro _ m' ⟨h2, h3⟩
      exact ⟨h2, fun i hi => h3 i (by omega)⟩
  intro _ m1 hq1 hf1
  have hws1 : ∀ t i : Nat, t < T → i < n → m1 .ws (((t : Int) + 1) * n + i) = some (x t i) := by
    intro t i ht hi
    obtain ⟨mt, ⟨_, h2⟩, h3⟩ := hq1 t ht
    rw [h3 .ws _ (Or.inr ⟨rfl, i, by omega, by omega, rfl⟩)]; exact h2 i hi
  clear hq1 hf1
  -- phase 2
  refine par_rule
    (W := fun t _ _ => t = 0) (R := fun t _ _ => t = 0)
    (Q := fun t _ m' => t = 0 →
      (∀ t i : Nat, t ≤ T → i < n → m' .ws ((t : Int) * n + i) = some (sumBelow (fun u => x u i) t)) ∧
      (∀ i : Nat, i < n → m' .sum i = some (sumBelow (fun u => x u i) T))) ?_ ?_ ?_
  · intro t u a i _ _ h h1 h2; omega
  · intro t ht
    rw [wp_ite]
    constructor
    swap
    · intro h; rw [wp_pure]; intro h'; exact absurd h' h
    rintro rfl
    simp only [wp_bind]
    -- zeroing loop
    refine wp_forUp (fun i _ m' => (∀ j : Nat, (j : Int) < i → m' .ws j = some 0) ∧
      ∀ t j : Nat, t < T → j < n → m' .ws (((t : Int) + 1) * n + j) = some (x t j)) ?_ ?_ ?_
    · exact ⟨fun j h => by omega, hws1⟩
    · rintro i _ m' h0 h1 ⟨h2, h3⟩
      simp only [wp_write]
      refine ⟨trivial, h0, ?_, ?_, ?_⟩
      · simp only [psSize]
        have : 1 * (n : Int) ≤ ((T : Int) + 1) * n :=
          Int.mul_le_mul_of_nonneg_right (by omega) (by omega)
        omega
      · intro j hj; rw [Mem.set_same]; split
        · rfl
        · exact h2 j (by omega)
      · intro t j ht hj; rw [Mem.set_same]; split
        · next h =>
          have := (cell_unique (t := (t : Int) + 1) (u := 0) (i := j) (j := i) (n := n)
            (by omega) (by omega) h0 h1 (by omega)).1
          omega
        · exact h3 t j ht hj
    rintro _ m2 ⟨hz, hx⟩
    -- accumulation loops
    refine wp_forUp (fun t _ m' =>
      (∀ u i : Nat, (u : Int) ≤ t → i < n →
        m' .ws ((u : Int) * n + i) = some (sumBelow (fun u => x u i) u)) ∧
      (∀ u i : Nat, t ≤ (u : Int) → u < T → i < n → m' .ws (((u : Int) + 1) * n + i) = some (x u i)))
      ?_ ?_ ?_
    · constructor
      · intro u i hu hi
        rcases Nat.lt_or_ge u 1 with h | h
        · have : u = 0 := by omega
          subst this
          have e : ((0 : Nat) : Int) * n + i = i := by simp
          rw [e, hz i (by omega)]; rfl
        · have : u = 1 := by omega
          subst this
          have e : ((1 : Nat) : Int) * n + i = (((0 : Nat) : Int) + 1) * n + i := by simp
          rw [e, hx 0 i (by omega) hi]; simp [sumBelow]
      · intro u i _ h2 h3; exact hx u i h2 h3
    · rintro t _ m3 ht1 htT ⟨h2, h3⟩
      obtain ⟨t, rfl⟩ := Int.eq_ofNat_of_zero_le (by omega : 0 ≤ t)
      refine wp_forUp (fun i _ m' =>
        (∀ u j : Nat, (u : Int) ≤ t → j < n →
          m' .ws ((u : Int) * n + j) = some (sumBelow (fun u => x u j) u)) ∧
        (∀ j : Nat, (j : Int) < i → m' .ws (((t : Int) + 1) * n + j) = some (sumBelow (fun u => x u j) (t + 1))) ∧
        (∀ j : Nat, i ≤ (j : Int) → j < n → m' .ws (((t : Int) + 1) * n + j) = some (x t j)) ∧
        (∀ u j : Nat, t + 1 ≤ u → u < T → j < n → m' .ws (((u : Int) + 1) * n + j) = some (x u j))) ?_ ?_ ?_
      · exact ⟨h2, fun j h => by omega, fun j _ hj => h3 t j (by omega) (by omega) hj,
          fun u j hu huT hj => h3 u j (by omega) huT hj⟩
      · rintro i _ m4 hi0 hin ⟨g1, g2, g3, g4⟩
        obtain ⟨i, rfl⟩ := Int.eq_ofNat_of_zero_le hi0
        simp only [wp_bind, wp_read, wp_write, true_and]
        refine ⟨_, g3 i (by omega) (by omega), _, g1 t i (by omega) (by omega), ?_, ?_, ?_, ?_, ?_, ?_⟩
        · have := Int.mul_nonneg (by omega : 0 ≤ (t : Int) + 1) (by omega : (0 : Int) ≤ n); omega
        · simp only [psSize]
          have : ((t : Int) + 1 + 1) * n ≤ ((T : Int) + 1) * n :=
            Int.mul_le_mul_of_nonneg_right (by omega) (by omega)
          have e : ((t : Int) + 1 + 1) * n = ((t : Int) + 1) * n + n := by ring
          omega
        · intro u j hu hj; rw [Mem.set_same]; split
          · next h =>
            have := (cell_unique (i := j) (j := i) (n := n) (by omega) (by omega) (by omega) (by omega) h).1
            omega
          · exact g1 u j hu hj
        · intro j hj; rw [Mem.set_same]; split
          · next h =>
            have : j = i := by omega
            subst this
            exact congrArg some (Int.add_comm _ _)
          · exact g2 j (by omega)
        · intro j hj hjn; rw [Mem.set_same]; split
          · next h => omega
          · exact g3 j (by omega) hjn
        · intro u j hu huT hj; rw [Mem.set_same]; split
          · next h =>
            have := (cell_unique (i := j) (j := i) (n := n) (by omega) (by omega) (by omega) (by omega) h).1
            omega
          · exact g4 u j hu huT hj
      · rintro _ m5 ⟨g1, g2, g3, g4⟩
        constructor
        · intro u j hu hj
          by_cases h : u = t + 1
          · subst h
            have := g2 j (by omega)
            push_cast; exact this
          · exact g1 u j (by omega) hj
        · intro u j hu huT hj; exact g4 u j (by omega) huT hj
    rintro _ m3 ⟨h2, _⟩
    -- sum loop
    refine wp_forUp (fun i _ m' =>
      (∀ u i : Nat, (u : Int) ≤ T → i < n →
        m' .ws ((u : Int) * n + i) = some (sumBelow (fun u => x u i) u)) ∧
      (∀ j : Nat, (j : Int) < i → m' .sum j = some (sumBelow (fun u => x u j) T))) ?_ ?_ ?_
    · exact ⟨fun u i hu hi => h2 u i (by omega) hi, fun j h => by omega⟩
    · rintro i _ m4 hi0 hin ⟨g1, g2⟩
      obtain ⟨i, rfl⟩ := Int.eq_ofNat_of_zero_le hi0
      simp only [wp_bind, wp_read, wp_write, true_and]
      refine ⟨_, g1 T i (by omega) (by omega), by omega, by simp only [psSize]; omega, ?_, ?_⟩
      · intro u j hu hj; rw [Mem.set_other _ _ _ _ _ (by simp)]; exact g1 u j hu hj
      · intro j hj; rw [Mem.set_same]; split
        · have : j = i := by omega
          rw [this]
        · exact g2 j (by omega)
    · rintro _ m4 ⟨g1, g2⟩ _
      exact ⟨fun t i ht hi => g1 t i (by omega) hi, fun i hi => g2 i (by omega)⟩
  intro _ m2 hq2 hf2
  obtain ⟨mt, h1, h2⟩ := hq2 0 (by omega)
  have hm2 : m2 = mt := by funext a i; exact h2 a i rfl
  subst hm2
  obtain ⟨hws, hsum⟩ := h1 rfl
  clear h2 hq2 hf2
  -- phase 3
  refine par_rule
    (W := fun t a _ => a = .io t)
    (R := fun t a _ => a = .io t ∨ a = .ws)
    (Q := fun t _ m' => ∀ i : Nat, i < n → m' (.io t) i = some (sumBelow (fun u => x u i) t)) ?_ ?_ ?_
  · rintro t u a i ht hu htu rfl (h | h)
    · exact htu (by injection h)
    · cases h
  · intro t ht
    refine wp_forUp (fun i _ m' => m' .ws = m2 .ws ∧
      ∀ j : Nat, (j : Int) < i → m' (.io t) j = some (sumBelow (fun u => x u j) t)) ?_ ?_ ?_
    · exact ⟨rfl, fun j h => by omega⟩
    · rintro i _ m' h0 h1 ⟨h2, h3⟩
      obtain ⟨i, rfl⟩ := Int.eq_ofNat_of_zero_le h0
      simp only [wp_bind, wp_read, wp_write, or_true, true_and]
      refine ⟨_, by rw [h2]; exact hws t i (by omega) (by omega), by omega,
        by simp only [psSize]; omega, ?_, ?_⟩
      · rw [Mem.set_other _ _ _ _ _ (by simp)]; exact h2
      · intro j hj; rw [Mem.set_same]; split
        · have : j = i := by omega
          rw [this]
        · exact h3 j (by omega)
    · rintro _ m' ⟨_, h3⟩ i hi; exact h3 i (by omega)
  · intro _ m3 hq3 hf3
    constructor
    · intro t i ht hi
      obtain ⟨mt, h1, h2⟩ := hq3 t ht
      rw [h2 _ _ (Or.inl rfl)]; exact h1 i hi
    · intro i hi
      rw [hf3 .sum i (by intro t _ h; cases h)]; exact hsum i hi

end SpMP
