import Verif.PrefixSum
/-
Proof for PrefixSum.cpp:6-26 prefixSum.
-/

namespace SpMP
open Spec

variable [Races PArr]

theorem prefixSum_ok (T : Nat) (hT : 1 ≤ T) (x : Nat → Int) (m : Mem PTy)
    (hio : ∀ t, t < T → m (.io t) 0 = some (x t)) :
    (prefixSum T).Ok m (fun _ m' =>
      (∀ t, t < T → m' (.io t) 0 = some (sumBelow x t)) ∧ m' .sum 0 = some (sumBelow x T)) := by
  unfold prefixSum
  refine par_rule
    (W := fun t a i => a = .ws ∧ i = (t : Int) + 1)
    (R := fun t a i => a = .io t ∨ (a = .ws ∧ i = (t : Int) + 1))
    (Q := fun t _ m' => m' .ws ((t : Int) + 1) = some (x t)) ?_ ?_ ?_
  · rintro t u a i ht hu htu ⟨rfl, rfl⟩ (h | ⟨_, h⟩)
    · cases h
    · omega
  · intro t ht
    simp only [wp_bind, wp_read, wp_write, true_or, true_and, and_self]
    exact ⟨x t, hio t ht, by omega, by simp only [psSize]; omega, by simp⟩
  intro _ m1 hq1 _
  have hws1 : ∀ t : Nat, t < T → m1 .ws ((t : Int) + 1) = some (x t) := by
    intro t ht
    obtain ⟨mt, h2, h3⟩ := hq1 t ht
    rw [h3 .ws _ (Or.inr ⟨rfl, rfl⟩)]; exact h2
  clear hq1
  refine par_rule
    (W := fun t _ _ => t = 0) (R := fun t _ _ => t = 0)
    (Q := fun t _ m' => t = 0 →
      (∀ t : Nat, t ≤ T → m' .ws (t : Int) = some (sumBelow x t)) ∧
      (m' .sum 0 = some (sumBelow x T))) ?_ ?_ ?_
  · intro t u a i _ _ h h1 h2; omega
  · intro t ht
    rw [wp_ite]
    constructor
    swap
    · intro h; rw [wp_pure]; intro h'; exact absurd h' h
    rintro rfl
    simp only [wp_bind, wp_write, true_and]
    refine ⟨by omega, by simp only [psSize]; omega, ?_⟩
    refine wp_forUp (fun t _ m' =>
      (∀ u : Nat, (u : Int) ≤ t → m' .ws (u : Int) = some (sumBelow x u)) ∧
      (∀ u : Nat, t ≤ (u : Int) → u < T → m' .ws ((u : Int) + 1) = some (x u))) ?_ ?_ ?_
    · constructor
      · intro u hu
        rcases Nat.lt_or_ge u 1 with h | h
        · have : u = 0 := by omega
          subst this
          simp [sumBelow]
        · have : u = 1 := by omega
          subst this
          rw [Mem.set_same, if_neg (by omega)]
          have := hws1 0 (by omega)
          simpa [sumBelow] using this
      · intro u _ h2
        rw [Mem.set_same, if_neg (by omega)]; exact hws1 u h2
    · rintro t _ m3 ht1 htT ⟨h2, h3⟩
      obtain ⟨t, rfl⟩ := Int.eq_ofNat_of_zero_le (by omega : 0 ≤ t)
      simp only [wp_read, wp_write, wp_bind, true_and]
      refine ⟨_, h3 t (by omega) (by omega), _, h2 t (by omega), by omega,
        by simp only [psSize]; omega, ?_, ?_⟩
      · intro u hu; rw [Mem.set_same]; split
        · have : u = t + 1 := by omega
          subst this
          exact congrArg some (Int.add_comm _ _)
        · exact h2 u (by omega)
      · intro u hu huT; rw [Mem.set_same, if_neg (by omega)]; exact h3 u (by omega) huT
    · rintro _ m3 ⟨h2, _⟩
      simp only [wp_read, true_and]
      refine ⟨_, h2 T (by omega), by omega, by simp only [psSize]; omega, ?_⟩
      intro _
      exact ⟨fun t ht => by rw [Mem.set_other _ _ _ _ _ (by simp)]; exact h2 t (by omega), by simp⟩
  intro _ m2 hq2 _
  obtain ⟨mt, h1, h2⟩ := hq2 0 (by omega)
  have hm2 : m2 = mt := by funext a i; exact h2 a i rfl
  subst hm2
  obtain ⟨hws, hsum⟩ := h1 rfl
  clear h2 hq2
  refine par_rule
    (W := fun t a _ => a = .io t)
    (R := fun t a _ => a = .io t ∨ a = .ws)
    (Q := fun t _ m' => m' (.io t) 0 = some (sumBelow x t)) ?_ ?_ ?_
  · rintro t u a i ht hu htu rfl (h | h)
    · exact htu (by injection h)
    · cases h
  · intro t ht
    simp only [wp_read, wp_write, wp_bind, or_true, true_and]
    exact ⟨_, hws t (by omega), by omega, by simp [psSize], by simp⟩
  · intro _ m3 hq3 hf3
    constructor
    · intro t ht
      obtain ⟨mt, h1, h2⟩ := hq3 t ht
      rw [h2 _ _ (Or.inl rfl)]; exact h1
    · rw [hf3 .sum 0 (by intro t _ h; cases h)]; exact hsum

end SpMP
