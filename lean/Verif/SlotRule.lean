import Verif.RelyGuar
import Verif.RowsMem
import Mathlib.Data.List.Perm.Basic
import Mathlib.Data.List.Count
/-
Proof rules for teams that append to shared buckets: a thread reserves the next slot of bucket `c` with an atomic increment of a
counter and then writes its item there. Models no particular function.
-/

namespace SpMP
open Spec

section
variable {A : Type} [DecidableEq A] {ty : A → Type} {α β σ Γ : Type} {sz : A → Int}
  {Inv : Γ → Mem ty → Prop} {Rely Guar : Γ → Mem ty → Γ → Mem ty → Prop}

/-- A program that only reads cells no thread changes. -/
theorem wpRG_ro {Rd : A → Int → Prop} {m0 : Mem ty}
    (htrans : ∀ g1 m1 g2 m2 g3 m3, Rely g1 m1 g2 m2 → Rely g2 m2 g3 m3 → Rely g1 m1 g3 m3)
    (hG : ∀ g m, Guar g m g m) (hst : ∀ g m, Inv g m → ∀ a i, Rd a i → m a i = m0 a i) {p : Prog ty α} {Q : α → Prop} :
    ∀ {g : Γ} {m : Mem ty}, wp sz (fun _ _ => False) Rd p m0 (fun a _ => Q a) →
      wpRG sz Inv Rely Guar p g m (fun a g' m' => Q a ∧ Rely g m g' m') := by
  induction p with
  | ret a =>
    intro g m h g' m' h1 h2
    exact ⟨wp_ret.1 h, h1⟩
  | rd a i k ih =>
    intro g m h g' m' h1 h2
    unfold wp at h
    obtain ⟨h3, v, h4, h5⟩ := h
    refine ⟨v, by rw [hst _ _ h2 a i h3]; exact h4, g', hG _ _, h2, ?_⟩
    refine wpRG_mono (ih v h5) ?_
    rintro b g2 m2 _ ⟨q1, q2⟩
    exact ⟨q1, htrans _ _ _ _ _ _ h1 q2⟩
  | wr a i v k ih => intro g m h; unfold wp at h; exact h.1.elim
  | rmw a i f k ih => intro g m h; unfold wp at h; exact h.1.elim
  | fail => intro g m h; unfold wp at h; exact h.elim

theorem wpRG_pure {a : α} {Q : α → Γ → Mem ty → Prop} {g : Γ} {m : Mem ty}
    (h : ∀ g' m', Rely g m g' m' → Inv g' m' → Q a g' m') : wpRG sz Inv Rely Guar (pure a : Prog ty α) g m Q := h

theorem wpRG_loopUp (hrefl : ∀ g m, Rely g m g m)
    (htrans : ∀ g1 m1 g2 m2 g3 m3, Rely g1 m1 g2 m2 → Rely g2 m2 g3 m3 → Rely g1 m1 g3 m3)
    {body : Int → σ → Prog ty σ} (I : Int → σ → Γ → Mem ty → Prop)
    (hst : ∀ i s g m g' m', I i s g m → Rely g m g' m' → Inv g' m' → I i s g' m') (n : Nat) :
    ∀ (lo : Int) (s : σ) (g : Γ) (m : Mem ty) {Q : σ → Γ → Mem ty → Prop}, Inv g m → I lo s g m →
      (∀ i s g m, lo ≤ i → i < lo + n → Inv g m → I i s g m →
        wpRG sz Inv Rely Guar (body i s) g m (fun s' g' m' => I (i + 1) s' g' m')) →
      (∀ s g m, I (lo + n) s g m → Q s g m) →
      wpRG sz Inv Rely Guar (Prog.loopUp body n lo s) g m Q := by
  induction n with
  | zero =>
    intro lo s g m Q hI h0 _ hQ
    refine wpRG_pure fun g' m' h1 h2 => hQ _ _ _ ?_
    have := hst _ _ _ _ _ _ h0 h1 h2
    simpa using this
  | succ n ih =>
    intro lo s g m Q hI h0 hstep hQ
    refine wpRG_bind hrefl htrans hI ?_
    refine wpRG_mono (hstep lo s g m (Int.le_refl _) (by omega) hI h0) ?_
    intro s' g' m' hI' h'
    refine ih (lo + 1) s' g' m' hI' h' ?_ ?_
    · intro i s g m h1 h2 hI h; exact hstep i s g m (by omega) (by push_cast; omega) hI h
    · intro s g m h; refine hQ s g m ?_
      rwa [show lo + ((n + 1 : Nat) : Int) = lo + 1 + n by push_cast; omega]

theorem wpRG_forUp (hrefl : ∀ g m, Rely g m g m)
    (htrans : ∀ g1 m1 g2 m2 g3 m3, Rely g1 m1 g2 m2 → Rely g2 m2 g3 m3 → Rely g1 m1 g3 m3)
    {lo hi : Int} {s : σ} {body : Int → σ → Prog ty σ} {g : Γ} {m : Mem ty} {Q : σ → Γ → Mem ty → Prop}
    (I : Int → σ → Γ → Mem ty → Prop)
    (hst : ∀ i s g m g' m', I i s g m → Rely g m g' m' → Inv g' m' → I i s g' m')
    (hI : Inv g m) (h0 : I lo s g m)
    (hstep : ∀ i s g m, lo ≤ i → i < hi → Inv g m → I i s g m →
      wpRG sz Inv Rely Guar (body i s) g m (fun s' g' m' => I (i + 1) s' g' m'))
    (hQ : ∀ s g m, I (max lo hi) s g m → Q s g m) :
    wpRG sz Inv Rely Guar (Prog.forUp lo hi s body) g m Q := by
  unfold Prog.forUp
  refine wpRG_loopUp hrefl htrans I hst _ lo s g m hI h0 ?_ ?_
  · intro i s g m h1 h2 hI h; exact hstep i s g m h1 (by omega) hI h
  · intro s g m h; refine hQ s g m ?_
    rwa [show lo + ((hi - lo).toNat : Int) = max lo hi by omega] at h

end

/-! ### Lists -/

/-- The `k`-th element that satisfies `P`. -/
theorem filter_get {α : Type} (P : α → Bool) : ∀ (l : List α) (k : Nat) (h : k < (l.filter P).length),
    ∃ (p : Nat) (hp : p < l.length), (l.take p).countP P = k ∧ (l.filter P)[k] = l[p] := by
  intro l
  induction l with
  | nil => intro k h; simp at h
  | cons a l ih =>
    intro k h
    by_cases ha : P a = true
    · cases k with
      | zero => exact ⟨0, by simp, by simp, by simp [List.filter_cons_of_pos ha]⟩
      | succ k =>
        obtain ⟨p, hp, h1, h2⟩ := ih k (by simpa [List.filter_cons_of_pos ha] using h)
        refine ⟨p + 1, by simpa using hp, by simp [ha, h1], ?_⟩
        simp only [List.filter_cons_of_pos ha, List.getElem_cons_succ]
        exact h2
    · obtain ⟨p, hp, h1, h2⟩ := ih k (by simpa [List.filter_cons_of_neg ha] using h)
      refine ⟨p + 1, by simpa using hp, by simp [ha, h1], ?_⟩
      simp only [List.filter_cons_of_neg ha, List.getElem_cons_succ]
      exact h2

theorem countP_take_lt {α : Type} (P : α → Bool) {l : List α} {p q : Nat} (hpq : p < q) (hp : p < l.length) (hP : P l[p] = true) :
    (l.take p).countP P < (l.take q).countP P := by
  have h1 : (l.take (p + 1)).countP P = (l.take p).countP P + 1 := by
    rw [List.take_succ_eq_append_getElem hp, List.countP_append]; simp [hP]
  have h2 : (l.take (p + 1)).countP P ≤ (l.take q).countP P := by
    have : l.take (p + 1) = (l.take q).take (p + 1) := by rw [List.take_take, Nat.min_eq_left hpq]
    rw [this]
    exact (List.take_sublist _ _).countP_le
  omega

/-- A list of (thread, item) pairs is a rearrangement of the threads' items. -/
theorem perm_threads {β : Type} [DecidableEq β] {T : Nat} (l : List (Nat × β)) (h : ∀ x ∈ l, x.1 < T) :
    (l.map (·.2)).Perm ((List.range T).flatMap fun t => (l.filter (fun x => decide (x.1 = t))).map (·.2)) := by
  induction l with
  | nil => simp
  | cons a l ih =>
    have ha := h a (by simp)
    have ih := ih (fun x hx => h x (by simp [hx]))
    rw [List.map_cons]
    have e : ∀ t, ((a :: l).filter (fun x => decide (x.1 = t))).map (·.2) =
        (if a.1 = t then [a.2] else []) ++ (l.filter (fun x => decide (x.1 = t))).map (·.2) := by
      intro t
      by_cases hat : a.1 = t <;> simp [hat]
    simp only [e]
    have hsing : ∀ T, a.1 < T → ((List.range T).flatMap fun t => if a.1 = t then [a.2] else []) = [a.2] := by
      intro T
      induction T with
      | zero => omega
      | succ T ih1 =>
        intro ha
        rw [List.range_succ, List.flatMap_append]
        by_cases hT : a.1 = T
        · rw [List.flatMap_eq_nil_iff.2]
          · simp [hT]
          · intro x hx; rw [List.mem_range] at hx; rw [if_neg (by omega)]
        · rw [ih1 (by omega)]; simp [hT]
    calc a.2 :: l.map (·.2) = [a.2] ++ l.map (·.2) := rfl
      _ = ((List.range T).flatMap fun t => if a.1 = t then [a.2] else []) ++ l.map (·.2) := by rw [hsing T ha]
      _ |>.Perm _ := List.Perm.append_left _ ih
      _ |>.Perm _ := List.flatMap_append_perm _ _ _

end SpMP
