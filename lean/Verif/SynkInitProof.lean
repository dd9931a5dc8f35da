import Verif.SynkInit
import Mathlib.Data.Finset.Card
import Mathlib.Data.Finset.Range

/-
Invariant of the initialization of the barrier objects.
-/

namespace SpMP

open Finset

/-- Counting barriers the thread has decremented. -/
def InitPc.d : InitPc → Nat
  | .start => 0
  | .dec k => k
  | .reset k | .raise k | .spin k => k + 1
  | .map1 | .map2 | .link _ _ => 1
  | .done => 2

/-- Not busy releasing a counting barrier. -/
def InitPc.plain : InitPc → Bool
  | .reset _ | .raise _ => false
  | _ => true

/-- Program counters that occur. -/
def InitPc.wf (lg : Nat) (leader : Bool) : InitPc → Prop
  | .dec k | .reset k | .raise k | .spin k => k < 2
  | .link i ps => leader = true ∧ i ≤ lg ∧ (ps = true → i < lg)
  | _ => True

/-- Threads that wait at counting barrier `k`. -/
def initCnt (T : Nat) (pcs : Nat → InitPc) (k : Nat) : Nat := ((range T).filter fun t => (pcs t).d = k + 1).card

/-- The state of the counting barriers. -/
inductive InitPh (T : Nat) (pcs : Nat → InitPc) (w k : Nat) : Prop
  | open' (h : ∀ t, t < T → ((pcs t).d = k ∧ (pcs t).plain = true) ∨ pcs t = .spin k)
      (hw : w + initCnt T pcs k = T) (hpos : 0 < w)
  | resetting (t0 : Nat) (h0 : t0 < T) (hr : pcs t0 = .reset k) (h : ∀ t, t < T → t ≠ t0 → pcs t = .spin k)
  | raising (t0 : Nat) (h0 : t0 < T) (hr : pcs t0 = .raise k) (h : ∀ t, t < T → t ≠ t0 → pcs t = .spin k) (hw : w = T)

theorem initCnt_congr {T k : Nat} {pcs : Nat → InitPc} {t : Nat} {p : InitPc} (hd : p.d = (pcs t).d) :
    initCnt T (updT pcs t p) k = initCnt T pcs k := by
  unfold initCnt
  congr 1
  apply filter_congr
  intro u _
  by_cases h : u = t
  · subst h; rw [updT_same, hd]
  · rw [updT_other _ _ h]

theorem initCnt_inc {T k : Nat} {pcs : Nat → InitPc} {t : Nat} {p : InitPc} (ht : t < T) (hd : p.d = k + 1)
    (h0 : (pcs t).d ≠ k + 1) : initCnt T (updT pcs t p) k = initCnt T pcs k + 1 := by
  unfold initCnt
  rw [← card_insert_of_notMem (a := t) (s := (range T).filter fun t => (pcs t).d = k + 1)
    (by simp [h0])]
  congr 1
  ext u
  simp only [mem_filter, mem_range, mem_insert]
  by_cases h : u = t
  · subst h; simp [ht, hd]
  · rw [updT_other _ _ h]; simp [h]

theorem initCnt_full {T k : Nat} {pcs : Nat → InitPc} (h : initCnt T pcs k = T) : ∀ t, t < T → (pcs t).d = k + 1 := by
  intro t ht
  have : (range T).filter (fun t => (pcs t).d = k + 1) = range T := by
    apply eq_of_subset_of_card_le (filter_subset _ _)
    rw [card_range]; exact Nat.le_of_eq h.symm
  have hm : t ∈ (range T).filter (fun t => (pcs t).d = k + 1) := by rw [this]; exact mem_range.2 ht
  exact (mem_filter.1 hm).2

theorem initCnt_zero {T k : Nat} {pcs : Nat → InitPc} (h : ∀ t, t < T → (pcs t).d ≠ k + 1) : initCnt T pcs k = 0 := by
  unfold initCnt
  rw [card_eq_zero, filter_eq_empty_iff]
  intro t ht
  exact h t (mem_range.1 ht)

/-- A step that does not concern the counting barriers. -/
theorem InitPh.neutral {T w k t : Nat} {pcs : Nat → InitPc} {p : InitPc} (h : InitPh T pcs w k) (ht : t < T)
    (hd : p.d = (pcs t).d) (hp : p.plain = true) (h1 : (pcs t).plain = true) (h2 : pcs t ≠ .spin k) :
    InitPh T (updT pcs t p) w k := by
  cases h with
  | open' h hw hpos =>
    refine .open' (fun u hu => ?_) (by rw [initCnt_congr hd]; exact hw) hpos
    by_cases e : u = t
    · subst e
      rw [updT_same]
      rcases h u hu with ⟨a, _⟩ | a
      · exact .inl ⟨by rw [hd, a], hp⟩
      · exact absurd a h2
    · rw [updT_other _ _ e]; exact h u hu
  | resetting t0 h0 hr h =>
    by_cases e : t = t0
    · subst e; rw [hr] at h1; cases h1
    · exact absurd (h t ht e) h2
  | raising t0 h0 hr h hw =>
    by_cases e : t = t0
    · subst e; rw [hr] at h1; cases h1
    · exact absurd (h t ht e) h2

/-- A decrement. -/
theorem InitPh.dec {T w k t j : Nat} {pcs : Nat → InitPc} (h : InitPh T pcs w k) (ht : t < T)
    (hj : pcs t = .dec j) : j = k ∧ 0 < w ∧
    InitPh T (updT pcs t (if w - 1 = 0 then .reset j else .spin j)) (w - 1) k := by
  cases h with
  | open' h hw hpos =>
    have hjk : j = k := by
      rcases h t ht with ⟨a, _⟩ | a
      · rw [hj] at a; exact a
      · rw [hj] at a; cases a
    subst hjk
    refine ⟨rfl, hpos, ?_⟩
    have hd : (pcs t).d ≠ j + 1 := by rw [hj]; show j ≠ j + 1; omega
    by_cases e : w - 1 = 0
    · rw [if_pos e]
      have hc := initCnt_inc (p := .reset j) (pcs := pcs) ht rfl hd
      have hall := initCnt_full (T := T) (k := j) (pcs := updT pcs t (.reset j)) (by omega)
      refine .resetting t ht (updT_same _ _ _) (fun u hu hne => ?_)
      have hx := hall u hu
      rw [updT_other _ _ hne] at hx ⊢
      rcases h u hu with ⟨a, _⟩ | a
      · omega
      · exact a
    · rw [if_neg e]
      have hc := initCnt_inc (p := .spin j) (pcs := pcs) ht rfl hd
      refine .open' (fun u hu => ?_) (by omega) (by omega)
      by_cases eu : u = t
      · subst eu; rw [updT_same]; exact .inr rfl
      · rw [updT_other _ _ eu]; exact h u hu
  | resetting t0 h0 hr h =>
    by_cases e : t = t0
    · subst e; rw [hr] at hj; cases hj
    · have := h t ht e; rw [hj] at this; cases this
  | raising t0 h0 hr h hw =>
    by_cases e : t = t0
    · subst e; rw [hr] at hj; cases hj
    · have := h t ht e; rw [hj] at this; cases this

/-- The last thread resets the counter. -/
theorem InitPh.reset {T w k t j : Nat} {pcs : Nat → InitPc} (h : InitPh T pcs w k) (ht : t < T)
    (hj : pcs t = .reset j) : j = k ∧ InitPh T (updT pcs t (.raise j)) T k := by
  cases h with
  | open' h hw hpos =>
    rcases h t ht with ⟨_, a⟩ | a
    · rw [hj] at a; cases a
    · rw [hj] at a; cases a
  | resetting t0 h0 hr h =>
    by_cases e : t = t0
    · subst e
      rw [hr] at hj
      injection hj with hj
      subst hj
      refine ⟨rfl, .raising t ht (updT_same _ _ _) (fun u hu hne => ?_) rfl⟩
      rw [updT_other _ _ hne]; exact h u hu hne
    · have := h t ht e; rw [hj] at this; cases this
  | raising t0 h0 hr h hw =>
    by_cases e : t = t0
    · subst e; rw [hr] at hj; cases hj
    · have := h t ht e; rw [hj] at this; cases this

/-- The last thread opens the barrier. -/
theorem InitPh.raise {T w k t j : Nat} {pcs : Nat → InitPc} (h : InitPh T pcs w k) (ht : t < T) (hj2 : j < 2)
    (hj : pcs t = .raise j) : j = k ∧ InitPh T (updT pcs t (initAfter j)) w (k + 1) := by
  cases h with
  | open' h hw hpos =>
    rcases h t ht with ⟨_, a⟩ | a
    · rw [hj] at a; cases a
    · rw [hj] at a; cases a
  | resetting t0 h0 hr h =>
    by_cases e : t = t0
    · subst e; rw [hr] at hj; cases hj
    · have := h t ht e; rw [hj] at this; cases this
  | raising t0 h0 hr h hw =>
    by_cases e : t = t0
    · subst e
      rw [hr] at hj
      injection hj with hj
      subst hj
      have hd : (initAfter k).d = k + 1 ∧ (initAfter k).plain = true := by
        rcases Nat.lt_succ_iff_lt_or_eq.1 hj2 with e | e
        · have : k = 0 := by omega
          subst this; exact ⟨rfl, rfl⟩
        · subst e; exact ⟨rfl, rfl⟩
      have hall : ∀ u, u < T → (updT pcs t (initAfter k) u).d = k + 1 ∧ (updT pcs t (initAfter k) u).plain = true := by
        intro u hu
        by_cases eu : u = t
        · subst eu; rw [updT_same]; exact hd
        · rw [updT_other _ _ eu, h u hu eu]; exact ⟨rfl, rfl⟩
      refine ⟨rfl, .open' (fun u hu => .inl (hall u hu)) ?_ (by omega)⟩
      rw [initCnt_zero (fun u hu => by rw [(hall u hu).1]; omega), hw, Nat.add_zero]
    · have := h t ht e; rw [hj] at this; cases this

/-- If all threads have returned or spin, all have returned. -/
theorem InitPh.progress {T w k : Nat} {pcs : Nat → InitPc} (h : InitPh T pcs w k)
    (hno : ∀ t, t < T → pcs t = .done ∨ (pcs t = .spin k ∧ k < 2)) : ∀ t, t < T → pcs t = .done := by
  cases h with
  | open' h hw hpos =>
    intro t ht
    rcases hno t ht with a | ⟨_, hk⟩
    · exact a
    · exfalso
      have hall : ∀ u, u < T → (pcs u).d = k + 1 := by
        intro u hu
        rcases hno u hu with a | ⟨a, _⟩
        · rcases h u hu with ⟨b, _⟩ | b
          · rw [a] at b
            have : 2 = k := b
            omega
          · rw [a] at b; cases b
        · rw [a]; rfl
      have : initCnt T pcs k = T := by
        unfold initCnt
        rw [filter_true_of_mem (fun u hu => hall u (mem_range.1 hu)), card_range]
      omega
  | resetting t0 h0 hr h => rcases hno t0 h0 with a | ⟨a, _⟩ <;> (rw [hr] at a; cases a)
  | raising t0 h0 hr h hw => rcases hno t0 h0 with a | ⟨a, _⟩ <;> (rw [hr] at a; cases a)

/-- Past the first counting barrier: nobody is before it. -/
theorem InitPh.all_dec {T w k t j : Nat} {pcs : Nat → InitPc} (h : InitPh T pcs w k) (ht : t < T)
    (hj : j ≤ (pcs t).d) (hs : ∀ i, pcs t = .spin i → i + 1 = j → k ≠ i) (hp : (pcs t).plain = true) :
    ∀ u, u < T → j ≤ (pcs u).d := by
  intro u hu
  cases h with
  | open' h hw hpos =>
    have hk : j ≤ k := by
      rcases h t ht with ⟨a, _⟩ | a
      · omega
      · rw [a] at hj
        have hj : j ≤ k + 1 := hj
        apply Classical.byContradiction
        intro hc
        exact hs k a (by omega) rfl
    rcases h u hu with ⟨a, _⟩ | a
    · omega
    · rw [a]; show j ≤ k + 1; omega
  | resetting t0 h0 hr h =>
    have hd : ∀ u, u < T → (pcs u).d = k + 1 := fun u hu => by
      by_cases e : u = t0
      · subst e; rw [hr]; rfl
      · rw [h u hu e]; rfl
    rw [hd u hu]; rw [hd t ht] at hj; exact hj
  | raising t0 h0 hr h hw =>
    have hd : ∀ u, u < T → (pcs u).d = k + 1 := fun u hu => by
      by_cases e : u = t0
      · subst e; rw [hr]; rfl
      · rw [h u hu e]; rfl
    rw [hd u hu]; rw [hd t ht] at hj; exact hj

end SpMP
