import Verif.Spec.Csr
import Mathlib.Data.Nat.Find
/-
Levels of a breadth-first search that alternates between two matrices. `M 0`, `M 1` are the matrices of the two sides, `c` is the side of
the source `s`; a node at an even (odd) distance is on side `c` (the other side).
-/

namespace SpMP
open Spec

variable {R : Type} {M : Nat → Csr R} {c s : Nat}

/-- A walk of `d` stored entries from `s`, entry number `e` taken from the matrix of side `(c+e)%2`. -/
inductive SideWalk (M : Nat → Csr R) (c s : Nat) : Nat → Nat → Prop
  | nil : SideWalk M c s s 0
  | snoc {x d j} : SideWalk M c s x d → (M ((c + d) % 2)).InRow x j → SideWalk M c s ((M ((c + d) % 2)).col j) (d + 1)

/-- `d` is the number of entries of a shortest walk to `x`, on the side of parity `d`. -/
def IsSD (M : Nat → Csr R) (c s x d : Nat) : Prop := SideWalk M c s x d ∧ ∀ e, e % 2 = d % 2 → SideWalk M c s x e → d ≤ e

/-- Node `x` of side `y` is reached. -/
def SReach (M : Nat → Csr R) (c s y x : Nat) : Prop := ∃ d, (c + d) % 2 = y ∧ SideWalk M c s x d

/-- Node `x` of side `y` is at a distance of at most `l`. -/
def SNear (M : Nat → Csr R) (c s l y x : Nat) : Prop := ∃ d, d ≤ l ∧ (c + d) % 2 = y ∧ IsSD M c s x d

theorem SideWalk.lt (wf : ∀ y, y < 2 → (M y).WF) (hsq : ∀ y, y < 2 → (M y).n = (M (1 - y)).m) (hc : c < 2) (hs : s < (M c).m) {x d : Nat}
    (h : SideWalk M c s x d) : x < (M ((c + d) % 2)).m := by
  cases h with
  | nil => rw [show (c + 0) % 2 = c by omega]; exact hs
  | snoc h1 h2 =>
    rename_i y d j
    have h3 := (wf ((c + d) % 2) (by omega)).col_lt _ (h2.lt_nnz (wf _ (by omega)))
    rw [hsq _ (by omega), show 1 - (c + d) % 2 = (c + (d + 1)) % 2 by omega] at h3
    exact h3

theorem IsSD.unique {x d e : Nat} (h : IsSD M c s x d) (h' : IsSD M c s x e) (hp : d % 2 = e % 2) : d = e :=
  Nat.le_antisymm (h.2 _ hp.symm h'.1) (h'.2 _ hp h.1)

theorem SideWalk.dist {x d : Nat} (h : SideWalk M c s x d) : ∃ e, e ≤ d ∧ e % 2 = d % 2 ∧ IsSD M c s x e := by
  classical
  have he : ∃ e, e % 2 = d % 2 ∧ SideWalk M c s x e := ⟨d, rfl, h⟩
  have hsp := Nat.find_spec he
  exact ⟨Nat.find he, Nat.find_min' he ⟨rfl, h⟩, hsp.1, hsp.2, fun e hp h' => Nat.find_min' he ⟨by rw [hp, hsp.1], h'⟩⟩

theorem isSD_zero : IsSD M c s s 0 := ⟨.nil, fun _ _ _ => Nat.zero_le _⟩

theorem isSD_zero_iff {x : Nat} : IsSD M c s x 0 ↔ x = s := by
  constructor
  · rintro ⟨h, _⟩; cases h; rfl
  · rintro rfl; exact isSD_zero

theorem snear_iff {l y x : Nat} : SNear M c s l y x ↔ ∃ d, d ≤ l ∧ (c + d) % 2 = y ∧ SideWalk M c s x d := by
  constructor
  · rintro ⟨d, h1, h2, h3⟩; exact ⟨d, h1, h2, h3.1⟩
  · rintro ⟨d, h1, h2, h3⟩
    obtain ⟨e, h4, h5, h6⟩ := h3.dist
    exact ⟨e, by omega, by omega, h6⟩

/-- The next level: the neighbours of the level that are not near. -/
theorem isSD_succ_iff {l v : Nat} : IsSD M c s v (l + 1) ↔
    ¬ SNear M c s l ((c + (l + 1)) % 2) v ∧ ∃ u j, IsSD M c s u l ∧ (M ((c + l) % 2)).InRow u j ∧ (M ((c + l) % 2)).col j = v := by
  constructor
  · rintro ⟨h1, h2⟩
    refine ⟨fun hn => ?_, ?_⟩
    · obtain ⟨d, h3, h4, h5⟩ := snear_iff.1 hn
      have := h2 d (by omega) h5; omega
    · generalize he : l + 1 = e at h1
      cases h1 with
      | nil => omega
      | snoc h3 h4 =>
        rename_i x d j
        obtain rfl : d = l := by omega
        obtain ⟨e, h5, h6, h7⟩ := h3.dist
        have hs : (c + e) % 2 = (c + d) % 2 := by omega
        have h8 : SideWalk M c s ((M ((c + d) % 2)).col j) (e + 1) := by
          have := SideWalk.snoc h7.1 (j := j) (by rw [hs]; exact h4)
          rwa [hs] at this
        have := h2 _ (by omega) h8
        obtain rfl : e = d := by omega
        exact ⟨x, j, h7, h4, rfl⟩
  · rintro ⟨h1, u, j, h2, h3, rfl⟩
    refine ⟨.snoc h2.1 h3, fun e hp he => ?_⟩
    by_contra hc
    exact h1 (snear_iff.2 ⟨e, by omega, by omega, he⟩)

theorem snear_succ {l y x : Nat} : SNear M c s (l + 1) y x ↔ SNear M c s l y x ∨ ((c + (l + 1)) % 2 = y ∧ IsSD M c s x (l + 1)) := by
  constructor
  · rintro ⟨d, h1, h2, h3⟩
    by_cases h : d = l + 1
    · subst h; exact Or.inr ⟨h2, h3⟩
    · exact Or.inl ⟨d, by omega, h2, h3⟩
  · rintro (⟨d, h1, h2⟩ | h)
    · exact ⟨d, by omega, h2⟩
    · exact ⟨l + 1, by omega, h⟩

theorem snear_zero {y x : Nat} (hc : c < 2) : SNear M c s 0 y x ↔ y = c ∧ x = s := by
  constructor
  · rintro ⟨d, h1, h2, h3⟩
    obtain rfl : d = 0 := by omega
    exact ⟨by omega, isSD_zero_iff.1 h3⟩
  · rintro ⟨rfl, rfl⟩; exact ⟨0, by omega, by omega, isSD_zero⟩

/-- An empty level is followed by empty levels only. -/
theorem sd_lt_of_empty {l : Nat} (h : ∀ x, ¬ IsSD M c s x l) : ∀ d x, IsSD M c s x d → d < l := by
  have key : ∀ n x, ¬ IsSD M c s x (l + n) := by
    intro n
    induction n with
    | zero => exact h
    | succ n ih =>
      intro x hx
      obtain ⟨_, u, _, hu, _⟩ := isSD_succ_iff.1 hx
      exact ih u hu
  intro d x hx
  by_contra hc
  exact key (d - l) x (by rw [show l + (d - l) = d by omega]; exact hx)

theorem snear_of_empty {l : Nat} (h : ∀ x, ¬ IsSD M c s x l) {y x : Nat} : SNear M c s l y x ↔ SReach M c s y x := by
  constructor
  · rintro ⟨d, _, h2, h3⟩; exact ⟨d, h2, h3.1⟩
  · rintro ⟨d, h2, h3⟩
    obtain ⟨e, h4, h5, h6⟩ := h3.dist
    exact ⟨e, Nat.le_of_lt (sd_lt_of_empty h e x h6), by omega, h6⟩

end SpMP
