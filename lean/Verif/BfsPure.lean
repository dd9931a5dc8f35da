import Verif.Spec.Bfs
import Mathlib.Data.Nat.Find
/-
Levels of a breadth-first search.
-/

namespace SpMP
open Spec

variable {R : Type} {A : Csr R} {s : Nat}

theorem Spec.Walk.lt (wf : A.WF) (hs : s < A.m) (hsq : A.n = A.m) {x d : Nat} (h : Walk A s x d) : x < A.m := by
  cases h with
  | nil => exact hs
  | snoc h1 h2 => have := wf.col_lt _ (h2.lt_nnz wf); omega

theorem Spec.IsDist.unique {x d e : Nat} (h : IsDist A s x d) (h' : IsDist A s x e) : d = e :=
  Nat.le_antisymm (h.2 _ h'.1) (h'.2 _ h.1)

theorem Spec.Walk.dist {x d : Nat} (h : Walk A s x d) : ∃ e, e ≤ d ∧ IsDist A s x e := by
  classical
  have he : ∃ e, Walk A s x e := ⟨d, h⟩
  exact ⟨Nat.find he, Nat.find_min' he h, Nat.find_spec he, fun e h' => Nat.find_min' he h'⟩

theorem Spec.Reaches.dist {x : Nat} (h : Reaches A s x) : ∃ e, IsDist A s x e := by
  obtain ⟨d, h⟩ := h
  obtain ⟨e, _, h⟩ := h.dist
  exact ⟨e, h⟩

theorem isDist_zero : IsDist A s s 0 := ⟨.nil, fun _ _ => Nat.zero_le _⟩

theorem isDist_zero_iff {x : Nat} : IsDist A s x 0 ↔ x = s := by
  constructor
  · rintro ⟨h, _⟩; cases h; rfl
  · rintro rfl; exact isDist_zero

/-- `x` is at a distance of at most `l`. -/
def Near (A : Csr R) (s l x : Nat) : Prop := ∃ d, d ≤ l ∧ IsDist A s x d

theorem near_iff {l x : Nat} : Near A s l x ↔ ∃ d, d ≤ l ∧ Walk A s x d := by
  constructor
  · rintro ⟨d, h1, h2⟩; exact ⟨d, h1, h2.1⟩
  · rintro ⟨d, h1, h2⟩; obtain ⟨e, h3, h4⟩ := h2.dist; exact ⟨e, by omega, h4⟩

/-- The next level: the neighbours of the level that are not near. -/
theorem isDist_succ_iff {l v : Nat} : IsDist A s v (l + 1) ↔ ¬ Near A s l v ∧ ∃ u j, IsDist A s u l ∧ A.InRow u j ∧ A.col j = v := by
  constructor
  · rintro ⟨h1, h2⟩
    refine ⟨fun hn => ?_, ?_⟩
    · obtain ⟨d, h3, h4⟩ := near_iff.1 hn
      have := h2 d h4; omega
    · generalize he : l + 1 = e at h1
      cases h1 with
      | nil => omega
      | snoc h3 h4 =>
        rename_i x d j
        have : d = l := by omega
        subst this
        obtain ⟨e, h5, h6⟩ := h3.dist
        have := h2 _ (.snoc h6.1 h4)
        have : e = d := by omega
        subst this
        exact ⟨x, j, h6, h4, rfl⟩
  · rintro ⟨h1, u, j, h2, h3, rfl⟩
    refine ⟨.snoc h2.1 h3, fun e he => ?_⟩
    by_contra hc
    exact h1 (near_iff.2 ⟨e, by omega, he⟩)

theorem near_succ {l x : Nat} : Near A s (l + 1) x ↔ Near A s l x ∨ IsDist A s x (l + 1) := by
  constructor
  · rintro ⟨d, h1, h2⟩
    by_cases h : d = l + 1
    · subst h; exact Or.inr h2
    · exact Or.inl ⟨d, by omega, h2⟩
  · rintro (⟨d, h1, h2⟩ | h)
    · exact ⟨d, by omega, h2⟩
    · exact ⟨l + 1, by omega, h⟩

theorem near_zero {x : Nat} : Near A s 0 x ↔ x = s := by
  constructor
  · rintro ⟨d, h1, h2⟩
    obtain rfl : d = 0 := by omega
    exact isDist_zero_iff.1 h2
  · rintro rfl; exact ⟨0, by omega, isDist_zero⟩

/-- An empty level is followed by empty levels only. -/
theorem dist_lt_of_empty {l : Nat} (h : ∀ x, ¬ IsDist A s x l) : ∀ d x, IsDist A s x d → d < l := by
  have key : ∀ n x, ¬ IsDist A s x (l + n) := by
    intro n
    induction n with
    | zero => exact h
    | succ n ih =>
      intro x hx
      obtain ⟨_, u, _, hu, _⟩ := isDist_succ_iff.1 hx
      exact ih u hu
  intro d x hx
  by_contra hc
  exact key (d - l) x (by rw [show l + (d - l) = d by omega]; exact hx)

end SpMP
