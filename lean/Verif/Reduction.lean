import Mathlib.Algebra.BigOperators.Group.Finset.Basic
import Mathlib.Algebra.BigOperators.Intervals
import Mathlib.Data.List.Perm.Basic
/-
OpenMP reductions: the private results of the threads and the original value are combined pairwise in an unspecified
order and grouping. Models no particular function.
-/

namespace SpMP

/-- An order of combination: a binary tree whose leaves name the operands. -/
inductive RedTree where
  | leaf (t : Nat)
  | node (l r : RedTree)

/-- The operands, left to right. -/
def RedTree.leaves : RedTree → List Nat
  | .leaf t => [t]
  | .node l r => l.leaves ++ r.leaves

/-- Combine the values `v` along the tree. -/
def RedTree.eval {α : Type} (op : α → α → α) (v : Nat → α) : RedTree → α
  | .leaf t => v t
  | .node l r => op (l.eval op v) (r.eval op v)

/-- An admissible combination of `n` thread results (operands `0..n-1`) and the original value (operand `n`). -/
def RedTree.Admissible (tr : RedTree) (n : Nat) : Prop := tr.leaves.Perm (List.range (n + 1))

/-- Values of the operands. -/
def redVals {α : Type} (n : Nat) (orig : α) (r : Nat → α) (t : Nat) : α := if t < n then r t else orig

theorem RedTree.eval_max_ge (v : Nat → Int) (tr : RedTree) : ∀ t, t ∈ tr.leaves → v t ≤ tr.eval max v := by
  induction tr with
  | leaf t => intro u hu; simp [leaves] at hu; subst hu; exact Int.le_refl _
  | node l r ihl ihr =>
    intro u hu
    simp only [leaves, List.mem_append] at hu
    simp only [eval]
    rcases hu with h | h
    · have := ihl u h; omega
    · have := ihr u h; omega

theorem RedTree.eval_max_mem (v : Nat → Int) (tr : RedTree) : ∃ t, t ∈ tr.leaves ∧ tr.eval max v = v t := by
  induction tr with
  | leaf t => exact ⟨t, by simp [leaves], rfl⟩
  | node l r ihl ihr =>
    obtain ⟨a, ha, ea⟩ := ihl
    obtain ⟨b, hb, eb⟩ := ihr
    simp only [eval, leaves, List.mem_append]
    by_cases h : l.eval max v ≤ r.eval max v
    · exact ⟨b, Or.inr hb, by omega⟩
    · exact ⟨a, Or.inl ha, by omega⟩

theorem RedTree.eval_add {α : Type} [AddCommMonoid α] (v : Nat → α) (tr : RedTree) : tr.eval (· + ·) v = (tr.leaves.map v).sum := by
  induction tr with
  | leaf t => simp [leaves, eval]
  | node l r ihl ihr => simp [leaves, eval, ihl, ihr]

theorem list_range_sum {α : Type} [AddCommMonoid α] (v : Nat → α) (n : Nat) : ((List.range n).map v).sum = ∑ t ∈ Finset.range n, v t := by
  induction n with
  | zero => simp
  | succ n ih => rw [List.range_succ, Finset.sum_range_succ]; simp [ih]

/-- A sum reduction gives the sum, whatever the order. -/
theorem RedTree.eval_add_eq {α : Type} [AddCommMonoid α] {tr : RedTree} {n : Nat} (h : tr.Admissible n) (orig : α) (r : Nat → α) :
    tr.eval (· + ·) (redVals n orig r) = (∑ t ∈ Finset.range n, r t) + orig := by
  rw [RedTree.eval_add, (h.map _).sum_eq, list_range_sum, Finset.sum_range_succ]
  congr 1
  · refine Finset.sum_congr rfl ?_
    intro t ht; simp only [Finset.mem_range] at ht; simp [redVals, ht]
  · simp [redVals]

/-- A max reduction gives the maximum. -/
theorem RedTree.eval_max_eq {tr : RedTree} {n : Nat} (h : tr.Admissible n) (orig : Int) (r : Nat → Int) :
    (∀ t, t < n → r t ≤ tr.eval max (redVals n orig r)) ∧ orig ≤ tr.eval max (redVals n orig r) ∧
    (tr.eval max (redVals n orig r) = orig ∨ ∃ t, t < n ∧ tr.eval max (redVals n orig r) = r t) := by
  refine ⟨?_, ?_, ?_⟩
  · intro t ht
    have := tr.eval_max_ge (redVals n orig r) t (h.mem_iff.2 (by simp; omega))
    simpa [redVals, ht] using this
  · have := tr.eval_max_ge (redVals n orig r) n (h.mem_iff.2 (by simp))
    simpa [redVals] using this
  · obtain ⟨t, ht, e⟩ := tr.eval_max_mem (redVals n orig r)
    have : t < n + 1 := by simpa using h.mem_iff.1 ht
    by_cases htn : t < n
    · right; exact ⟨t, htn, by rw [e]; simp [redVals, htn]⟩
    · left; rw [e]; simp [redVals, htn]

/-- One admissible order: left to right. -/
def RedTree.chain : Nat → RedTree
  | 0 => .leaf 0
  | n + 1 => .node (chain n) (.leaf (n + 1))

theorem RedTree.chain_admissible (n : Nat) : (RedTree.chain n).Admissible n := by
  unfold Admissible
  have : (RedTree.chain n).leaves = List.range (n + 1) := by
    induction n with
    | zero => rfl
    | succ n ih => rw [List.range_succ]; simp [chain, leaves, ih]
  rw [this]

end SpMP
