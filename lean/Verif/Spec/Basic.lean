/-
Specification vocabulary shared by several properties. Nothing here mentions the model of the code.
-/

namespace SpMP.Spec

/-- `f 0 + f 1 + ... + f (n-1)`. -/
def sumBelow (f : Nat → Int) : Nat → Int
  | 0 => 0
  | n + 1 => sumBelow f n + f n

/-- The ranges `[b t, e t)`, `t < T`, are ordered, disjoint and together contain each of `0 .. n-1` exactly once. -/
def Tiles (T : Nat) (n : Int) (b e : Nat → Int) : Prop :=
  (∀ t, t < T → 0 ≤ b t ∧ b t ≤ e t ∧ e t ≤ n) ∧
  (∀ t u, t < u → u < T → e t ≤ b u) ∧
  (∀ i, 0 ≤ i → i < n → ∃ t, t < T ∧ (b t ≤ i ∧ i < e t) ∧ ∀ u, u < T → b u ≤ i → i < e u → u = t)

/-- `f` is a permutation of `0 .. n-1`: values in range and no value twice. -/
def IsPermFn (n : Nat) (f : Nat → Nat) : Prop :=
  (∀ i, i < n → f i < n) ∧ (∀ i j, i < n → j < n → f i = f j → i = j)

end SpMP.Spec
