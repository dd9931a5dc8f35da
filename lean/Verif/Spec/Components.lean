import Verif.Spec.Csr
/-
Connected components of the graph of a sparsity pattern. Refers to no model definition.
-/

namespace SpMP.Spec
variable {R : Type}

/-- `x` and `y` are joined by a path of stored entries (each usable in both directions) between nodes of `V`. -/
inductive Linked (A : Csr R) (V : Nat → Prop) : Nat → Nat → Prop
  | refl (x) : Linked A V x x
  | edge {x j} : V x → A.InRow x j → V (A.col j) → Linked A V x (A.col j)
  | symm {x y} : Linked A V x y → Linked A V y x
  | trans {x y z} : Linked A V x y → Linked A V y z → Linked A V x z

/-- The result arrays describe the classes of `E` on the nodes `V`: class `c < nc` has representative `root c`, its smallest
node; its nodes, in increasing order, are `node (start c), .., node (start c + size c - 1)`; the blocks follow each other from
position 0, the roots increase, and every node of `V` is in some block. -/
structure IsComponents (V : Nat → Prop) (E : Nat → Nat → Prop) (nc : Nat) (root size start node : Nat → Nat) : Prop where
  root_mem : ∀ c, c < nc → V (root c)
  root_least : ∀ c x, c < nc → V x → E (root c) x → root c ≤ x
  root_incr : ∀ c d, c < d → d < nc → root c < root d
  start_zero : start 0 = 0
  start_next : ∀ c, c + 1 < nc → start (c + 1) = start c + size c
  node_mem : ∀ c j, c < nc → j < size c → V (node (start c + j)) ∧ E (root c) (node (start c + j))
  node_incr : ∀ c i j, c < nc → i < j → j < size c → node (start c + i) < node (start c + j)
  cover : ∀ x, V x → ∃ c j, c < nc ∧ j < size c ∧ node (start c + j) = x

end SpMP.Spec
