import Verif.Spec.Csr
/-
Distances in the graph of a sparsity pattern and breadth-first numberings. Refers to no model definition.
-/

namespace SpMP.Spec
variable {R : Type}

/-- A walk of `d` stored entries leads from `s` to `x`. -/
inductive Walk (A : Csr R) (s : Nat) : Nat → Nat → Prop
  | nil : Walk A s s 0
  | snoc {x d j} : Walk A s x d → A.InRow x j → Walk A s (A.col j) (d + 1)

/-- `d` is the number of entries of a shortest walk from `s` to `x`. -/
def IsDist (A : Csr R) (s x d : Nat) : Prop := Walk A s x d ∧ ∀ e, Walk A s x e → d ≤ e

/-- Some walk leads from `s` to `x`. -/
def Reaches (A : Csr R) (s x : Nat) : Prop := ∃ d, Walk A s x d

/-- The pattern is symmetric. -/
def PatSym (A : Csr R) : Prop := ∀ x j, A.InRow x j → ∃ i, A.InRow (A.col j) i ∧ A.col i = x

/-- `perm` (row to position) and `inv` (position to row) are inverse permutations of `0 .. m-1`, the rows of a connected component
have consecutive positions, and inside a component, whose first row is its source, positions do not decrease the distance from the
source. -/
structure IsBfsNumbering (A : Csr R) (perm inv : Nat → Nat) : Prop where
  inv_perm : ∀ x, x < A.m → perm x < A.m ∧ inv (perm x) = x
  perm_inv : ∀ p, p < A.m → inv p < A.m ∧ perm (inv p) = p
  together : ∀ p q r, p ≤ q → q ≤ r → r < A.m → Reaches A (inv p) (inv r) → Reaches A (inv p) (inv q)
  ordered : ∀ p, p < A.m → ∃ s, s ≤ p ∧ Reaches A (inv s) (inv p) ∧
    (∀ q, q < A.m → Reaches A (inv p) (inv q) → s ≤ q) ∧
    ∀ q d e, q ≤ p → Reaches A (inv p) (inv q) → IsDist A (inv s) (inv q) d → IsDist A (inv s) (inv p) e → d ≤ e

end SpMP.Spec
