import Verif.Spec.Linear
import Mathlib.Algebra.Order.Group.Unbundled.Abs
import Verif.Spec.Rows
import Verif.Spec.Bfs
import Verif.Spec.Rcm
/-
What a matrix becomes when its rows and columns are renumbered. Refers to no model definition.
-/
namespace SpMP.Spec
variable {R : Type}

/-- `B` is `A` with row and column `x` renumbered to `perm x`: same sizes, and the entries of a row in the same order. -/
structure Renumbered (A B : Csr R) (perm : Nat → Nat) : Prop where
  rows : B.m = A.m
  cols : B.n = A.n
  row : ∀ i, i < A.m → B.row (perm i) = (A.row i).map fun e => (perm e.1, e.2)

/-- `b` is the largest distance between the new numbers of a row and of a column in which it stores an entry. -/
structure IsBandwidth (A : Csr R) (perm : Nat → Nat) (b : Int) : Prop where
  bound : ∀ i j, A.InRow i j → |(perm (A.col j) : Int) - perm i| ≤ b
  attained : 0 < A.nnz → ∃ i j, A.InRow i j ∧ b = |(perm (A.col j) : Int) - perm i|

end SpMP.Spec
