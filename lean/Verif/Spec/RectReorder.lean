import Verif.Spec.Linear
import Verif.Spec.Rows
import Verif.Spec.Bip
import Mathlib.Algebra.Order.Group.Unbundled.Abs
import Mathlib.Data.Rat.Defs
/-
What a rectangular matrix becomes when its rows and its columns are renumbered. Refers to no model definition.
-/
namespace SpMP.Spec
variable {R : Type}

/-- `B` is `A` with row `i` renumbered to `rp i` and column `c` to `cp c`: same sizes, and the entries of a row in the same order. -/
structure RenumberedRect (A B : Csr R) (rp cp : Nat → Nat) : Prop where
  rows : B.m = A.m
  cols : B.n = A.n
  row : ∀ i, i < A.m → B.row (rp i) = (A.row i).map fun e => (cp e.1, e.2)

/-- `b` is the largest distance between the new numbers of a row and of a column in which it stores an entry. -/
structure IsBandwidthRect (A : Csr R) (rp cp : Nat → Nat) (b : Int) : Prop where
  bound : ∀ i c, Stores A i c → |(cp c : Int) - rp i| ≤ b
  attained : 0 < A.nnz → ∃ i c, Stores A i c ∧ b = |(cp c : Int) - rp i|

/-- `w` is the difference between the largest and the smallest element of `S`, 0 if there is none. -/
def Spread (S : Nat → Prop) (w : Nat) : Prop :=
  ((∀ x, ¬ S x) ∧ w = 0) ∨ ∃ lo hi, S lo ∧ S hi ∧ (∀ x, S x → lo ≤ x ∧ x ≤ hi) ∧ lo + w = hi

/-- `q` is the average over `i < n` of the spreads of the sets `S i`. -/
def IsAvgSpread (n : Nat) (S : Nat → Nat → Prop) (q : Rat) : Prop :=
  ∃ w : Nat → Nat, (∀ i, i < n → Spread (S i) (w i)) ∧ q = ((∑ i ∈ Finset.range n, w i : Nat) : Rat) / n

/-- Element `c` of the product of the transpose of `A` with `y`. -/
def Csr.transMulVec [CommRing R] (A : Csr R) (y : Nat → R) (c : Nat) : R :=
  ∑ i ∈ Finset.range A.m, ∑ j ∈ Finset.Ico (A.ptr i) (A.ptr (i + 1)), if A.col j = c then A.val j * y i else 0

end SpMP.Spec
