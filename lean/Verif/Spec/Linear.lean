import Verif.Spec.Csr
import Mathlib.Algebra.BigOperators.Intervals
/-
Specification of matrix-vector products, independent of the code model.
-/
namespace SpMP.Spec
open Finset

variable {R : Type} [CommRing R]

/-- `(A x)_i`: the sum over the stored entries of row `i` of value times `x[column]`. -/
def Csr.mulVec (A : Csr R) (x : Nat → R) (i : Nat) : R :=
  ∑ j ∈ Ico (A.ptr i) (A.ptr (i + 1)), A.val j * x (A.col j)

/-- The same pattern with all stored values equal to 1 (a pattern-only matrix). -/
def Csr.ones (A : Csr R) : Csr R := { A with val := fun _ => 1 }

end SpMP.Spec
