import Verif.Spec.Pcg
import Verif.Spec.Ilu
/-
Specification of preconditioning by incomplete factors, independent of the code model.
-/
namespace SpMP.Spec
open Finset

variable {R : Type}

/-- `M z = r` for the preconditioner `M = L U` whose factors are stored in `lu` (ones on the diagonal of `L`): with `U z = y`
it says `L y = r`. -/
def IluPrec [CommRing R] (A : Csr R) (dp : Nat → Nat) (lu : Nat → R) (z r : Nat → R) : Prop :=
  ∃ y : Nat → R, (∀ i, i < A.m → ∑ j ∈ Ico (dp i) (A.ptr (i + 1)), lu j * z (A.col j) = y i) ∧
    ∀ i, i < A.m → ∑ j ∈ Ico (A.ptr i) (dp i), lu j * y (A.col j) + y i = r i

end SpMP.Spec
