import Mathlib.Algebra.Order.Field.Basic
import Mathlib.Algebra.Order.Ring.Rat
/-
Specification of the comparison of vectors with an error margin.
-/

namespace SpMP.Spec

/-- A value of type double: a number, an infinity or not a number. -/
inductive Dbl
  | fin (q : Rat)
  | inf (neg : Bool)
  | nan
deriving DecidableEq

/-- `actual` agrees with `expected` up to the relative error `tol`, or both are smaller than `ign`. -/
def Agree (tol ign expected actual : Rat) : Prop :=
  expected = actual ∧ expected = 0 ∨ |expected - actual| < tol * |expected| ∨ (|expected| < ign ∧ |actual| < ign)

end SpMP.Spec
