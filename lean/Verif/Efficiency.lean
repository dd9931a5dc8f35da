import Mathlib.Order.Defs.LinearOrder
/-
printEfficiency (/repo/test/test.hpp:49-60).
-/
namespace SpMP

/-- `printEfficiency` (test.hpp:49-60).  `sort` is `std::sort`, which permutes the first `repeat_` times of the array into
ascending order; `rate w t` is `w/t/1e9`, with whatever rounding.  The result is the two numbers printed and the array
afterwards, `none` an access outside of the array. -/
def printEfficiency {T W O : Type} (sort : List T → List T) (rate : W → T → O) (times : List T) (repeat_ : Nat) (flop byte : W) :
    Option ((O × O) × List T) :=
  if times.length < repeat_ then none else
  let s := sort (times.take repeat_) ++ times.drop repeat_
  match s[repeat_ / 2]? with
  | none => none
  | some t => some ((rate flop t, rate byte t), s)

end SpMP
