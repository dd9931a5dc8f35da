import Verif.Spec.Level
import Verif.Spec.Schedule
/-
Specification of the task partition of a level schedule.
-/

namespace SpMP.Spec

/-- `S` splits the rows of the levels `L` into tasks: the boundaries tile tasks and positions and `perm` is a permutation of the rows
(`tiling`); `inv` is the inverse permutation; `lvl k` is the level of task `k`: all its rows are in that level; and the tasks of one
thread are in increasing level order. -/
structure SplitsLevels (S : Schedule) (L : List (List Nat)) (inv : Nat → Nat) (lvl : Nat → Nat) : Prop where
  tiling : S.Tiling
  inv_perm : IsPermFn S.m inv
  inv_left : ∀ p, p < S.m → inv (S.perm p) = p
  inv_right : ∀ i, i < S.m → S.perm (inv i) = i
  level : ∀ k i, S.RowIn k i → i ∈ L.getD (lvl k) []
  order : ∀ a b, S.SameThread a b → a < b → lvl a < lvl b

end SpMP.Spec
