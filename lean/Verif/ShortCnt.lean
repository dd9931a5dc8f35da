import Verif.Spec.Schedule
import Mathlib.Logic.Function.Iterate

/-
The numbers of parents of a task are kept in arrays of `short` (LevelSchedule.hpp:157, LevelSchedule.cpp:850, 855; also
`numOfChildren`, `nparentsTemp`, LevelSchedule.cpp:920, 880), and the executions read the first `nparents` entries of a
task's list (e.g. test/trsv_test.cpp:204-236).
-/

namespace SpMP
open SpMP.Spec

/-- Conversion of an int to `short`, and the result of counting with `__sync_fetch_and_add` on a `short`. -/
def toI16 (n : Nat) : Int := ((n : Int) + 32768) % 65536 - 32768

/-- Adding one to a `short` (`__sync_fetch_and_add(&nparentsForward[*succItr], 1)`, LevelSchedule.cpp:1542; gcc's builtin wraps). -/
def incr16 (x : Int) : Int := (x + 1 + 32768) % 65536 - 32768

/-- Counting `n` parents one by one from zero (LevelSchedule.cpp:865, 1542) leaves what the conversion of LevelSchedule.cpp:1678 leaves. -/
theorem count16 (n : Nat) : incr16^[n] 0 = toI16 n := by
  induction n with
  | zero => rfl
  | succ n ih =>
    rw [Function.iterate_succ_apply', ih]
    unfold incr16 toI16
    omega

/-- What an execution reads of a list of parents whose length is kept in a `short`. -/
def readBack (l : List Nat) : List Nat := l.take (toI16 l.length).toNat

/-- The schedule as an execution sees it. Only the counts are treated here: that the lists are placed in their buffer by
sums of the counts (LevelSchedule.cpp:1603-1623, 1679-1704) can only make matters worse. -/
def asStored (S : Schedule) : Schedule := { S with parF := fun b => readBack (S.parF b), parB := fun b => readBack (S.parB b) }

theorem toI16_small {n : Nat} (h : n ≤ 32767) : toI16 n = n := by unfold toI16; omega

theorem toI16_large {n : Nat} (h : 32768 ≤ n) (h' : n ≤ 65535) : toI16 n = (n : Int) - 65536 := by unfold toI16; omega

theorem readBack_small {l : List Nat} (h : l.length ≤ 32767) : readBack l = l := by
  unfold readBack
  rw [toI16_small h, Int.toNat_natCast, List.take_length]

theorem readBack_large {l : List Nat} (h : 32768 ≤ l.length) (h' : l.length ≤ 65535) : readBack l = [] := by
  unfold readBack
  rw [toI16_large h h', show ((l.length : Int) - 65536).toNat = 0 from by omega, List.take_zero]

theorem mem_readBack {l : List Nat} {x : Nat} (h : x ∈ readBack l) : x ∈ l := by
  unfold readBack at h
  exact List.mem_of_mem_take h

attribute [irreducible] toI16 readBack

end SpMP
