import Verif.ReduceBarrier
import Verif.SynkInit

/-
The load imbalance statistics: `LoadImba::wait`, `reset`, `print`, `printLoadImbalance` (synk/loadimba.cpp:166-263).
Cycle counts are `uint64_t`, modelled by natural numbers below 2^64.
-/

namespace SpMP

/-- 2^64. -/
def two64 : Nat := 18446744073709551616

/-- Difference of two `uint64_t`. -/
def sub64 (a b : Nat) : Nat := (a + two64 - b) % two64

/-- The statistics of one thread (loadimba.hpp:43-45), indexed by the number of the barrier. -/
structure LimStat where
  min : Nat → Nat
  max : Nat → Nat
  tot : Nat → Nat
  cnt : Nat → Nat
  bar : Nat → Nat

/-- Initial values (loadimba.cpp:148-154, 188-192). -/
def limStat0 : LimStat := ⟨fun _ => two64 - 1, fun _ => 0, fun _ => 0, fun _ => 0, fun _ => 0⟩

/-- `LoadImba::wait` after the reducing barrier has returned `clast` (loadimba.cpp:172-180); `cstart` and `cout` are the
values read from the cycle counter before and after. -/
def limWait (barNum cstart clast cout : Nat) (l : LimStat) : LimStat :=
  let cycles := sub64 clast cstart
  { min := upd1 l.min barNum (Nat.min (l.min barNum) cycles)
    max := upd1 l.max barNum (Nat.max (l.max barNum) cycles)
    tot := upd1 l.tot barNum ((l.tot barNum + cycles) % two64)
    cnt := upd1 l.cnt barNum ((l.cnt barNum + 1) % two64)
    bar := upd1 l.bar barNum ((l.bar barNum + sub64 cout clast) % two64) }

/-- The statistics of a thread after `N` calls: call `e` uses barrier `num e`, reads `start e`, gets `last e` from the
reducing barrier, and reads `out e`. -/
def limAfter (num start last out : Nat → Nat) : Nat → LimStat
  | 0 => limStat0
  | e + 1 => limWait (num e) (start e) (last e) (out e) (limAfter num start last out e)

/-- The numerator `tot - bar` of what `printLoadImbalance` prints, for threads with statistics `l`, and `U` barriers
(loadimba.cpp:249-267). -/
def limTotal (l : Nat → LimStat) (f : LimStat → Nat → Nat) (T U : Nat) : Nat :=
  ((List.range U).foldl (fun a j => (List.range T).foldl (fun a i => (a + f (l i) j) % two64) a) 0)

/-- See `limTotal`. -/
def limPrinted (l : Nat → LimStat) (T U : Nat) : Nat := sub64 (limTotal l LimStat.tot T U) (limTotal l LimStat.bar T U)

/-- The statistics of a thread that calls `N` times from statistics `s`: see `limAfter`. -/
def limFrom (s : LimStat) (num start last out : Nat → Nat) : Nat → LimStat
  | 0 => s
  | e + 1 => limWait (num e) (start e) (last e) (out e) (limFrom s num start last out e)

/-- The inner loop of `reset` for one barrier, its body (loadimba.cpp:189-193). -/
def limResetAt (j : Nat) (s : LimStat) : LimStat :=
  { min := upd1 s.min j (two64 - 1), max := upd1 s.max j 0, tot := upd1 s.tot j 0, cnt := upd1 s.cnt j 0,
    bar := upd1 s.bar j 0 }

/-- `LoadImba::reset` on a team of `T` threads with `U` barriers (loadimba.cpp:185-196). -/
def limReset (T U : Nat) (l : Nat → LimStat) : Nat → LimStat :=
  (List.range U).foldl (fun l j => (List.range T).foldl (fun l i => upd1 l i (limResetAt j (l i))) l) l

/-- The numbers of a line `"%d, %d, %lu, %lu, %lu, %lu, %lu, %lu, %lu\n"` in their order (loadimba.cpp:211-217, 238-240);
`who` is a thread in the details and the number of threads in the summary. -/
structure LimRow where
  barrier : Nat
  who : Nat
  min : Nat
  max : Nat
  tot : Nat
  bar : Nat
  cnt : Nat
  avg : Nat
  barAvg : Nat
  deriving DecidableEq

/-- A line of the output of `print`: a fixed text or numbers. -/
inductive LimLine where
  | text (s : String)
  | row (r : LimRow)
  deriving DecidableEq

/-- A line of the details (loadimba.cpp:211-217). -/
def limDetail (l : Nat → LimStat) (j i : Nat) : LimRow :=
  ⟨j, i, (l i).min j, (l i).max j, (l i).tot j, (l i).bar j, (l i).cnt j,
    if (l i).cnt j = 0 then 0 else (l i).tot j / (l i).cnt j, if (l i).cnt j = 0 then 0 else (l i).bar j / (l i).cnt j⟩

/-- The loop over the threads of the summary (loadimba.cpp:230-235): `min`, `max`, `tot`, `bar`. -/
def limAcc (l : Nat → LimStat) (j T : Nat) : Nat × Nat × Nat × Nat :=
  (List.range T).foldl (fun a i => (Nat.min a.1 ((l i).min j), Nat.max a.2.1 ((l i).max j),
    (a.2.2.1 + (l i).tot j) % two64, (a.2.2.2 + (l i).bar j) % two64)) (two64 - 1, 0, 0, 0)

/-- A line of the summary (loadimba.cpp:227-240). -/
def limSummary (l : Nat → LimStat) (T j : Nat) : LimRow :=
  let cnt := (l 0).cnt j
  let a := limAcc l j T
  let tot := a.2.2.1 / T
  let bar := a.2.2.2 / T
  ⟨j, T, a.1, a.2.1, tot, bar, cnt, if cnt = 0 then 0 else tot / cnt, if cnt = 0 then 0 else bar / cnt⟩

/-- `LoadImba::print` (loadimba.cpp:201-243).  The wording of the fixed lines is shortened. -/
def limPrint (all : Bool) (l : Nat → LimStat) (T U : Nat) : List LimLine :=
  (if all then
    [.text "details"] ++ ((List.range U).flatMap fun j => (List.range T).map fun i => .row (limDetail l j i)) ++
      [.text "----"]
  else []) ++
  ([.text "summary"] ++ ((List.range U).map fun j => .row (limSummary l T j)) ++ [.text "----"])

end SpMP
