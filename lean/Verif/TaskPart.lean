import Verif.Spec.Level
import Verif.Spec.Schedule
import Mathlib.Data.List.Sort
/-
Model of the second half of findLevels_ (/repo/LevelSchedule.cpp:602-798): every level is split into one task per thread, and the tasks
are laid out thread by thread. This part is modelled with functional arrays (`Nat → Nat`) and lists, in the order of the source.

Simplifications: `int` is unbounded; costs are natural numbers (getCostOf is assumed not negative); the `omp parallel for` loops over
levels (609-682) and over threads (695-783) are executed in index order (iterations write different cells); memory pool, debugging
printf's and the deallocations are left out.
-/

namespace SpMP

/-- std::lower_bound on `b[first .. first+len)` (libstdc++: nothing happens when `len ≤ 0`); `fuel` ≥ `len` iterations suffice. -/
def lowerBoundGo (b : Nat → Nat) (x : Nat) : Nat → Nat → Nat → Nat
  | 0, first, _ => first
  | fuel + 1, first, len =>
    if len = 0 then first
    else
      let half := len / 2
      if b (first + half) < x then lowerBoundGo b x fuel (first + half + 1) (len - half - 1)
      else lowerBoundGo b x fuel first half

/-- `lower_bound(&b[first], &b[last], x) - &b[0]`. With `first > last` libstdc++ returns `first` (the code reaches this with
`r = levelEnd + 1`, LevelSchedule.cpp:636,664). -/
def lowerBoundAt (b : Nat → Nat) (first last x : Nat) : Nat := lowerBoundGo b x (last - first) first (last - first)

/-- LevelSchedule.cpp:623-628: `b[i]`, the cost of the rows of the level that precede position `i`. -/
def levelCost (cost rev : Nat → Nat) (levelBegin i : Nat) : Nat := ((List.range' levelBegin (i - levelBegin)).map fun k => cost (rev k)).sum

/-- LevelSchedule.cpp:636-648: the new `r`. -/
def cutPoint (agg : Bool) (levelEnd t r newr : Nat) : Nat :=
  if agg then
    if t = 0 then min (r + (newr - r + 7) / 8 * 8) levelEnd
    else min (r - 1 + (newr - r + 1 + 7) / 8 * 8) levelEnd
  else newr

/-- LevelSchedule.cpp:629-665, loop over threads from thread `t` on (`fuel` threads are left): the (begin, end) pairs written to taskRows,
and whether the loop was left by `break`. -/
def partLoop (agg : Bool) (b : Nat → Nat) (per levelEnd : Nat) : Nat → Nat → Nat → Nat → List (Nat × Nat) × Bool
  | 0, _, _, _ => ([], false)
  | fuel + 1, t, r, prevEnd =>
    let newr := lowerBoundAt b r levelEnd ((t + 1) * per)
    let r := cutPoint agg levelEnd t r newr
    let e := min r levelEnd
    if agg && decide (levelEnd ≤ e) then ([(prevEnd, e)], true)
    else
      let rest := partLoop agg b per levelEnd fuel (t + 1) (r + 1) e
      ((prevEnd, e) :: rest.1, rest.2)

/-- LevelSchedule.cpp:617-682: the tasks of one level, one per thread. With aggregation the `t + 1` tasks written are moved to the last
threads and the first threads get empty tasks (667-681); if the loop ended without `break` (`t = nthreads`) the copy writes before the
start of the array: undefined behaviour, `none`. -/
def levelTasks (agg : Bool) (T : Nat) (cost rev : Nat → Nat) (levelBegin levelEnd : Nat) : Option (List (Nat × Nat)) :=
  let b := levelCost cost rev levelBegin
  let nnz := levelCost cost rev levelBegin levelEnd
  let per := (nnz + T - 1) / T
  let p := partLoop agg b per levelEnd T 0 levelBegin levelBegin
  if agg then
    if p.2 then some (List.replicate (T - p.1.length) (levelBegin, levelBegin) ++ p.1) else none
  else some p.1

/-- LevelSchedule.cpp:621, `sort(&reversePerm[levelBegin], &reversePerm[levelEnd])` for every level. -/
def sortLevels (L : List (List Nat)) : List (List Nat) := L.map fun l => l.insertionSort (· ≤ ·)

/-- reversePerm as an array. -/
def revOf (L : List (List Nat)) (p : Nat) : Nat := L.flatten.getD p 0

/-- levIndices[l]. -/
def levIdx (L : List (List Nat)) (l : Nat) : Nat := (L.take l).flatten.length

/-- LevelSchedule.cpp:614-682: taskRows, level by level (`(allTasks ..)[l][t]` is `taskRows[t*nlev + l]`). -/
def allTasks (agg : Bool) (T : Nat) (cost : Nat → Nat) (L : List (List Nat)) : Option (List (List (Nat × Nat))) :=
  (List.range L.length).mapM fun l => levelTasks agg T cost (revOf (sortLevels L)) (levIdx L l) (levIdx L (l + 1))

/-- The tasks of thread `tid`, in the order of the levels: `taskRows[tid*nlev + 0 .. nlev)`. -/
def threadRow (tr : List (List (Nat × Nat))) (tid : Nat) : List (Nat × Nat) := tr.map fun lt => lt.getD tid (0, 0)

/-- LevelSchedule.cpp:703-710 and 717-724: `sum` of thread `tid`. -/
def rowSum (tr : List (List (Nat × Nat))) (tid : Nat) : Nat := ((threadRow tr tid).map fun be => be.2 - be.1).sum

/-- LevelSchedule.cpp:704-711 and 718-725: `cnt` of thread `tid`. -/
def taskCnt (useBarrier : Bool) (tr : List (List (Nat × Nat))) (tid : Nat) : Nat :=
  ((threadRow tr tid).map fun be => if useBarrier || be.2 - be.1 != 0 then 1 else 0).sum

/-- LevelSchedule.cpp:729-732: the prefix sums over the threads. -/
def overThreads (f : Nat → Nat) (tid : Nat) : Nat := ((List.range tid).map f).sum

/-- The three arrays filled by LevelSchedule.cpp:743-780. -/
structure TaskArrays where
  taskB : Nat → Nat
  o2t : Nat → Nat
  t2o : Nat → Nat

/-- `a[i] = v`. -/
def setAt (a : Nat → Nat) (i v : Nat) : Nat → Nat := fun j => if j = i then v else a j

/-- LevelSchedule.cpp:752-756 and 770-775: the rows of one task. -/
def fillRows (rev : Nat → Nat) (js : List Nat) (s : Nat × TaskArrays) : Nat × TaskArrays :=
  js.foldl (fun s j => (s.1 + 1, { s.2 with o2t := setAt s.2.o2t (rev j) s.1, t2o := setAt s.2.t2o s.1 (rev j) })) s

/-- LevelSchedule.cpp:746-757 and 763-777: the tasks of one thread; state (rowOffset, taskOffset, arrays). -/
def fillThread (useBarrier : Bool) (rev : Nat → Nat) (ts : List (Nat × Nat)) (s : Nat × Nat × TaskArrays) : Nat × Nat × TaskArrays :=
  ts.foldl (fun s be =>
    if useBarrier || decide (be.1 < be.2) then
      let r := fillRows rev (List.range' be.1 (be.2 - be.1)) (s.1, { s.2.2 with taskB := setAt s.2.2.taskB s.2.1 s.1 })
      (r.1, s.2.1 + 1, r.2)
    else s) s

/-- LevelSchedule.cpp:743-780: all threads. -/
def fillAll (useBarrier : Bool) (rev : Nat → Nat) (tr : List (List (Nat × Nat))) (T : Nat) (a : TaskArrays) : TaskArrays :=
  (List.range T).foldl (fun a tid =>
    (fillThread useBarrier rev (threadRow tr tid) (overThreads (rowSum tr) tid, overThreads (taskCnt useBarrier tr) tid, a)).2.2) a

/-- Result of the partition: the schedule (without parents) and the inverse permutation. -/
structure TaskPartition where
  sched : Spec.Schedule
  o2t : Nat → Nat

/-- LevelSchedule.cpp:602-797: from the levels `L` found before (level `l` = `levContToOrigPerm[levIndices[l] .. levIndices[l+1])`) to
threadBoundaries, taskBoundaries and the two permutations; `none` is undefined behaviour. `a0` is the content of freshly allocated arrays. -/
def taskPartition (useBarrier agg : Bool) (T m : Nat) (cost : Nat → Nat) (L : List (List Nat)) (a0 : TaskArrays) : Option TaskPartition :=
  match allTasks agg T cost L with
  | none => none
  | some tr =>
    let a := fillAll useBarrier (revOf (sortLevels L)) tr T a0
    let ntasks := overThreads (taskCnt useBarrier tr) T
    some {
      sched := {
        T := T, ntasks := ntasks, m := m
        threadB := overThreads (taskCnt useBarrier tr)
        taskB := setAt a.taskB ntasks m
        perm := a.t2o
        parF := fun _ => [], parB := fun _ => [] }
      o2t := a.o2t }

end SpMP
