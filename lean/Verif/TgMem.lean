import Verif.BkLocal
import Verif.Levels
import Verif.StdLib
import Verif.Permute
import Verif.TaskGraph
/-
constructTaskGraph_ (/repo/LevelSchedule.cpp:822-1763, OpenMP build, fuseSpMV off) on memory, for a team of `T` threads. Object 0 is
the matrix.
Arrays: `itmp 30` = taskBoundaries, `31` = threadBoundaries, `32` = threadContToOrigPerm, `33` = origRowIdToTaskId,
`34` = taskAdjacency.rowptr, `35` = taskAdjacency.colidx, `36` = taskInvAdjacency.rowptr, `37` = taskInvAdjacency.colidx,
`38` = taskInvAdjacencyLengths, `39` = nnzPerRow, `40` = nparentsForward, `41` = start of parentsForward[i] in parentsBuf[0] = `42`,
`43` = nparentsBackward, `44` = start of parentsBackward[i] in parentsBuf[1] = `45`, `46` = start of children[i] in childrenBuf = `47`,
`48` = numOfChildren, `49` = nparentsTemp.

Simplifications: barriers separate phases; `int` and `short` do not overflow; the per-thread sums (perThreadOrigRowPtrSum,
perThreadOrigInvRowPtrSum, perThreadRowPtrSum) and v1Boundaries, v1Boundaries2 are handed from phase to phase as results instead of
being stored; i2s and tempAdj are lists with their size checked (growing past it is a failure); an `omp for` with independent
iterations has one thread per iteration; pointers that are set to NULL first, taskFinished, timers, deallocation and the memory pool are
left out; boundaries that the code reads again in every iteration are read once where nothing writes them; the inverse list an edge
is compared with is read as a whole (1513-1538 reads the elements it needs; nothing writes them in that phase); task numbers read from
lists are turned into natural numbers for the comparison (they are never negative).
-/

namespace SpMP
open Spec

variable {R : Type}

/-- Allocations (LevelSchedule.cpp:842, 850-858, 891-896, 910, 1460-1462, 1612-1613, 1625, 1686-1687); `cR`, `cF`, `cB` are the
sizes known only later. -/
def tgSize (sz : CArr → Int) (T m n : Nat) (nnz cR cF cB : Int) : CArr → Int
  | .itmp 30 => n + 1
  | .itmp 31 => T + 1
  | .itmp 32 => m
  | .itmp 33 => m
  | .itmp 34 => n + 1
  | .itmp 35 => (nnz - m) / 2 + m
  | .itmp 36 => n + 1
  | .itmp 37 => (nnz - m) / 2 + m + n
  | .itmp 38 => n
  | .itmp 39 => n
  | .itmp 40 => n
  | .itmp 41 => n
  | .itmp 42 => cF
  | .itmp 43 => n
  | .itmp 44 => n
  | .itmp 45 => cB
  | .itmp 46 => n
  | .itmp 47 => cR
  | .itmp 48 => n
  | .itmp 49 => n
  | a => sz a

/-- LevelSchedule.cpp:842-848: one iteration. -/
def tgOrig (task : Nat) : Prog (CTy R) Unit := do
  let lo ← Prog.read (ty := CTy R) (.itmp 30) (task : Int)
  let hi ← Prog.read (ty := CTy R) (.itmp 30) ((task : Int) + 1)
  Prog.forUp (ty := CTy R) lo hi () fun row _ => do
    let r ← Prog.read (ty := CTy R) (.itmp 32) row
    Prog.write (ty := CTy R) (.itmp 33) r (task : Int)

/-- LevelSchedule.cpp:863-872, 897-900: one iteration of both loops. -/
def tgZero (i : Nat) : Prog (CTy R) Unit := do
  Prog.write (ty := CTy R) (.itmp 40) (i : Int) (0 : Int)
  Prog.write (ty := CTy R) (.itmp 43) (i : Int) (0 : Int)
  Prog.write (ty := CTy R) (.itmp 38) (i : Int) (0 : Int)

/-- LevelSchedule.cpp:936-942: `size` and `invSize` of task `v1`. -/
def tgRows (hasExt : Bool) (v1 : Int) : Prog (CTy R) (Int × Int) := do
  let lo ← Prog.read (ty := CTy R) (.itmp 30) v1
  let hi ← Prog.read (ty := CTy R) (.itmp 30) (v1 + 1)
  Prog.forUp (ty := CTy R) lo hi ((0 : Int), (0 : Int)) fun p s => do
    let i1 ← Prog.read (ty := CTy R) (.itmp 32) p
    let e ← extAt hasExt (i1 : Int)
    let d ← Prog.read (ty := CTy R) (.diagptr 0) i1
    let r ← Prog.read (ty := CTy R) (.rowptr 0) i1
    pure (s.1 + (e - (d : Int) - 1), s.2 + ((d : Int) - (r : Int) + 1))

/-- LevelSchedule.cpp:934-950. -/
def tgCount (hasExt : Bool) (T n : Nat) (tid : Nat) : Prog (CTy R) (Int × Int) :=
  Prog.forUp (ty := CTy R) (simpleBegin T tid n) (simpleEnd T tid n) ((0 : Int), (0 : Int)) fun v1 s => do
    let z ← tgRows hasExt v1
    Prog.write (ty := CTy R) (.itmp 34) v1 s.1
    Prog.write (ty := CTy R) (.itmp 36) v1 s.2
    Prog.write (ty := CTy R) (.itmp 39) v1 z.1
    pure (s.1 + z.1, s.2 + z.2)

/-- LevelSchedule.cpp:968-987 and 1388-1407: where the part of thread `tid` ends. `s` are the prefix sums searched first, `B` the
borders of the segments of taskAdjacency.rowptr, `off` what is added to the work when a segment is searched. -/
def tgCut (T n : Nat) (s B off : Nat → Int) (per : Int) (tid : Nat) : Prog (CTy R) Int :=
  if tid + 1 = T then pure (n : Int) else do
    let b ← upperBound (R := R) (fun t => pure (s t.toNat)) 0 ((T : Int) - 1) (per * ((tid : Int) + 1))
    let b := (b - 1).toNat
    let v ← upperBound (fun j => Prog.read (ty := CTy R) (.itmp 34) j) (B b) (B (b + 1)) (per * ((tid : Int) + 1) + off b)
    pure (max 0 (v - 1))

/-- The boundaries from the threads' results: v1Boundaries[0] = 0. -/
def tgBounds (r : Nat → Int) (t : Nat) : Int := if t = 0 then 0 else r (t - 1)

/-- LevelSchedule.cpp:964-987. -/
def tgShift (T m n : Nat) (nnz : Int) (sO sI : Nat → Int) (tid : Nat) : Prog (CTy R) Int := do
  Prog.forUp (ty := CTy R) (simpleBegin T tid n) (simpleEnd T tid n) () fun v1 _ => do
    let v ← Prog.read (ty := CTy R) (.itmp 36) v1
    Prog.write (ty := CTy R) (.itmp 36) v1 ((v : Int) + sI tid)
  tgCut T n sO (fun b => simpleBegin T b n) (fun b => - sO b) (((nnz - m) / 2 + T - 1) / T) tid

/-- LevelSchedule.cpp:1004-1011 (with the assertion) and 1429-1434 (without): number of entries of the thread's tasks, and the largest
task. -/
def tgSum (n : Nat) (chk : Bool) (vb ve : Int) : Prog (CTy R) (Int × Int) :=
  Prog.forUp (ty := CTy R) vb ve ((0 : Int), (0 : Int)) fun v1 s => do
    let _ ← (if chk then Prog.assert (0 ≤ v1 ∧ v1 < n) else pure () : Prog (CTy R) Unit)
    let z ← Prog.read (ty := CTy R) (.itmp 39) v1
    pure (s.1 + (z : Int), max s.2 (z : Int))

/-- The loops over the tasks of `[vb, ve)`, thread of the schedule by thread (LevelSchedule.cpp:996-1002, 1029-1035 and 1421-1427,
1479-1480); the body gets the task and the borders of its thread. -/
def tgTasks {σ : Type} (T : Nat) (vb ve : Int) (s : σ) (body : Int → Int → Int → σ → Prog (CTy R) σ) : Prog (CTy R) σ := do
  let t1 ← upperBound (fun t => Prog.read (ty := CTy R) (.itmp 31) t) 0 ((T : Int) + 1) vb
  let t2 ← upperBound (fun t => Prog.read (ty := CTy R) (.itmp 31) t) 0 ((T : Int) + 1) ve
  Prog.forUp (ty := CTy R) (t1 - 1) (min (t2 - 1) ((T : Int) - 1) + 1) s fun t s => do
    let lo ← Prog.read (ty := CTy R) (.itmp 31) t
    let hi ← Prog.read (ty := CTy R) (.itmp 31) (t + 1)
    Prog.forUp (ty := CTy R) (max lo vb) (min hi ve) s fun v s => body v lo hi s

/-- LevelSchedule.cpp:1037-1053: the tasks of other threads right of the diagonal; `cap` is the size of i2s. -/
def tgRaw (hasExt : Bool) (base : Nat) (cap bB bE v1 : Int) : Prog (CTy R) (List Int) := do
  let lo ← Prog.read (ty := CTy R) (.itmp 30) v1
  let hi ← Prog.read (ty := CTy R) (.itmp 30) (v1 + 1)
  Prog.forUp (ty := CTy R) lo hi ([] : List Int) fun p l => do
    let i1 ← Prog.read (ty := CTy R) (.itmp 32) p
    let d ← Prog.read (ty := CTy R) (.diagptr 0) i1
    let e ← extAt hasExt (i1 : Int)
    Prog.forUp (ty := CTy R) ((d : Int) + 1 - base) (e - base) l fun j l => do
      let c ← Prog.read (ty := CTy R) (.colidx 0) j
      let v ← Prog.read (ty := CTy R) (.itmp 33) ((c : Int) - base)
      if (v : Int) < bB ∨ bE ≤ (v : Int) then do
        Prog.assert ((l.length : Int) < cap)
        pure (l ++ [(v : Int)])
      else pure l

/-- LevelSchedule.cpp:1063-1095: the sorted list is written without repetitions to `adjList` (cell `at_` on) and the reverse edges are
appended; `bnd` is the bound of the assertions. Returns `l`. -/
def tgEmit (tr : Bool) (bnd at_ v1 : Int) : List Int → Int → Int → Bool → Prog (CTy R) Int
  | [], _, l, intra => do
    let _ ← (if !intra && tr then bkAppend 38 36 37 true bnd (v1 + 1) v1 else pure () : Prog (CTy R) Unit)
    pure l
  | v2 :: vs, old, l, intra =>
    if v2 = old then tgEmit tr bnd at_ v1 vs old l intra else do
      Prog.write (ty := CTy R) (.itmp 35) (at_ + l) v2
      let _ ← (if !intra && tr && decide (v1 + 1 < v2) then bkAppend 38 36 37 false bnd (v1 + 1) v1 else pure () : Prog (CTy R) Unit)
      bkAppend 38 36 37 true bnd v2 v1
      tgEmit tr bnd at_ v1 vs v2 (l + 1) (intra || (tr && decide (v1 + 1 ≤ v2)))

/-- LevelSchedule.cpp:1024-1104: one thread of the construction. `start` is perThreadOrigRowPtrSum[tid]. Returns rowPtrCnt. -/
def tgBuild (hasExt tr : Bool) (base T m n : Nat) (nnz vb ve start cap : Int) : Prog (CTy R) Int :=
  tgTasks T vb ve (0 : Int) fun v1 bB bE cnt => do
    let raw ← tgRaw hasExt base cap bB bE v1
    Prog.write (ty := CTy R) (.itmp 34) v1 (start + cnt)
    let l ← tgEmit tr ((nnz - m) / 2 + m + n) (start + cnt) v1 (raw.insertionSort (· ≤ ·)) (-1) 0 (decide (v1 = bE - 1))
    Prog.write (ty := CTy R) (.itmp 39) v1 l
    pure (cnt + l)

/-- LevelSchedule.cpp:1127-1131. -/
def tgSort (vb ve : Int) : Prog (CTy R) Unit :=
  Prog.forUp (ty := CTy R) vb ve () fun task _ => do
    let p ← Prog.read (ty := CTy R) (.itmp 36) task
    let l ← Prog.read (ty := CTy R) (.itmp 38) task
    stdSort 37 (p : Int) ((p : Int) + (l : Int))

/-- LevelSchedule.cpp:1484-1504 tempAdj for task `j` of a thread whose tasks end at `hi` (as TaskGraph.tempAdj). -/
def tgTmp (hi j : Nat) (adj : List Nat) : List Nat :=
  if j < hi - 1 then
    let idx := lbList adj (j + 1)
    if adj[idx]? = some (j + 1) then adj else adj.take idx ++ (j + 1) :: adj.drop idx
  else adj

/-- LevelSchedule.cpp:1509-1545: keep the edges that are not redundant; `cb` is the start of children[j]. Returns `idx`. -/
def tgKeep (tmp : List Nat) (cb : Int) : List Int → Int → Prog (CTy R) Int
  | [], idx => pure idx
  | i :: is, idx => do
    let p ← Prog.read (ty := CTy R) (.itmp 36) i
    let l ← Prog.read (ty := CTy R) (.itmp 38) i
    let inv ← readList 37 (p : Int) (l : Int).toNat
    if toRemove (inv.map Int.toNat) tmp then tgKeep tmp cb is idx else do
      Prog.write (ty := CTy R) (.itmp 47) (cb + idx) i
      let _ ← Prog.atomic (ty := CTy R) (.itmp 40) i (fun v => ((v : Int) + 1 : Int))
      tgKeep tmp cb is (idx + 1)

/-- LevelSchedule.cpp:1473-1552: one thread of the transitive reduction. `start` is perThreadRowPtrSum[tid], `maxL + 1` the size of
tempAdj. -/
def tgReduce (T : Nat) (vb ve start maxL : Int) : Prog (CTy R) Int :=
  tgTasks T vb ve (0 : Int) fun j _ hi cnt => do
    Prog.write (ty := CTy R) (.itmp 46) j (start + cnt)
    let p ← Prog.read (ty := CTy R) (.itmp 34) j
    let z ← Prog.read (ty := CTy R) (.itmp 39) j
    let adj ← readList 35 (p : Int) (z : Int).toNat
    let tmp := tgTmp hi.toNat j.toNat (adj.map Int.toNat)
    Prog.assert ((tmp.length : Int) ≤ maxL + 1)
    let idx ← tgKeep tmp (start + cnt) adj 0
    Prog.write (ty := CTy R) (.itmp 48) j idx
    pure (cnt + idx)

/-- LevelSchedule.cpp:1604-1625: the master thread. Returns the sizes of the two parent buffers. -/
def tgStarts (n : Nat) : Prog (CTy R) (Int × Int) := do
  let c ← Prog.forUp (ty := CTy R) 0 (n : Int) ((0 : Int), (0 : Int)) fun i s => do
    let f ← Prog.read (ty := CTy R) (.itmp 40) i
    let b ← Prog.read (ty := CTy R) (.itmp 48) i
    Prog.write (ty := CTy R) (.itmp 43) i (b : Int)
    pure (s.1 + (f : Int), s.2 + (b : Int))
  let _ ← Prog.forUp (ty := CTy R) 0 (n : Int) ((0 : Int), (0 : Int)) fun i s => do
    Prog.write (ty := CTy R) (.itmp 41) i s.1
    let f ← Prog.read (ty := CTy R) (.itmp 40) i
    Prog.write (ty := CTy R) (.itmp 44) i s.2
    let b ← Prog.read (ty := CTy R) (.itmp 43) i
    pure (s.1 + (f : Int), s.2 + (b : Int))
  pure c

/-- LevelSchedule.cpp:1639-1646: one iteration. -/
def tgParents (i : Nat) : Prog (CTy R) Unit := do
  let z ← Prog.read (ty := CTy R) (.itmp 48) (i : Int)
  let c ← Prog.read (ty := CTy R) (.itmp 46) (i : Int)
  let b ← Prog.read (ty := CTy R) (.itmp 44) (i : Int)
  Prog.forUp (ty := CTy R) 0 (z : Int) () fun j _ => do
    let child ← Prog.read (ty := CTy R) (.itmp 47) ((c : Int) + j)
    bkAppend 49 41 42 false 0 (child : Int) (i : Int)
    Prog.write (ty := CTy R) (.itmp 45) ((b : Int) + j) child

/-- LevelSchedule.cpp:1676-1684: without reduction, the lengths. -/
def tgPlainLen (n : Nat) : Prog (CTy R) (Int × Int) :=
  Prog.forUp (ty := CTy R) 0 (n : Int) ((0 : Int), (0 : Int)) fun i s => do
    let f ← Prog.read (ty := CTy R) (.itmp 38) i
    Prog.write (ty := CTy R) (.itmp 40) i (f : Int)
    let b ← Prog.read (ty := CTy R) (.itmp 39) i
    Prog.write (ty := CTy R) (.itmp 43) i (b : Int)
    pure (s.1 + (f : Int), s.2 + (b : Int))

/-- LevelSchedule.cpp:1693-1707: without reduction, the lists are copied. -/
def tgPlainCopy (n : Nat) : Prog (CTy R) (Int × Int) :=
  Prog.forUp (ty := CTy R) 0 (n : Int) ((0 : Int), (0 : Int)) fun i s => do
    Prog.write (ty := CTy R) (.itmp 41) i s.1
    let f ← Prog.read (ty := CTy R) (.itmp 40) i
    Prog.write (ty := CTy R) (.itmp 44) i s.2
    let b ← Prog.read (ty := CTy R) (.itmp 43) i
    let q ← Prog.read (ty := CTy R) (.itmp 36) i
    copySeg (.itmp 42) (.itmp 37) (fun v => v) s.1 (q : Int) (f : Int)
    let p ← Prog.read (ty := CTy R) (.itmp 34) i
    copySeg (.itmp 45) (.itmp 35) (fun v => v) s.2 (p : Int) (b : Int)
    pure (s.1 + (f : Int), s.2 + (b : Int))

/-- LevelSchedule.cpp:1672-1713. -/
def tgPlain (sz : Int → Int → Int → CArr → Int) (n : Nat) : Script (CTy R) Unit :=
  .seq (sz 0 0 0) (tgPlainLen n) fun c =>
  .seq (sz 0 c.1 c.2) (tgPlainCopy n) fun _ => .done ()

/-- LevelSchedule.cpp:1450-1670. `vB2` is v1Boundaries2; `q t` is the number of entries and the largest task of thread `t`. -/
def tgReduced (sz : Int → Int → Int → CArr → Int) (T n : Nat) (vB2 : Nat → Int) (q : Nat → Int × Int) : Script (CTy R) Unit :=
  let sR := psum (onTeam T fun t => (q t).1)
  .phase (sz (sR T) 0 0) n (fun i => Prog.write (ty := CTy R) (.itmp 48) (i : Int) (0 : Int)) fun _ =>
  .phase (sz (sR T) 0 0) T (fun tid => tgReduce T (vB2 tid) (vB2 (tid + 1)) (sR tid) (q tid).2) fun _ =>
  .seq (sz (sR T) 0 0) (tgStarts n) fun c =>
  .phase (sz (sR T) c.1 c.2) n (fun i => Prog.write (ty := CTy R) (.itmp 49) (i : Int) (0 : Int)) fun _ =>
  .phase (sz (sR T) c.1 c.2) n tgParents fun _ => .done ()

/-- LevelSchedule.cpp:822-1763 for `n` tasks. -/
def taskGraph (sz : CArr → Int) (hasExt tr : Bool) (base T m n : Nat) : Script (CTy R) Unit :=
  .seq sz (Prog.read (ty := CTy R) (.rowptr 0) (m : Int)) fun e =>
  let nnz : Int := (e : Int) - base
  let z := tgSize sz T m n nnz
  .phase (z 0 0 0) n tgOrig fun _ =>
  .phase (z 0 0 0) n tgZero fun _ =>
  .phase (z 0 0 0) T (tgCount hasExt T n) fun c =>
  let sO := psum (onTeam T fun t => (c t).1)
  let sI := psum (onTeam T fun t => (c t).2)
  .phase (z 0 0 0) T (tgShift T m n nnz sO sI) fun b =>
  let vB := tgBounds b
  .phase (z 0 0 0) T (fun tid => tgSum n true (vB tid) (vB (tid + 1))) fun q =>
  let sO := psum (onTeam T fun t => (q t).1)
  .phase (z 0 0 0) T (fun tid => tgBuild hasExt tr base T m n nnz (vB tid) (vB (tid + 1)) (sO tid) (q tid).2) fun l =>
  let sR := psum (onTeam T l)
  .seq (z 0 0 0) (Prog.write (ty := CTy R) (.itmp 34) (n : Int) (sO T)) fun _ =>
  .phase (z 0 0 0) T (fun tid => tgSort (vB tid) (vB (tid + 1))) fun _ =>
  .phase (z 0 0 0) T (tgCut T n sR vB (fun b => sO b - sR b) ((sR T + T - 1) / T)) fun b2 =>
  let vB2 := tgBounds b2
  .phase (z 0 0 0) T (fun tid => tgSum n false (vB2 tid) (vB2 (tid + 1))) fun q2 =>
  if tr then tgReduced z T n vB2 q2 else tgPlain z n

end SpMP
