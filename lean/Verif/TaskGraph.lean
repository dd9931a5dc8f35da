import Verif.TaskPart
import Verif.Spec.Level
/-
Model of constructTaskGraph_ (/repo/LevelSchedule.cpp:800-1763) without fusion: task adjacency, inverse adjacency, transitive reduction,
forward and backward parents.

Functional model on lists. Simplifications:
* every task is processed once, in any order: the load-balancing partition of the tasks over the threads (928-1011, 1388-1434) is left out;
* `__sync_fetch_and_add` on a list length followed by a store at the index obtained (1079-1080, 1085-1094, 1642-1643) appends to the list; the
  order in which the appends of different threads happen is a parameter (`ev`, `pev`: any permutation of the appends);
* buffers have the room counted at 933-962 (modelled as lists); `short` parent counts are unbounded; memory pool and timers left out.
-/

namespace SpMP
open SpMP.Spec

variable {R : Type}

/-- LevelSchedule.cpp:842-848: origRowIdToTaskId. -/
def origTask (S : Schedule) : Nat → Nat :=
  (List.range S.ntasks).foldl (fun a task =>
    (List.range' (S.taskB task) (S.taskB (task + 1) - S.taskB task)).foldl (fun a row => setAt a (S.perm row) task) a) (fun _ => 0)

/-- The thread `t1` in whose range `[threadBoundaries[t1], threadBoundaries[t1+1])` the task lies (loop headers 1029-1030, 1479-1480). -/
def threadOf (S : Schedule) (v : Nat) : Nat :=
  ((List.range S.T).find? fun t => decide (S.threadB t ≤ v) && decide (v < S.threadB (t + 1))).getD 0

/-- LevelSchedule.cpp:1037-1053: `i2s[0..size)`, the tasks of the columns right of the diagonal (up to extptr) that belong to other threads. -/
def adjRaw (S : Schedule) (A : Csr R) (dp ep : Nat → Nat) (v1 : Nat) : List Nat :=
  (List.range' (S.taskB v1) (S.taskB (v1 + 1) - S.taskB v1)).flatMap fun i1Perm =>
    let i1 := S.perm i1Perm
    ((List.range' (dp i1 + 1) (ep i1 - (dp i1 + 1))).map fun j => origTask S (A.col j)).filter fun v =>
      decide (v < S.threadB (threadOf S v1)) || decide (S.threadB (threadOf S v1 + 1) ≤ v)

/-- LevelSchedule.cpp:1063, 1070-1072: skip repetitions in the sorted list (`oldV2`). -/
def skipRep : Option Nat → List Nat → List Nat
  | _, [] => []
  | old, v2 :: vs => if old = some v2 then skipRep old vs else v2 :: skipRep (some v2) vs

/-- LevelSchedule.cpp:1058-1075: the adjacency list of task `v1`. -/
def taskAdj (S : Schedule) (A : Csr R) (dp ep : Nat → Nat) (v1 : Nat) : List Nat :=
  skipRep none ((adjRaw S A dp ep v1).insertionSort (· ≤ ·))

/-- LevelSchedule.cpp:1068-1095: the appends (target list, task) to the inverse adjacency made while task `v1` is processed; `intra` is
`intraAdded`, `tr` is `transitiveReduction`. -/
def invEvents (tr : Bool) (v1 : Nat) : Bool → List Nat → List (Nat × Nat)
  | intra, [] => if !intra && tr then [(v1 + 1, v1)] else []
  | intra, v2 :: vs =>
    (if !intra && tr && decide (v1 + 1 ≤ v2) then if v1 + 1 < v2 then [(v1 + 1, v1)] else [] else []) ++
      (v2, v1) :: invEvents tr v1 (intra || (tr && decide (v1 + 1 ≤ v2))) vs

/-- All appends to the inverse adjacency. -/
def allInvEvents (S : Schedule) (A : Csr R) (dp ep : Nat → Nat) (tr : Bool) : List (Nat × Nat) :=
  (List.range S.ntasks).flatMap fun v1 => invEvents tr v1 (decide (v1 = S.threadB (threadOf S v1 + 1) - 1)) (taskAdj S A dp ep v1)

/-- The list `i` after the appends `ev`. -/
def appended (ev : List (Nat × Nat)) (i : Nat) : List Nat := (ev.filter fun e => decide (e.1 = i)).map Prod.snd

/-- LevelSchedule.cpp:1127-1131: the inverse adjacency lists are sorted. -/
def taskInv (ev : List (Nat × Nat)) (i : Nat) : List Nat := (appended ev i).insertionSort (· ≤ ·)

/-- lower_bound on a list. -/
def lbList (l : List Nat) (x : Nat) : Nat := lowerBoundAt (fun k => l.getD k 0) 0 l.length x

/-- LevelSchedule.cpp:1484-1504: `tempAdj`, the adjacency list plus the thread's next task. -/
def tempAdj (S : Schedule) (t j : Nat) (adj : List Nat) : List Nat :=
  if j < S.threadB (t + 1) - 1 then
    let idx := lbList adj (j + 1)
    if adj[idx]? = some (j + 1) then adj else adj.take idx ++ (j + 1) :: adj.drop idx
  else adj

/-- LevelSchedule.cpp:1530-1538: the merge loop; do the sorted lists meet? -/
def meets : Nat → List Nat → List Nat → Bool
  | 0, _, _ => false
  | _ + 1, [], _ => false
  | _ + 1, _, [] => false
  | fuel + 1, x :: xs, y :: ys => if x = y then true else if x < y then meets fuel xs (y :: ys) else meets fuel (x :: xs) ys

/-- LevelSchedule.cpp:1520-1525: `l = lower_bound(l, lEnd, *other)` unless `other` is at its end. -/
def skipTo (l : List Nat) : List Nat → List Nat
  | [] => l
  | y :: _ => l.drop (lbList l y)

/-- LevelSchedule.cpp:1513-1538: `toRemove` for the edge to `i`: `inv` is the inverse adjacency list of `i`, `tmp` is tempAdj. -/
def toRemove (inv tmp : List Nat) : Bool :=
  let l1 := skipTo inv tmp
  let l2 := skipTo tmp l1
  meets (l1.length + l2.length) l1 l2

/-- LevelSchedule.cpp:1509-1545: the children kept for task `j` of thread `t`. -/
def keptChildren (S : Schedule) (inv : Nat → List Nat) (j : Nat) (adj : List Nat) : List Nat :=
  adj.filter fun i => !toRemove (inv i) (tempAdj S (threadOf S j) j adj)

/-- The appends to parentsForward (LevelSchedule.cpp:1639-1646). -/
def parentEvents (n : Nat) (children : Nat → List Nat) : List (Nat × Nat) :=
  (List.range n).flatMap fun i => (children i).map fun child => (child, i)

/-- Parents with transitive reduction (LevelSchedule.cpp:1450-1670); `ev`, `pev` are the appends to the inverse adjacency and to
parentsForward in the order in which they happened. -/
def reducedChildren (S : Schedule) (A : Csr R) (dp ep : Nat → Nat) (ev : List (Nat × Nat)) (j : Nat) : List Nat :=
  keptChildren S (taskInv ev) j (taskAdj S A dp ep j)

/-- The schedule with reduced parents. -/
def graphReduced (S : Schedule) (A : Csr R) (dp ep : Nat → Nat) (ev pev : List (Nat × Nat)) : Schedule :=
  { S with parF := appended pev, parB := reducedChildren S A dp ep ev }

/-- The schedule without transitive reduction (LevelSchedule.cpp:1672-1713). -/
def graphPlain (S : Schedule) (A : Csr R) (dp ep : Nat → Nat) (ev : List (Nat × Nat)) : Schedule :=
  { S with parF := taskInv ev, parB := taskAdj S A dp ep }

end SpMP
