import Verif.TaskGraph
/-
Model of the construction of the fused Gauss-Seidel + SpMV schedule (/repo/LevelSchedule.cpp:1137-1364, option fuseSpMV).
-/

namespace SpMP
open SpMP.Spec

variable {R : Type}

/-- LevelSchedule.cpp:1148-1163: record `task` as a parent of `child` unless the last recorded parent belongs to the same thread. -/
def fuseAdd (S : Schedule) (tp : Nat → List Nat) (task child : Nat) : Nat → List Nat := fun c =>
  if c = child then
    match (tp child).getLast? with
    | none => [task]
    | some p => if threadOf S task ≠ threadOf S p then tp child ++ [task] else tp child
  else tp c

/-- LevelSchedule.cpp:1144-1165: tempParents before the intra-thread parents. -/
def fuseInter (S : Schedule) (adj : Nat → List Nat) : Nat → List Nat :=
  (List.range S.ntasks).foldl (fun tp task => (adj task).foldl (fun tp child => fuseAdd S tp task child) tp) (fun _ => [])

/-- LevelSchedule.cpp:1171-1180: the smallest task of the same thread that holds a row left of the diagonal in a row of `task`, or `task`. -/
def fuseMinParent (S : Schedule) (A : Csr R) (dp : Nat → Nat) (task : Nat) : Nat :=
  (List.range' (S.taskB task) (S.taskB (task + 1) - S.taskB task)).foldl (fun acc i =>
    (List.range' (A.ptr (S.perm i)) (dp (S.perm i) - A.ptr (S.perm i))).foldl (fun acc j =>
      let p := origTask S (A.col j)
      if S.threadB (threadOf S task) ≤ p ∧ p < S.threadB (threadOf S task + 1) ∧ p < acc then p else acc) acc) task

/-- LevelSchedule.cpp:1210-1257: parents of `u`, sorted, without those before which some parent's edge is seen. -/
def fuseReduce (S : Schedule) (adj : Nat → List Nat) (tp : List Nat) : List Nat :=
  (tp.insertionSort (· ≤ ·)).filter fun v =>
    !(tp.any fun p => (adj p).any fun q => decide (S.threadB (threadOf S v) ≤ q) && decide (q ≤ v))

/-- The parent list computed for `task` (`tempParents[task]` at line 1259). -/
def fuseParents (S : Schedule) (A : Csr R) (dp : Nat → Nat) (adj : Nat → List Nat) (task : Nat) : List Nat :=
  fuseReduce S adj (fuseInter S adj task ++ [fuseMinParent S A dp task])

/-- `copy(l.begin(), l.end(), buf + o)`. -/
def copyTo (buf : Nat → Nat) (o : Nat) (l : List Nat) : Nat → Nat := fun i => if o ≤ i ∧ i < o + l.length then l.getD (i - o) 0 else buf i

/-- LevelSchedule.cpp:1269-1275: lists are copied one after the other; the start of list `task` advances by `len k` (taskInvAdjacencyLengths) for every
earlier task `k`. Result: the buffer and the offset of the next list. -/
def fuseLayout (tp : Nat → List Nat) (len : Nat → Nat) : Nat → (Nat → Nat) × Nat
  | 0 => (fun _ => 0, 0)
  | n + 1 =>
    let s := fuseLayout tp len n
    (copyTo s.1 s.2 (tp n), s.2 + len n)

/-- What a user of the fused schedule reads: `parents[task][0 .. nparents[task])`. -/
def fuseRead (tp : Nat → List Nat) (len : Nat → Nat) (ntasks task : Nat) : List Nat :=
  (List.range (tp task).length).map fun k => (fuseLayout tp len ntasks).1 ((fuseLayout tp len task).2 + k)

end SpMP
