import Verif.Spec.Basic
/-
Specification of level schedules (class LevelSchedule, /repo/LevelSchedule.hpp:176-260) as its users see it.
-/

namespace SpMP.Spec

/-- The public data of a schedule: `T` threads, `ntasks` tasks, `m` rows; thread `t` owns tasks
`threadB t .. threadB (t+1) - 1`; task `k` owns the positions `taskB k .. taskB (k+1) - 1`; the row at position `p` is
`perm p` (threadContToOrigPerm); forward and backward parents of each task. -/
structure Schedule where
  T : Nat
  ntasks : Nat
  m : Nat
  threadB : Nat → Nat
  taskB : Nat → Nat
  perm : Nat → Nat
  parF : Nat → List Nat
  parB : Nat → List Nat

namespace Schedule

/-- Threads tile the tasks, tasks tile the positions, and positions are a permutation of the rows. -/
structure Tiling (S : Schedule) : Prop where
  threadB_zero : S.threadB 0 = 0
  threadB_mono : ∀ t, t < S.T → S.threadB t ≤ S.threadB (t + 1)
  threadB_last : S.threadB S.T = S.ntasks
  taskB_zero : S.taskB 0 = 0
  taskB_mono : ∀ k, k < S.ntasks → S.taskB k ≤ S.taskB (k + 1)
  taskB_last : S.taskB S.ntasks = S.m
  perm : IsPermFn S.m S.perm

/-- Position `p` lies in task `k`. -/
def PosIn (S : Schedule) (k p : Nat) : Prop := k < S.ntasks ∧ S.taskB k ≤ p ∧ p < S.taskB (k + 1)

/-- Row `i` is executed by task `k`. -/
def RowIn (S : Schedule) (k i : Nat) : Prop := ∃ p, S.PosIn k p ∧ S.perm p = i

/-- Tasks `a`, `b` belong to the same thread. -/
def SameThread (S : Schedule) (a b : Nat) : Prop :=
  ∃ t, t < S.T ∧ S.threadB t ≤ a ∧ a < S.threadB (t + 1) ∧ S.threadB t ≤ b ∧ b < S.threadB (t + 1)

/-- In a forward run, task `a` is finished before task `b` starts: `a` is a forward parent of `b`, or an earlier
task of the same thread, or this follows through a chain. -/
inductive Fwd (S : Schedule) : Nat → Nat → Prop
  | parent {a b} : b < S.ntasks → a ∈ S.parF b → Fwd S a b
  | thread {a b} : S.SameThread a b → a < b → Fwd S a b
  | trans {a b c} : Fwd S a b → Fwd S b c → Fwd S a c

/-- In a backward run, task `a` is finished before task `b` starts. -/
inductive Bwd (S : Schedule) : Nat → Nat → Prop
  | parent {a b} : b < S.ntasks → a ∈ S.parB b → Bwd S a b
  | thread {a b} : S.SameThread a b → b < a → Bwd S a b
  | trans {a b c} : Bwd S a b → Bwd S b c → Bwd S a c

/-- There is a task level that increases along the tasks of a thread and along forward parent edges and decreases
along backward parent edges; parents are tasks. -/
structure Levelled (S : Schedule) (lvl : Nat → Nat) : Prop where
  thread : ∀ a b, S.SameThread a b → a < b → lvl a < lvl b
  parF : ∀ b p, b < S.ntasks → p ∈ S.parF b → p < S.ntasks ∧ lvl p < lvl b
  parB : ∀ b p, b < S.ntasks → p ∈ S.parB b → p < S.ntasks ∧ lvl b < lvl p

/-- Every dependency between rows (`nbr r q`: processing row `r` uses the value of row `q`) is respected by the
forward order of tasks: the smaller row's task comes first. -/
def CoversFwd (S : Schedule) (nbr : Nat → Nat → Prop) : Prop :=
  ∀ q r a b, q < r → r < S.m → (nbr r q ∨ nbr q r) → S.RowIn a q → S.RowIn b r → S.Fwd a b

/-- ... and by the backward order: the larger row's task comes first. -/
def CoversBwd (S : Schedule) (nbr : Nat → Nat → Prop) : Prop :=
  ∀ q r a b, q < r → r < S.m → (nbr r q ∨ nbr q r) → S.RowIn a q → S.RowIn b r → S.Bwd b a

/-- A schedule for execution with barriers: every thread has `L` tasks (one per level), and dependent rows are in
different levels, the smaller row in the earlier one. -/
structure Barriered (S : Schedule) (L : Nat) (nbr : Nat → Nat → Prop) : Prop where
  threadB : ∀ t, t ≤ S.T → S.threadB t = t * L
  level : ∀ q r a b, q < r → r < S.m → (nbr r q ∨ nbr q r) → S.RowIn a q → S.RowIn b r → a % L < b % L

end Schedule

end SpMP.Spec
