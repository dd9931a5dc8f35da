import Verif.TgMain
import Verif.Checks
import Verif.Sched
import Verif.Props.TasksEx
import Verif.Props.Ilu
/-
C31 for the memory-level model of constructTaskGraph_ (TgMem.lean): the parent counts and parent lists that every interleaving of the
teams leaves in nparentsForward, parentsForward, nparentsBackward, parentsBackward.
-/

namespace SpMP.Props
open SpMP SpMP.Spec

variable {R : Type}

/-- The parent lists in memory are those of schedule `S`: counts in nparentsForward (itmp 40) and nparentsBackward (itmp 43), each list
from the element its pointer (itmp 41, 44) refers to in the buffer (itmp 42, 45). -/
def HasParents (S : Schedule) (m : Mem (CTy R)) : Prop :=
  ∀ k : Nat, k < S.ntasks →
    m (.itmp 40) (k : Int) = some ((S.parF k).length : Int) ∧ m (.itmp 43) (k : Int) = some ((S.parB k).length : Int) ∧
    (∃ s : Int, m (.itmp 41) (k : Int) = some s ∧ ∀ x p : Nat, (S.parF k)[x]? = some p → m (.itmp 42) (s + x) = some (p : Int)) ∧
    (∃ s : Int, m (.itmp 44) (k : Int) = some s ∧ ∀ x p : Nat, (S.parB k)[x]? = some p → m (.itmp 45) (s + x) = some (p : Int))

theorem HasParents.of {S : Schedule} {m : Mem (CTy R)} (h : ParentsIn S.ntasks S.parF S.parB m) : HasParents S m := by
  intro k hk
  exact ⟨h.nf k hk, h.nb k hk, h.fwd k hk, h.bwd k hk⟩

/-- C31, in memory. For every matrix with symmetric pattern and rows without repeated columns, every partition of its levels into tasks and
every team size, with or without transitive reduction: every interleaving of constructTaskGraph_ finishes without an access outside an
array, a read of an element nobody wrote or a failing assert, and leaves parent lists with which the order of every dependency is
guaranteed in forward and backward runs; the matrix and the partition are not changed. `full`: with reduction no task is empty (tasks are
empty only when useBarrier is set). -/
theorem C31_in_memory {S : Schedule} {A : Csr R} {dp ep : Nat → Nat} {L : List (List Nat)} {inv lvl : Nat → Nat} (h : Partitioned S A dp ep L inv lvl)
    (hwf : A.WF) (hnd : NoDup A) (hT : 1 ≤ S.T) {tr : Bool} (full : tr = true → ∀ k, k < S.ntasks → S.taskB k < S.taskB (k + 1))
    {sz : CArr → Int} {base : Nat} {hasExt : Bool} {m0 : Mem (CTy R)} (hm : TgIn S A dp ep base hasExt m0) :
    (taskGraph sz hasExt tr base S.T S.m S.ntasks).Ok m0 (fun _ m => ∃ S' : Schedule,
      S' = { S with parF := S'.parF, parB := S'.parB } ∧ HasParents S' m ∧ GoodSchedule S' A lvl ∧
      ∀ a i, (∀ j, 33 ≤ j → j ≤ 49 → a ≠ .itmp j) → m a i = m0 a i) := by
  have H : TgHyp S A dp ep tr := ⟨h.tasks.tiling, h.rows, h.split, h.inner, h.sym, hnd, hwf, hT, full⟩
  refine (taskGraph_ok H hm).mono ?_
  rintro _ m ⟨hr, hk⟩
  cases tr with
  | true =>
    obtain ⟨ev, pev, h1, h2, h3⟩ := hr
    exact ⟨graphReduced S A dp ep ev pev, rfl, HasParents.of h3, good_reduced h h1 h2, hk⟩
  | false =>
    obtain ⟨ev, h1, h3⟩ := hr
    exact ⟨graphPlain S A dp ep ev, rfl, HasParents.of h3, good_plain h h1, hk⟩

/-- The matrix is in memory in the format of `base`, with its diagonal pointers and (when `hasExt`) its extptr; the partition `S` is in
taskBoundaries (itmp 30), threadBoundaries (itmp 31) and threadContToOrigPerm (itmp 32). -/
def tgStart (S : Schedule) (A : Csr R) (dp ep : Nat → Nat) (base : Nat) : Mem (CTy R)
  | .itmp 30, i => if 0 ≤ i ∧ i ≤ S.ntasks then some (S.taskB i.toNat : Int) else none
  | .itmp 31, i => if 0 ≤ i ∧ i ≤ S.T then some (S.threadB i.toNat : Int) else none
  | .itmp 32, i => if 0 ≤ i ∧ i < S.m then some (S.perm i.toNat : Int) else none
  | a, i => csrMem 0 base A dp ep a i

theorem tgStart_in (S : Schedule) {A : Csr R} {dp ep : Nat → Nat} (hA : SplitRows A dp ep) (base : Nat) : TgIn S A dp ep base true (tgStart S A dp ep base) where
  mat := by
    refine ⟨⟨?_, ?_⟩, ?_, ?_, ?_, ?_⟩
    · intro i hi; simp [tgStart, csrMem, hi]
    · intro j hj; simp [tgStart, csrMem, hj]
    · intro i hi
      obtain ⟨h1, h2, h3⟩ := hA.bounds i hi
      exact ⟨⟨hi, h1, by omega⟩, hA.diag i hi, by simp [tgStart, csrMem, hi]⟩
    · intro _ i hi; simp [tgStart, csrMem, hi]
    · intro h; simp at h
    · intro i hi
      obtain ⟨h1, h2, h3⟩ := hA.bounds i hi
      exact ⟨by omega, h3⟩
  task k hk := by simp [tgStart, hk]
  thread k hk := by simp [tgStart, hk]
  perm k hk := by simp [tgStart, hk]

/-- C31, in memory, for the schedules of the library: levels, task partition with any options, then the task graph (reduction only
without barriers). The result is one of the schedules of `Built`, to which the theorems on the sweeps (C33-C36, C38) apply. -/
theorem C31_library_in_memory {A : Csr R} {dp ep : Nat → Nat} (hA : Schedulable A dp ep) (hwf : A.WF) (hnd : NoDup A) {L : List (List Nat)}
    (hL : LevelDecomp (Dep A) A.m L) {T : Nat} (hT : 1 ≤ T) {cost : Nat → Nat} (hc : ∀ i, i < A.m → 0 < cost i) {useBarrier agg tr : Bool}
    (hbt : useBarrier = true → tr = false) (a0 : TaskArrays) {sz : CArr → Int} {base : Nat} {hasExt : Bool} :
    ∃ P : TaskPartition, taskPartition useBarrier agg T A.m cost L a0 = some P ∧
      ∀ m0 : Mem (CTy R), TgIn P.sched A dp ep base hasExt m0 →
        (taskGraph sz hasExt tr base T A.m P.sched.ntasks).Ok m0 (fun _ m => ∃ S, Built S A dp ep useBarrier L ∧ S.T = T ∧ S.ntasks = P.sched.ntasks ∧
          HasParents S m ∧ ∀ a i, (∀ j, 33 ≤ j → j ≤ 49 → a ≠ .itmp j) → m a i = m0 a i) := by
  obtain ⟨P, lvl, h1, h2, h3, h4, _, h6, _⟩ := taskPartition_ok (useBarrier := useBarrier) (agg := agg) (cost := cost) a0 hT hL.rows hc
  refine ⟨P, h1, ?_⟩
  intro m0 hm
  have hfull : tr = true → ∀ c, c < P.sched.ntasks → P.sched.taskB c < P.sched.taskB (c + 1) := by
    intro ht
    refine h6 ?_
    cases hub : useBarrier with
    | false => rfl
    | true => rw [hbt hub] at ht; simp at ht
  have H : TgHyp P.sched A dp ep tr := ⟨h4.tiling, h3, hA.split, hA.inner, hA.sym, hnd, hwf, by omega, hfull⟩
  have hok := taskGraph_ok (sz := sz) H hm
  rw [h2, h3] at hok
  refine hok.mono ?_
  rintro _ m ⟨hr, hk⟩
  cases tr with
  | true =>
    obtain ⟨ev, pev, g1, g2, g3⟩ := hr
    have hub : useBarrier = false := by
      cases hu : useBarrier with
      | false => rfl
      | true => have := hbt hu; simp at this
    exact ⟨graphReduced P.sched A dp ep ev pev, ⟨hL, agg, T, cost, a0, P, hT, hc, h1, Or.inr ⟨ev, pev, hub, g1, g2, rfl⟩⟩, h2, rfl, HasParents.of g3, hk⟩
  | false =>
    obtain ⟨ev, g1, g3⟩ := hr
    exact ⟨graphPlain P.sched A dp ep ev, ⟨hL, agg, T, cost, a0, P, hT, hc, h1, Or.inl ⟨ev, g1, rfl⟩⟩, h2, rfl, HasParents.of g3, hk⟩

/-- The hypotheses are met: `vee` with two threads, one-based, with transitive reduction. -/
example : ∃ (P : TaskPartition) (m0 : Mem (CTy Int)), (taskGraph (R := Int) (fun _ => 100) true true 1 2 3 P.sched.ntasks).Ok m0 (fun _ m =>
    ∃ S, Built S vee veeDp veeEp false exLevels ∧ S.T = 2 ∧ S.ntasks = P.sched.ntasks ∧ HasParents S m ∧
      ∀ a i, (∀ j, 33 ≤ j → j ≤ 49 → a ≠ .itmp j) → m a i = m0 a i) := by
  obtain ⟨P, _, h⟩ := C31_library_in_memory (sz := fun _ => 100) (base := 1) (hasExt := true) (tr := true) (agg := false) (cost := fun _ => 1) vee_schedulable vee_wf
    (noDup_of_check vee_wf (by decide +kernel)) vee_levels (show 1 ≤ 2 by decide) (fun _ _ => Nat.one_pos) (useBarrier := false) (by simp)
    ⟨fun _ => 0, fun _ => 0, fun _ => 0⟩
  exact ⟨P, _, h _ (tgStart_in P.sched vee_schedulable.split 1)⟩

/-! ### Rows with repeated columns -/

/-- Rows {0, 1}, {0 (ten times), 1, 2}, {1, 2}: the pattern is symmetric. -/
def dupA : Csr Int :=
  ⟨3, 3, fun i => ([0, 2, 14, 16] : List Nat).getD i 16, fun j => ([0, 1, 0, 0, 0, 0, 0, 0, 0, 0, 0, 0, 1, 2, 1, 2] : List Nat).getD j 0, fun _ => 1⟩

def dupDp (i : Nat) : Nat := ([0, 12, 15] : List Nat).getD i 0
def dupEp (i : Nat) : Nat := dupA.ptr (i + 1)

/-- Three threads, one row each. -/
def dupS : Schedule where
  T := 3
  ntasks := 3
  m := 3
  threadB := fun t => t
  taskB := fun k => k
  perm := fun p => p
  parF := fun _ => []
  parB := fun _ => []

theorem dup_wf : dupA.WF := by
  refine ⟨rfl, ?_, ?_⟩
  · have : ∀ i < 3, dupA.ptr i ≤ dupA.ptr (i + 1) := by decide
    exact fun i hi => this i hi
  · have : ∀ j < 16, dupA.col j < 3 := by decide
    exact fun j hj => this j hj

theorem dup_schedulable : Schedulable dupA dupDp dupEp := by
  have hb : ∀ i < 3, dupA.ptr i ≤ dupDp i ∧ dupDp i < dupEp i ∧ dupEp i ≤ dupA.ptr (i + 1) ∧ dupEp i ≤ 16 := by decide
  have hd : ∀ i < 3, dupA.col (dupDp i) = i := by decide
  have hl : ∀ i < 3, ∀ p < 16, dupA.ptr i ≤ p → p < dupDp i → dupA.col p < i := by decide +kernel
  have hu : ∀ i < 3, ∀ p < 16, dupDp i < p → p < dupEp i → i < dupA.col p := by decide +kernel
  have hc : ∀ p < 16, dupA.col p < 3 := by decide +kernel
  refine ⟨⟨fun i hi => ⟨(hb i hi).1, (hb i hi).2.1, (hb i hi).2.2.1⟩, hd, ?_, ?_, ?_⟩, ?_, ?_⟩
  · intro i p hi h1 h2
    have := hb i hi
    exact hl i hi p (by omega) h1 h2
  · intro i p hi h1 h2
    have := hb i hi
    exact hu i hi p (by omega) h1 h2
  · intro i p hi h1 h2
    have h1 : dupA.ptr (i + 1) ≤ p := h1
    omega
  · intro i p hi h1 h2
    have := hb i hi
    exact hc p (by omega)
  · intro i j _ _ ⟨p, hp, hj⟩
    obtain ⟨q, h1, h2⟩ := patSym_of_check dup_wf (by decide +kernel) i p hp
    rw [hj] at h1
    exact ⟨q, h1, h2⟩

/-- Without the hypothesis `NoDup` C31 is false: the starts of the inverse lists count every stored entry left of the diagonal, the
buffer has room for half of the off-diagonal entries (LevelSchedule.cpp:917-926). A row that stores a column ten times pushes the list of
the next row past the end. Every other hypothesis of C31_in_memory on the matrix and the partition is met. -/
theorem C31_repeated_entries_false (tr : Bool) (Q : Unit → Mem (CTy Int) → Prop) :
    Schedulable dupA dupDp dupEp ∧ dupA.WF ∧ dupS.Tiling ∧ dupS.m = dupA.m ∧ TgIn dupS dupA dupDp dupEp 0 true (tgStart dupS dupA dupDp dupEp 0) ∧
    ¬ (taskGraph (R := Int) (fun _ => 100) true tr 0 3 3 3).Ok (tgStart dupS dupA dupDp dupEp 0) Q := by
  refine ⟨dup_schedulable, dup_wf, ?_, rfl, tgStart_in dupS dup_schedulable.split 0, ?_⟩
  · exact ⟨rfl, fun t _ => Nat.le_succ t, rfl, rfl, fun k _ => Nat.le_succ k, rfl, fun p hp => hp, fun p q _ _ h => h⟩
  · intro h
    have h1 := h.not_runUB
    have h2 : ∀ tr, (taskGraph (R := Int) (fun _ => 100) true tr 0 3 3 3).runUB (tgStart dupS dupA dupDp dupEp 0) = true := by
      intro tr; cases tr <;> decide +kernel
    rw [h2 tr] at h1
    simp at h1

end SpMP.Props
