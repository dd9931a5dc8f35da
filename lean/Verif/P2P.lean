import Verif.Prog
import Verif.Team
import Mathlib.Data.List.Basic
import Mathlib.Data.List.Nodup
import Mathlib.Data.List.Pairwise
/-
Point-to-point scheduled execution: the macros SPMP_LEVEL_SCHEDULE_WAIT / SPMP_LEVEL_SCHEDULE_NOTIFY
(/repo/LevelSchedule.hpp:54-59, 109-111) and the loops that use them (/repo/test/trsv_test.cpp:191-283,
289-437, /repo/test/gs_test.cpp:189-281, /repo/test/pcg.cpp:172-235). Memory accesses of the rows, flag reads and
flag writes of all threads are interleaved arbitrarily (sequentially consistent memory).
-/

set_option linter.unusedSectionVars false

namespace SpMP

/-- Effect-free facts about `wp`. -/
theorem wp_exists {A : Type} [DecidableEq A] {ty : A → Type} {α : Type} {sz : A → Int} {W R : A → Int → Prop}
    {p : Prog ty α} {m : Mem ty} {Q : α → Mem ty → Prop} (h : wp sz W R p m Q) :
    ∃ r m', Q r m' ∧ ∀ a i, ¬ W a i → m' a i = m a i := by
  induction p generalizing m with
  | ret a => exact ⟨a, m, wp_ret.1 h, fun _ _ _ => rfl⟩
  | rd a i k ih =>
    unfold wp at h; obtain ⟨_, v, _, h3⟩ := h; exact ih v h3
  | wr a i v k ih =>
    unfold wp at h; obtain ⟨hw, _, _, h4⟩ := h
    obtain ⟨r, m', hq, hf⟩ := ih h4
    refine ⟨r, m', hq, ?_⟩
    intro b j hb
    rw [hf b j hb]
    rcases Mem.set_cases m a i v b j with ⟨rfl, rfl⟩ | h
    · exact absurd hw hb
    · exact h
  | rmw a i f k ih =>
    unfold wp at h; obtain ⟨hw, _, _, _, v, _, h6⟩ := h
    obtain ⟨r, m', hq, hf⟩ := ih v h6
    refine ⟨r, m', hq, ?_⟩
    intro b j hb
    rw [hf b j hb]
    rcases Mem.set_cases m a i (f v) b j with ⟨rfl, rfl⟩ | h
    · exact absurd hw hb
    · exact h
  | fail => exact (wp_fail.1 h).elim

/-- A schedule object together with the row kernel, as the execution loops see it. -/
structure P2P {A : Type} (ty : A → Type) where
  /-- tasks of thread `t` in the order it executes them: `threadBoundaries[t] .. threadBoundaries[t+1]-1`
  (forward) or the reverse (backward) -/
  tasksOf : Nat → List Nat
  /-- rows of a task in execution order: `perm[i]` for `i` in `taskBoundaries[task] .. taskBoundaries[task+1]-1`
  (forward) or the reverse (backward) -/
  rowsOf : Nat → List Nat
  /-- `parents[task][0 .. nparents[task]-1]` -/
  parents : Nat → List Nat
  /-- the code executed for a row -/
  body : Nat → Prog ty Unit
  /-- the array `taskFinished` -/
  fa : A
  /-- the value NOTIFY stores -/
  one : ty fa
  /-- the test of the spin loop, `taskFinished[c[i]] != 0` -/
  isSet : ty fa → Bool

/-- Control state of a thread in the task loop. -/
inductive PState {A : Type} (ty : A → Type) where
  /-- about to take the next task -/
  | next (rest : List Nat)
  /-- in WAIT, `ps` = parents still to be checked -/
  | wait (task : Nat) (ps : List Nat) (rest : List Nat)
  /-- between rows of `task`, `rs` = rows still to be executed -/
  | rows (task : Nat) (rs : List Nat) (rest : List Nat)
  /-- inside row `r`, `p` = the rest of its code -/
  | row (task r : Nat) (p : Prog ty Unit) (rs rest : List Nat)

section
variable {A : Type} [DecidableEq A] {ty : A → Type}

/-- One step of a thread (LevelSchedule.hpp:54-59 WAIT, row code, 109-111 NOTIFY). -/
inductive P2PStep (sz : A → Int) (S : P2P ty) : PState ty → Mem ty → PState ty → Mem ty → Prop
  | next {task rest m} : P2PStep sz S (.next (task :: rest)) m (.wait task (S.parents task) rest) m
  | wait {task p ps rest m v} : m S.fa (p : Int) = some v → S.isSet v = true →
      P2PStep sz S (.wait task (p :: ps) rest) m (.wait task ps rest) m
  | enter {task rest m} : P2PStep sz S (.wait task [] rest) m (.rows task (S.rowsOf task) rest) m
  | start {task r rs rest m} : P2PStep sz S (.rows task (r :: rs) rest) m (.row task r (S.body r) rs rest) m
  | exec {task r p p' rs rest m m'} : Step sz p m p' m' →
      P2PStep sz S (.row task r p rs rest) m (.row task r p' rs rest) m'
  | stop {task r u rs rest m} : P2PStep sz S (.row task r (.ret u) rs rest) m (.rows task rs rest) m
  | notify {task : Nat} {rest : List Nat} {m : Mem ty} : (task : Int) < sz S.fa →
      P2PStep sz S (.rows task [] rest) m (.next rest) (m.set S.fa task S.one)

/-- Undefined behaviour of a thread. -/
def P2PBad (sz : A → Int) (S : P2P ty) : PState ty → Mem ty → Prop
  | .next _, _ => False
  | .wait _ [] _, _ => False
  | .wait _ (p :: _) _, m => m S.fa (p : Int) = none
  | .rows task [] _, _ => ¬ (task : Int) < sz S.fa
  | .rows _ (_ :: _) _, _ => False
  | .row _ _ p _ _, m => Stuck sz p m

/-- The thread automaton of the task loop. -/
def p2pMachine (sz : A → Int) (S : P2P ty) : Machine (PState ty) (Mem ty) where
  step := P2PStep sz S
  bad := P2PBad sz S
  final := fun l => l = .next []

/-- The row code of the threads has no data race: two threads inside rows are never about to make conflicting accesses to one cell, and
row code stays away from the flags, which only WAIT reads and NOTIFY writes (they are `volatile` and synchronise the threads). -/
def P2P.NoRace (S : P2P ty) (n : Nat) (ls : Nat → PState ty) : Prop :=
  (∀ t task r p rs rest i c, t < n → ls t = .row task r p rs rest → p.next ≠ some (S.fa, i, c)) ∧
  ∀ t u task r p rs rest task' r' q rs' rest', t < n → u < n → t ≠ u → ls t = .row task r p rs rest →
    ls u = .row task' r' q rs' rest' → ∀ a i, ¬ Race p q a i

/-- Every execution of the task loops is free of undefined behaviour, of deadlock and of data races, ends, and ends in a memory
satisfying `Post`. -/
def P2POk (sz : A → Int) (S : P2P ty) (n : Nat) (Post : Mem ty → Prop) (m : Mem ty) : Prop :=
  TeamOk (p2pMachine sz S) n (fun _ m' => Post m') (fun t => .next (S.tasksOf t)) m ∧
  ∀ ls g, TeamReach (p2pMachine sz S) n (fun t => .next (S.tasksOf t)) m ls g → S.NoRace n ls

theorem P2POk.mono {sz : A → Int} {S : P2P ty} {n : Nat} {P Q : Mem ty → Prop} {m : Mem ty} (h : P2POk sz S n P m)
    (hPQ : ∀ m', P m' → Q m') : P2POk sz S n Q m :=
  ⟨TeamOk.mono h.1 fun _ m' => hPQ m', h.2⟩

/-- Task `a` must finish before task `b` starts: parent edges and the order of a thread's tasks, transitively. -/
inductive TaskBefore (n : Nat) (tasksOf : Nat → List Nat) (parents : Nat → List Nat) : Nat → Nat → Prop
  | parent {t b p} : t < n → b ∈ tasksOf t → p ∈ parents b → TaskBefore n tasksOf parents p b
  | order {t a b} : t < n → [a, b].Sublist (tasksOf t) → TaskBefore n tasksOf parents a b
  | trans {a b c} : TaskBefore n tasksOf parents a b → TaskBefore n tasksOf parents b c →
      TaskBefore n tasksOf parents a c

/-- Rows that thread `t` executes, in order. -/
def P2P.rowsT (S : P2P ty) (t : Nat) : List Nat := (S.tasksOf t).flatMap S.rowsOf

/-- Row `q` is executed before row `r`: they are in ordered tasks, or in this order in one task. -/
def P2P.RowBefore (S : P2P ty) (n : Nat) (q r : Nat) : Prop :=
  (∃ t u a b, t < n ∧ u < n ∧ a ∈ S.tasksOf t ∧ b ∈ S.tasksOf u ∧ q ∈ S.rowsOf a ∧ r ∈ S.rowsOf b ∧
    TaskBefore n S.tasksOf S.parents a b) ∨
  (∃ t a, t < n ∧ a ∈ S.tasksOf t ∧ [q, r].Sublist (S.rowsOf a))

/-- A well-formed schedule for `n` threads: every task belongs to one thread, every row to one task, parents are
tasks of the schedule, and a rank (the level) increases along parent edges and along each thread. -/
structure P2P.Valid (S : P2P ty) (n : Nat) (rank : Nat → Nat) : Prop where
  tasks_nodup : ∀ t, t < n → (S.tasksOf t).Nodup
  tasks_disj : ∀ t u b, t < n → u < n → b ∈ S.tasksOf t → b ∈ S.tasksOf u → t = u
  rows_nodup : ∀ t, t < n → (S.rowsT t).Nodup
  rows_disj : ∀ t u r, t < n → u < n → r ∈ S.rowsT t → r ∈ S.rowsT u → t = u
  parents_task : ∀ t b p, t < n → b ∈ S.tasksOf t → p ∈ S.parents b → ∃ u, u < n ∧ p ∈ S.tasksOf u
  rank_parent : ∀ t b p, t < n → b ∈ S.tasksOf t → p ∈ S.parents b → rank p < rank b
  rank_order : ∀ t a b, t < n → [a, b].Sublist (S.tasksOf t) → rank a < rank b

/-- The sequential reference execution: `M k` is the memory before the row with position `k`. -/
structure P2P.SeqRun (S : P2P ty) (sz : A → Int) (n N : Nat) (pos : Nat → Nat)
    (W R : Nat → A → Int → Prop) (M : Nat → Mem ty) : Prop where
  pos_lt : ∀ t r, t < n → r ∈ S.rowsT t → pos r < N
  pos_inj : ∀ t q u r, t < n → u < n → q ∈ S.rowsT t → r ∈ S.rowsT u → pos q = pos r → q = r
  pos_surj : ∀ k, k < N → ∃ t r, t < n ∧ r ∈ S.rowsT t ∧ pos r = k
  run : ∀ t r, t < n → r ∈ S.rowsT t →
    wp sz (W r) (R r) (S.body r) (M (pos r)) (fun _ m' => m' = M (pos r + 1))
  flags : ∀ r i, ¬ W r S.fa i ∧ ¬ R r S.fa i
  /-- conflicting rows are executed in sequential order -/
  ordered : ∀ t q u r a i, t < n → u < n → q ∈ S.rowsT t → r ∈ S.rowsT u → pos q < pos r →
    (W q a i ∧ (R r a i ∨ W r a i) ∨ W r a i ∧ (R q a i ∨ W q a i)) → S.RowBefore n q r

/-! ### Invariant -/

/-- Tasks not yet notified. -/
def PState.remT : PState ty → List Nat
  | .next rest => rest
  | .wait task _ rest => task :: rest
  | .rows task _ rest => task :: rest
  | .row task _ _ _ rest => task :: rest

/-- Rows not yet finished. -/
def PState.rem (S : P2P ty) : PState ty → List Nat
  | .next rest => rest.flatMap S.rowsOf
  | .wait task _ rest => S.rowsOf task ++ rest.flatMap S.rowsOf
  | .rows _ rs rest => rs ++ rest.flatMap S.rowsOf
  | .row _ r _ rs rest => r :: rs ++ rest.flatMap S.rowsOf

/-- Rows not yet started. -/
def PState.uns (S : P2P ty) : PState ty → List Nat
  | .next rest => rest.flatMap S.rowsOf
  | .wait task _ rest => S.rowsOf task ++ rest.flatMap S.rowsOf
  | .rows _ rs rest => rs ++ rest.flatMap S.rowsOf
  | .row _ _ _ rs rest => rs ++ rest.flatMap S.rowsOf

/-- Task `b` has been notified. -/
def Notified (S : P2P ty) (n : Nat) (ls : Nat → PState ty) (b : Nat) : Prop :=
  ∃ t, t < n ∧ b ∈ S.tasksOf t ∧ b ∉ (ls t).remT

/-- Control-flow shape of the state of thread `t`. -/
def Shape (S : P2P ty) (n : Nat) (ls : Nat → PState ty) (t : Nat) : Prop :=
  (∃ dn, S.tasksOf t = dn ++ (ls t).remT ∧ ∀ b ∈ dn, ∀ p ∈ S.parents b, Notified S n ls p) ∧
  match ls t with
  | .next _ => True
  | .wait task ps _ => ∃ pre, S.parents task = pre ++ ps ∧ ∀ p ∈ pre, Notified S n ls p
  | .rows task rs _ => (∃ dr, S.rowsOf task = dr ++ rs) ∧ ∀ p ∈ S.parents task, Notified S n ls p
  | .row task r _ rs _ => (∃ dr, S.rowsOf task = dr ++ r :: rs) ∧ ∀ p ∈ S.parents task, Notified S n ls p

structure PInv (S : P2P ty) (sz : A → Int) (n N : Nat) (pos : Nat → Nat)
    (W R : Nat → A → Int → Prop) (M : Nat → Mem ty) (ls : Nat → PState ty) (m : Mem ty) : Prop where
  shape : ∀ t, t < n → Shape S n ls t
  flags : ∀ t b, t < n → b ∈ S.tasksOf t →
    ∃ v, m S.fa (b : Int) = some v ∧ (S.isSet v = true ↔ b ∉ (ls t).remT)
  cells : ∀ a i k, a ≠ S.fa → k ≤ N →
    (∀ t r, t < n → r ∈ S.rowsT t → W r a i → pos r < k → r ∉ (ls t).rem S) →
    (∀ t r, t < n → r ∈ S.rowsT t → W r a i → k ≤ pos r → r ∈ (ls t).uns S) →
    m a i = M k a i
  running : ∀ t task r p rs rest, t < n → ls t = .row task r p rs rest →
    ∃ mem, wp sz (W r) (R r) p mem (fun _ m' => m' = M (pos r + 1)) ∧
      ∀ a i, (R r a i ∨ W r a i) → m a i = mem a i

section
variable {S : P2P ty} {sz : A → Int} {n N : Nat} {pos : Nat → Nat} {rank : Nat → Nat}
  {W R : Nat → A → Int → Prop} {M : Nat → Mem ty} {ls : Nat → PState ty} {m : Mem ty}

theorem PState.uns_sub_rem (l : PState ty) : ∀ r, r ∈ l.uns S → r ∈ l.rem S := by
  intro r h
  cases l <;> simp only [PState.uns, PState.rem] at h ⊢
  all_goals first | exact h | (simp only [List.mem_append, List.mem_cons] at h ⊢; tauto)

theorem Notified.not_rem (hv : S.Valid n rank) {b t : Nat} (ht : t < n) (hb : b ∈ S.tasksOf t)
    (h : Notified S n ls b) : b ∉ (ls t).remT := by
  obtain ⟨u, hu, hbu, hn⟩ := h
  have := hv.tasks_disj t u b ht hu hb hbu
  subst this; exact hn

/-- Rows of a task are rows of its thread. -/
theorem mem_rowsT {t b r : Nat} (hb : b ∈ S.tasksOf t) (hr : r ∈ S.rowsOf b) : r ∈ S.rowsT t :=
  List.mem_flatMap.2 ⟨b, hb, hr⟩

/-- A row determines its task. -/
theorem task_unique (hv : S.Valid n rank) {t b c r : Nat} (ht : t < n) (hb : b ∈ S.tasksOf t)
    (hc : c ∈ S.tasksOf t) (hrb : r ∈ S.rowsOf b) (hrc : r ∈ S.rowsOf c) : b = c := by
  by_contra hne
  have h := hv.rows_nodup t ht
  unfold P2P.rowsT at h
  rw [List.nodup_flatMap] at h
  have h2 := h.2
  have : ∀ x ∈ S.tasksOf t, ∀ y ∈ S.tasksOf t, x ≠ y → List.Disjoint (S.rowsOf x) (S.rowsOf y) := by
    intro x hx y hy hxy
    have : Std.Symm (fun x y => List.Disjoint (S.rowsOf x) (S.rowsOf y)) := ⟨fun _ _ h _ h1 h2 => h h2 h1⟩
    exact List.Pairwise.forall (R := fun x y => List.Disjoint (S.rowsOf x) (S.rowsOf y)) h2 hx hy hxy
  exact this b hb c hc hne hrb hrc

/-- Remaining rows lie in remaining tasks. -/
theorem rem_sub {t : Nat} (hs : Shape S n ls t) {r : Nat} (h : r ∈ (ls t).rem S) :
    ∃ b ∈ (ls t).remT, r ∈ S.rowsOf b := by
  have h2 := hs.2
  revert h h2
  cases ls t with
  | next rest =>
    intro h _; simp only [PState.rem, List.mem_flatMap] at h
    exact h
  | wait task ps rest =>
    intro h _; simp only [PState.rem, List.mem_append, List.mem_flatMap] at h
    rcases h with h | ⟨b, hb, h⟩
    · exact ⟨task, by simp [PState.remT], h⟩
    · exact ⟨b, by simp [PState.remT, hb], h⟩
  | rows task rs rest =>
    intro h h2
    obtain ⟨⟨dr, hdr⟩, _⟩ := h2
    simp only [PState.rem, List.mem_append, List.mem_flatMap] at h
    rcases h with h | ⟨b, hb, h⟩
    · exact ⟨task, by simp [PState.remT], by rw [hdr]; simp [h]⟩
    · exact ⟨b, by simp [PState.remT, hb], h⟩
  | row task r' p rs rest =>
    intro h h2
    obtain ⟨⟨dr, hdr⟩, _⟩ := h2
    simp only [PState.rem, List.cons_append, List.mem_cons, List.mem_append, List.mem_flatMap] at h
    rcases h with h | h | ⟨b, hb, h⟩
    · exact ⟨task, by simp [PState.remT], by rw [hdr]; simp [h]⟩
    · exact ⟨task, by simp [PState.remT], by rw [hdr]; simp [h]⟩
    · exact ⟨b, by simp [PState.remT, hb], h⟩

theorem remT_sub {t : Nat} (hs : Shape S n ls t) : ∀ b, b ∈ (ls t).remT → b ∈ S.tasksOf t := by
  obtain ⟨⟨dn, hdn, _⟩, _⟩ := hs
  intro b hb; rw [hdn]; simp [hb]

/-- The parents of a task with a started row, or of a notified task, are notified. -/
theorem parents_of_started {t b r : Nat} (hs : Shape S n ls t) (hb : b ∈ S.tasksOf t)
    (hr : r ∈ S.rowsOf b) (hst : r ∉ (ls t).uns S) : ∀ p ∈ S.parents b, Notified S n ls p := by
  obtain ⟨⟨dn, hdn, hpar⟩, h2⟩ := hs
  rw [hdn] at hb
  rcases List.mem_append.1 hb with hb | hb
  · exact hpar b hb
  · revert hb hst h2
    cases ls t with
    | next rest =>
      intro hst _ hb
      exact absurd (List.mem_flatMap.2 ⟨b, hb, hr⟩) hst
    | wait task ps rest =>
      intro hst _ hb
      simp only [PState.remT, List.mem_cons] at hb
      simp only [PState.uns, List.mem_append, List.mem_flatMap, not_or] at hst
      rcases hb with rfl | hb
      · exact absurd hr hst.1
      · exact absurd ⟨b, hb, hr⟩ hst.2
    | rows task rs rest =>
      intro hst h2 hb
      simp only [PState.remT, List.mem_cons] at hb
      simp only [PState.uns, List.mem_append, List.mem_flatMap, not_or] at hst
      rcases hb with rfl | hb
      · exact h2.2
      · exact absurd ⟨b, hb, hr⟩ hst.2
    | row task r' p rs rest =>
      intro hst h2 hb
      simp only [PState.remT, List.mem_cons] at hb
      simp only [PState.uns, List.mem_append, List.mem_flatMap, not_or] at hst
      rcases hb with rfl | hb
      · exact h2.2
      · exact absurd ⟨b, hb, hr⟩ hst.2

theorem parents_of_notified (hshape : ∀ t, t < n → Shape S n ls t) {b : Nat}
    (hb : Notified S n ls b) : ∀ p ∈ S.parents b, Notified S n ls p := by
  obtain ⟨t, ht, hbt, hn⟩ := hb
  obtain ⟨⟨dn, hdn, hpar⟩, _⟩ := hshape t ht
  rw [hdn] at hbt
  rcases List.mem_append.1 hbt with h | h
  · exact hpar b h
  · exact absurd h hn

/-- `remT` is a suffix, so earlier tasks of a task that is not in the tail are notified. -/
theorem earlier_notified (hv : S.Valid n rank) {t a b : Nat} (ht : t < n) (hs : Shape S n ls t)
    (hab : [a, b].Sublist (S.tasksOf t)) (hb : b ∉ (ls t).remT.tail) : Notified S n ls a := by
  obtain ⟨⟨dn, hdn, _⟩, _⟩ := hs
  have hnd := hv.tasks_nodup t ht
  refine ⟨t, ht, hab.subset (by simp), ?_⟩
  intro ha
  rw [hdn] at hab hnd
  -- a occurs in remT, not in dn; b after a, hence in the tail
  have had : a ∉ dn := by
    intro h; exact (List.nodup_append.1 hnd).2.2 a h a ha rfl
  have hsub : [a, b].Sublist (ls t).remT := by
    rcases List.sublist_append_iff.1 hab with ⟨l1, l2, he, h1, h2⟩
    cases l1 with
    | nil => simp only [List.nil_append] at he; rw [he]; exact h2
    | cons x l1 =>
      simp only [List.cons_append, List.cons.injEq] at he
      exact absurd (h1.subset (by rw [← he.1]; simp)) had
  apply hb
  cases hrem : (ls t).remT with
  | nil => rw [hrem] at hsub; cases hsub
  | cons x l =>
    rw [hrem] at hsub
    cases hsub with
    | cons _ h => exact h.subset (by simp)
    | cons_cons _ h => exact h.subset (by simp)

/-- If `a` precedes `b` and `b` is notified, so is `a`. -/
theorem notified_of_before (hv : S.Valid n rank) (hshape : ∀ t, t < n → Shape S n ls t) {a b : Nat}
    (h : TaskBefore n S.tasksOf S.parents a b) (hb : Notified S n ls b) : Notified S n ls a := by
  induction h with
  | parent ht hbt hp => exact parents_of_notified hshape hb _ hp
  | @order t a b ht hab =>
    refine earlier_notified hv ht (hshape t ht) hab ?_
    intro hmem
    exact Notified.not_rem hv ht (hab.subset (by simp)) hb (List.mem_of_mem_tail hmem)
  | trans _ _ ih1 ih2 => exact ih1 (ih2 hb)

/-- If `a` precedes `b` and a row of `b` has started, `a` is notified. -/
theorem notified_of_started (hv : S.Valid n rank) (hshape : ∀ t, t < n → Shape S n ls t) {a b t r : Nat}
    (h : TaskBefore n S.tasksOf S.parents a b) (ht : t < n) (hb : b ∈ S.tasksOf t) (hr : r ∈ S.rowsOf b)
    (hst : r ∉ (ls t).uns S) : Notified S n ls a := by
  induction h with
  | parent ht' hbt hp => exact parents_of_started (hshape t ht) hb hr hst _ hp
  | @order t' a b ht' hab =>
    have : t' = t := hv.tasks_disj t' t b ht' ht (hab.subset (by simp)) hb
    subst this
    refine earlier_notified hv ht (hshape t' ht) hab ?_
    intro hmem
    apply hst
    -- b in the tail of remT: its rows are not started
    revert hmem
    cases ls t' with
    | next rest =>
      intro h; exact List.mem_flatMap.2 ⟨b, List.mem_of_mem_tail h, hr⟩
    | wait task ps rest =>
      intro h
      exact List.mem_append.2 (Or.inr (List.mem_flatMap.2 ⟨b, h, hr⟩))
    | rows task rs rest =>
      intro h
      exact List.mem_append.2 (Or.inr (List.mem_flatMap.2 ⟨b, h, hr⟩))
    | row task r' p rs rest =>
      intro h
      exact List.mem_append.2 (Or.inr (List.mem_flatMap.2 ⟨b, h, hr⟩))
  | trans h1 _ _ ih2 => exact notified_of_before hv hshape h1 (ih2 hb hr)

/-- Rows of a notified task are finished. -/
theorem finished_of_notified (hv : S.Valid n rank) (hshape : ∀ t, t < n → Shape S n ls t) {a t q : Nat}
    (ht : t < n) (ha : a ∈ S.tasksOf t) (hq : q ∈ S.rowsOf a) (hn : Notified S n ls a) :
    q ∉ (ls t).rem S := by
  intro hrem
  obtain ⟨b, hb, hqb⟩ := rem_sub (hshape t ht) hrem
  have := task_unique hv ht ha (remT_sub (hshape t ht) b hb) hq hqb
  subst this
  exact Notified.not_rem hv ht ha hn hb

/-- If `q` is executed before `r` and `r` has started, `q` has finished. -/
theorem finished_of_rowBefore (hv : S.Valid n rank) (hshape : ∀ t, t < n → Shape S n ls t)
    {q r t u : Nat} (ht : t < n) (hu : u < n) (hq : q ∈ S.rowsT t) (hr : r ∈ S.rowsT u)
    (h : S.RowBefore n q r) (hst : r ∉ (ls u).uns S) : q ∉ (ls t).rem S := by
  rcases h with ⟨t', u', a, b, ht', hu', ha, hb, hqa, hrb, hab⟩ | ⟨t', a, ht', ha, hsub⟩
  · have e1 : t' = t := hv.rows_disj t' t q ht' ht (mem_rowsT ha hqa) hq
    have e2 : u' = u := hv.rows_disj u' u r hu' hu (mem_rowsT hb hrb) hr
    subst e1 e2
    exact finished_of_notified hv hshape ht ha hqa
      (notified_of_started hv hshape hab hu hb hrb hst)
  · have hqa : q ∈ S.rowsOf a := hsub.subset (by simp)
    have hra : r ∈ S.rowsOf a := hsub.subset (by simp)
    have e1 : t' = t := hv.rows_disj t' t q ht' ht (mem_rowsT ha hqa) hq
    have e2 : t' = u := hv.rows_disj t' u r ht' hu (mem_rowsT ha hra) hr
    subst e1 e2
    intro hrem
    obtain ⟨b, hb, hqb⟩ := rem_sub (hshape t' ht) hrem
    have := task_unique hv ht ha (remT_sub (hshape t' ht) b hb) hqa hqb
    subst this
    have hnd : (S.rowsOf a).Nodup := by
      have h := hv.rows_nodup t' ht
      unfold P2P.rowsT at h
      rw [List.nodup_flatMap] at h
      exact h.1 a ha
    -- the tail of tasks after `a` does not contain a row of `a`
    have htail : ∀ c, c ∈ S.tasksOf t' → q ∈ S.rowsOf c → c = a :=
      fun c hc hqc => task_unique hv ht hc ha hqc hqa
    have hs := hshape t' ht
    have hsplit : ∀ dr rs : List Nat, S.rowsOf a = dr ++ rs → q ∈ rs → r ∈ rs := by
      intro dr rs he hqrs
      rw [he] at hsub hnd
      have hqd : q ∉ dr := fun h => (List.nodup_append.1 hnd).2.2 q h q hqrs rfl
      rcases List.sublist_append_iff.1 hsub with ⟨l1, l2, he, h1, h2⟩
      cases l1 with
      | nil => simp only [List.nil_append] at he; exact h2.subset (by rw [← he]; simp)
      | cons x l1 =>
        simp only [List.cons_append, List.cons.injEq] at he
        exact absurd (h1.subset (by rw [← he.1]; simp)) hqd
    have hnd2 : (S.tasksOf t').Nodup := hv.tasks_nodup t' ht
    obtain ⟨⟨dn, hdn, _⟩, h2⟩ := hs
    have hmemT : ∀ c, c ∈ (ls t').remT → c ∈ S.tasksOf t' := by intro c hc; rw [hdn]; simp [hc]
    revert hrem hst h2 hb hmemT
    cases ls t' with
    | next rest =>
      intro hst hrem hb _ _
      exact hst (List.mem_flatMap.2 ⟨a, hb, hra⟩)
    | wait task ps rest =>
      intro hst hrem hb _ _
      simp only [PState.remT, List.mem_cons] at hb
      simp only [PState.uns, List.mem_append, List.mem_flatMap, not_or] at hst
      rcases hb with rfl | hb
      · exact hst.1 hra
      · exact hst.2 ⟨a, hb, hra⟩
    | rows task rs rest =>
      intro hst hrem hb h2 hmemT
      simp only [PState.uns, List.mem_append, List.mem_flatMap, not_or] at hst
      simp only [PState.rem, List.mem_append, List.mem_flatMap] at hrem
      rcases hrem with hrs | ⟨c, hc, hqc⟩
      · obtain ⟨⟨dr, hdr⟩, _⟩ := h2
        have : task = a := htail task (hmemT _ (by simp [PState.remT])) (by rw [hdr]; simp [hrs])
        subst this
        exact hst.1 (hsplit dr rs hdr hrs)
      · have : c = a := htail c (hmemT _ (by simp [PState.remT, hc])) hqc
        subst this
        exact hst.2 ⟨c, hc, hra⟩
    | row task r' p rs rest =>
      intro hst hrem hb h2 hmemT
      simp only [PState.uns, List.mem_append, List.mem_flatMap, not_or] at hst
      simp only [PState.rem, List.cons_append, List.mem_cons, List.mem_append, List.mem_flatMap] at hrem
      obtain ⟨⟨dr, hdr⟩, _⟩ := h2
      rcases hrem with rfl | hrs | ⟨c, hc, hqc⟩
      · have : task = a := htail task (hmemT _ (by simp [PState.remT])) (by rw [hdr]; simp)
        subst this
        have h1 := hsplit dr (q :: rs) hdr (by simp)
        rcases List.mem_cons.1 h1 with h1 | h1
        · subst h1
          have := hsub.nodup hnd
          simp at this
        · exact hst.1 h1
      · have : task = a := htail task (hmemT _ (by simp [PState.remT])) (by rw [hdr]; simp [hrs])
        subst this
        have h1 := hsplit (dr ++ [r']) rs (by rw [hdr]; simp) hrs
        exact hst.1 h1
      · have : c = a := htail c (hmemT _ (by simp [PState.remT, hc])) hqc
        subst this
        exact hst.2 ⟨c, hc, hra⟩

/-! ### Preservation -/

/-- `M` does not change a cell over positions whose rows do not write it. -/
theorem SeqRun.const (hq : S.SeqRun sz n N pos W R M) {a : A} {i : Int} {k k' : Nat} (hk : k ≤ k') (hN : k' ≤ N)
    (h : ∀ t r, t < n → r ∈ S.rowsT t → k ≤ pos r → pos r < k' → ¬ W r a i) : M k' a i = M k a i := by
  induction k' with
  | zero => have : k = 0 := by omega
            subst this; rfl
  | succ j ih =>
    by_cases he : k = j + 1
    · subst he; rfl
    · obtain ⟨t, r, ht, hr, hp⟩ := hq.pos_surj j (by omega)
      obtain ⟨_, m', hm, hf⟩ := wp_exists (hq.run t r ht hr)
      rw [hp] at hm hf
      subst hm
      rw [hf a i (h t r ht hr (by omega) (by omega))]
      exact ih (by omega) (by omega) (fun t r ht hr h1 h2 => h t r ht hr h1 (by omega))

theorem Notified.mono {ls' : Nat → PState ty} {b : Nat} (h : Notified S n ls b)
    (hsub : ∀ t, t < n → ∀ b, b ∈ (ls' t).remT → b ∈ (ls t).remT) : Notified S n ls' b := by
  obtain ⟨t, ht, hb, hn⟩ := h
  exact ⟨t, ht, hb, fun h => hn (hsub t ht b h)⟩

/-- Shapes of the other threads survive a step of thread `t`. -/
theorem Shape.other {t u : Nat} {l' : PState ty} (hut : u ≠ t)
    (hsub : ∀ b, b ∈ l'.remT → b ∈ (ls t).remT) (h : Shape S n ls u) : Shape S n (updT ls t l') u := by
  have hmono : ∀ b, Notified S n ls b → Notified S n (updT ls t l') b := by
    intro b hb
    refine hb.mono ?_
    intro v _ c hc
    by_cases hv : v = t
    · subst hv; rw [updT_same] at hc; exact hsub c hc
    · rw [updT_other _ _ hv] at hc; exact hc
  obtain ⟨⟨dn, h1, h2⟩, h3⟩ := h
  have e : updT ls t l' u = ls u := updT_other _ _ hut
  refine ⟨⟨dn, by rw [e]; exact h1, fun b hb p hp => hmono p (h2 b hb p hp)⟩, ?_⟩
  rw [e]
  revert h3
  cases ls u with
  | next rest => intro _; trivial
  | wait task ps rest => rintro ⟨pre, h4, h5⟩; exact ⟨pre, h4, fun p hp => hmono p (h5 p hp)⟩
  | rows task rs rest => rintro ⟨h4, h5⟩; exact ⟨h4, fun p hp => hmono p (h5 p hp)⟩
  | row task r p rs rest => rintro ⟨h4, h5⟩; exact ⟨h4, fun p hp => hmono p (h5 p hp)⟩

/-- A step of thread `t` that changes neither memory nor the sets of remaining tasks, remaining rows and
unstarted rows, and does not enter a row, keeps the invariant if the new shape is right. -/
theorem PInv.quiet {t : Nat} {l' : PState ty} (h : PInv S sz n N pos W R M ls m)
    (h1 : l'.remT = (ls t).remT) (h2 : l'.rem S = (ls t).rem S) (h3 : l'.uns S = (ls t).uns S)
    (hnr : ∀ task r p rs rest, l' ≠ .row task r p rs rest)
    (hs : t < n → Shape S n (updT ls t l') t) : PInv S sz n N pos W R M (updT ls t l') m := by
  have g1 : ∀ u, (updT ls t l' u).remT = (ls u).remT := by
    intro u; by_cases hu : u = t
    · subst hu; rw [updT_same, h1]
    · rw [updT_other _ _ hu]
  have g2 : ∀ u, (updT ls t l' u).rem S = (ls u).rem S := by
    intro u; by_cases hu : u = t
    · subst hu; rw [updT_same, h2]
    · rw [updT_other _ _ hu]
  have g3 : ∀ u, (updT ls t l' u).uns S = (ls u).uns S := by
    intro u; by_cases hu : u = t
    · subst hu; rw [updT_same, h3]
    · rw [updT_other _ _ hu]
  refine ⟨?_, ?_, ?_, ?_⟩
  · intro u hu
    by_cases hut : u = t
    · subst hut; exact hs hu
    · exact (h.shape u hu).other hut (by rw [h1]; exact fun _ h => h)
  · intro u b hu hb; rw [g1]; exact h.flags u b hu hb
  · intro a i k ha hk c1 c2
    refine h.cells a i k ha hk ?_ ?_
    · intro u r hu hr hw hp; rw [← g2]; exact c1 u r hu hr hw hp
    · intro u r hu hr hw hp; rw [← g3]; exact c2 u r hu hr hw hp
  · intro u task r p rs rest hu he
    by_cases hut : u = t
    · subst hut; rw [updT_same] at he; exact absurd he (hnr _ _ _ _ _)
    · rw [updT_other _ _ hut] at he; exact h.running u task r p rs rest hu he

theorem notified_upd_eq {t : Nat} {l' : PState ty} (h1 : l'.remT = (ls t).remT) (b : Nat)
    (h : Notified S n ls b) : Notified S n (updT ls t l') b := by
  refine h.mono ?_
  intro u _ c hc
  by_cases hu : u = t
  · subst hu; rw [updT_same, h1] at hc; exact hc
  · rw [updT_other _ _ hu] at hc; exact hc

/-- Rows of thread `t` that are in its current task. -/
theorem cur_row_mem {t task r : Nat} {p : Prog ty Unit} {rs rest : List Nat} (hs : Shape S n ls t)
    (he : ls t = .row task r p rs rest) : r ∈ S.rowsT t := by
  have h := rem_sub (r := r) hs (by rw [he]; simp [PState.rem])
  obtain ⟨b, hb, hr⟩ := h
  exact mem_rowsT (remT_sub hs b hb) hr

/-- In a thread, unfinished rows are distinct. -/
theorem rem_nodup (hv : S.Valid n rank) {t : Nat} (ht : t < n) (hs : Shape S n ls t) : ((ls t).rem S).Nodup := by
  have h := hv.rows_nodup t ht
  obtain ⟨⟨dn, h1, _⟩, h3⟩ := hs
  unfold P2P.rowsT at h
  rw [h1, List.flatMap_append] at h
  have h' := (List.nodup_append.1 h).2.1
  revert h' h3
  cases ls t with
  | next rest => intro _ h'; exact h'
  | wait task ps rest => intro _ h'; simpa [PState.remT, PState.rem] using h'
  | rows task rs rest =>
    rintro ⟨⟨dr, hdr⟩, _⟩ h'
    simp only [PState.remT, List.flatMap_cons, hdr, List.append_assoc] at h'
    exact (List.nodup_append.1 h').2.1
  | row task r p rs rest =>
    rintro ⟨⟨dr, hdr⟩, _⟩ h'
    simp only [PState.remT, List.flatMap_cons, hdr, List.append_assoc] at h'
    exact (List.nodup_append.1 h').2.1

theorem PInv.step (hv : S.Valid n rank) (hq : S.SeqRun sz n N pos W R M)
    (h : PInv S sz n N pos W R M ls m) (hone : S.isSet S.one = true) {t : Nat} (ht : t < n)
    {l' : PState ty} {m' : Mem ty}
    (hstep : P2PStep sz S (ls t) m l' m') : PInv S sz n N pos W R M (updT ls t l') m' := by
  have hsh := h.shape t ht
  generalize hl : ls t = l at hstep
  cases hstep with
  | @next task rest _ =>
    refine h.quiet (by rw [hl]; rfl) (by rw [hl]; simp [PState.rem]) (by rw [hl]; simp [PState.uns])
      (by intros; simp) ?_
    intro _
    obtain ⟨⟨dn, h1, h2⟩, _⟩ := hsh
    rw [hl] at h1
    refine ⟨⟨dn, by rw [updT_same]; exact h1, fun b hb p hp => notified_upd_eq (by rw [hl]; rfl) p (h2 b hb p hp)⟩, ?_⟩
    rw [updT_same]
    exact ⟨[], by simp, by simp⟩
  | @wait task p ps rest _ v hv1 hv2 =>
    refine h.quiet (by rw [hl]; rfl) (by rw [hl]; simp [PState.rem]) (by rw [hl]; simp [PState.uns])
      (by intros; simp) ?_
    intro _
    obtain ⟨⟨dn, h1, h2⟩, h3⟩ := hsh
    rw [hl] at h1 h3
    obtain ⟨pre, h4, h5⟩ := h3
    refine ⟨⟨dn, by rw [updT_same]; exact h1, fun b hb p hp => notified_upd_eq (by rw [hl]; rfl) p (h2 b hb p hp)⟩, ?_⟩
    rw [updT_same]
    refine ⟨pre ++ [p], by rw [h4]; simp, ?_⟩
    intro q hqm
    rcases List.mem_append.1 hqm with hqm | hqm
    · exact notified_upd_eq (by rw [hl]; rfl) q (h5 q hqm)
    · have e : q = p := by simpa using hqm
      subst e
      have htask : task ∈ S.tasksOf t := by rw [h1]; simp [PState.remT]
      obtain ⟨u, hu, hpu⟩ := hv.parents_task t task q ht htask (by rw [h4]; simp)
      obtain ⟨w, hw1, hw2⟩ := h.flags u q hu hpu
      rw [hv1] at hw1
      injection hw1 with hw1
      subst hw1
      exact notified_upd_eq (by rw [hl]; rfl) q ⟨u, hu, hpu, hw2.1 hv2⟩
  | @enter task rest _ =>
    refine h.quiet (by rw [hl]; rfl) (by rw [hl]; simp [PState.rem]) (by rw [hl]; simp [PState.uns])
      (by intros; simp) ?_
    intro _
    obtain ⟨⟨dn, h1, h2⟩, h3⟩ := hsh
    rw [hl] at h1 h3
    obtain ⟨pre, h4, h5⟩ := h3
    refine ⟨⟨dn, by rw [updT_same]; exact h1, fun b hb p hp => notified_upd_eq (by rw [hl]; rfl) p (h2 b hb p hp)⟩, ?_⟩
    rw [updT_same]
    refine ⟨⟨[], by simp⟩, ?_⟩
    intro q hqm
    rw [h4, List.append_nil] at hqm
    exact notified_upd_eq (by rw [hl]; rfl) q (h5 q hqm)
  | @start task r rs rest _ =>
    have hlt : (PState.row task r (S.body r) rs rest).remT = (ls t).remT := by rw [hl]; rfl
    have hrem : ∀ u, (updT ls t (PState.row task r (S.body r) rs rest) u).rem S = (ls u).rem S := by
      intro u; by_cases hu : u = t
      · subst hu; rw [updT_same, hl]; simp [PState.rem]
      · rw [updT_other _ _ hu]
    have huns : ∀ u q, q ∈ (updT ls t (PState.row task r (S.body r) rs rest) u).uns S → q ∈ (ls u).uns S := by
      intro u q hqm; by_cases hu : u = t
      · subst hu; rw [updT_same] at hqm; rw [hl]
        simp only [PState.uns, List.cons_append, List.mem_cons] at hqm ⊢; exact Or.inr hqm
      · rwa [updT_other _ _ hu] at hqm
    obtain ⟨⟨dn, h1, h2⟩, h3⟩ := id hsh
    rw [hl] at h1 h3
    obtain ⟨⟨dr, hdr⟩, h5⟩ := h3
    have htask : task ∈ S.tasksOf t := by rw [h1]; simp [PState.remT]
    have hrtask : r ∈ S.rowsOf task := by rw [hdr]; simp
    have hrT : r ∈ S.rowsT t := mem_rowsT htask hrtask
    have hshape' : ∀ u, u < n → Shape S n (updT ls t (PState.row task r (S.body r) rs rest)) u := by
      intro u hu
      by_cases hut : u = t
      · subst hut
        refine ⟨⟨dn, by rw [updT_same]; exact h1, fun b hb p hp => notified_upd_eq hlt p (h2 b hb p hp)⟩, ?_⟩
        rw [updT_same]
        exact ⟨⟨dr, hdr⟩, fun p hp => notified_upd_eq hlt p (h5 p hp)⟩
      · exact (h.shape u hu).other hut (by rw [hlt]; exact fun _ h => h)
    refine ⟨hshape', ?_, ?_, ?_⟩
    · intro u b hu hb
      have : (updT ls t (PState.row task r (S.body r) rs rest) u).remT = (ls u).remT := by
        by_cases hu : u = t
        · subst hu; rw [updT_same, hlt]
        · rw [updT_other _ _ hu]
      rw [this]; exact h.flags u b hu hb
    · intro a i k ha hk c1 c2
      refine h.cells a i k ha hk ?_ ?_
      · intro u q hu hqm hw hp; rw [← hrem]; exact c1 u q hu hqm hw hp
      · intro u q hu hqm hw hp; exact huns u q (c2 u q hu hqm hw hp)
    · intro u task' r' p' rs' rest' hu he
      by_cases hut : u = t
      · subst hut
        rw [updT_same] at he
        injection he with e1 e2 e3 e4 e5
        subst e1 e2 e3 e4 e5
        refine ⟨M (pos r), hq.run u r ht hrT, ?_⟩
        intro a i hri
        have ha : a ≠ S.fa := by
          rintro rfl; have := hq.flags r i; tauto
        refine h.cells a i (pos r) ha (Nat.le_of_lt (hq.pos_lt u r ht hrT)) ?_ ?_
        · intro v q hv' hqv hw hp
          have hbef := hq.ordered v q u r a i hv' ht hqv hrT hp (Or.inl ⟨hw, hri⟩)
          have := finished_of_rowBefore hv hshape' hv' ht hqv hrT hbef (by
            rw [updT_same]
            simp only [PState.uns]
            intro hmem
            have := rem_nodup hv ht hsh
            rw [hl] at this
            simp only [PState.rem, List.cons_append, List.nodup_cons] at this
            exact this.1 hmem)
          rw [hrem] at this; exact this
        · intro v q hv' hqv hw hp
          by_cases hqr : q = r
          · subst hqr
            have : v = u := hv.rows_disj v u q hv' ht hqv hrT
            subst this; rw [hl]; simp [PState.uns]
          · by_contra hst
            have hne : pos q ≠ pos r := by
              intro hpe
              -- equal positions: both rows' runs give the same slot; use ordering through position uniqueness
              exact hqr (hq.pos_inj v q u r hv' ht hqv hrT hpe)
            have hlt' : pos r < pos q := by omega
            have hbef := hq.ordered u r v q a i ht hv' hrT hqv hlt' (Or.inr ⟨hw, hri⟩)
            have := finished_of_rowBefore hv h.shape ht hv' hrT hqv hbef hst
            rw [hl] at this
            simp [PState.rem] at this
      · rw [updT_other _ _ hut] at he
        exact h.running u task' r' p' rs' rest' hu he
  | @exec task r p p' rs rest _ _ hst =>
    have hlt : (PState.row task r p' rs rest).remT = (ls t).remT := by rw [hl]; rfl
    have hremT : ∀ u, (updT ls t (PState.row task r p' rs rest) u).remT = (ls u).remT := by
      intro u; by_cases hu : u = t
      · subst hu; rw [updT_same, hlt]
      · rw [updT_other _ _ hu]
    have hrem : ∀ u, (updT ls t (PState.row task r p' rs rest) u).rem S = (ls u).rem S := by
      intro u; by_cases hu : u = t
      · subst hu; rw [updT_same, hl]; simp [PState.rem]
      · rw [updT_other _ _ hu]
    have huns : ∀ u, (updT ls t (PState.row task r p' rs rest) u).uns S = (ls u).uns S := by
      intro u; by_cases hu : u = t
      · subst hu; rw [updT_same, hl]; simp [PState.uns]
      · rw [updT_other _ _ hu]
    have hrT := cur_row_mem hsh hl
    have hnotuns : r ∉ (ls t).uns S := by
      have := rem_nodup hv ht hsh
      rw [hl] at this ⊢
      simp only [PState.rem, List.cons_append, List.nodup_cons] at this
      exact this.1
    have hinrem : r ∈ (ls t).rem S := by rw [hl]; simp [PState.rem]
    obtain ⟨mem, hwp, hag⟩ := h.running t task r p rs rest ht hl
    have main : ∃ mem', wp sz (W r) (R r) p' mem' (fun _ m' => m' = M (pos r + 1)) ∧
        (∀ a i, (R r a i ∨ W r a i) → m' a i = mem' a i) ∧ (∀ a i, m' a i = m a i ∨ W r a i) := by
      revert hwp
      cases hst with
      | @rd a i k v _ hv' =>
        intro hwp; unfold wp at hwp
        obtain ⟨w1, v', w2, w3⟩ := hwp
        have : v' = v := by
          have := hag a i (Or.inl w1); rw [hv', w2] at this; injection this with this; exact this.symm
        subst this
        exact ⟨mem, w3, hag, fun _ _ => Or.inl rfl⟩
      | @wr a i v k _ _ _ =>
        intro hwp; unfold wp at hwp
        obtain ⟨w1, _, _, w4⟩ := hwp
        refine ⟨mem.set a i v, w4, ?_, ?_⟩
        · intro b j hb
          by_cases hba : b = a
          · subst hba; simp only [Mem.set_same]
            split
            · rfl
            · exact hag b j hb
          · rw [Mem.set_other _ _ _ _ _ hba, Mem.set_other _ _ _ _ _ hba]; exact hag b j hb
        · intro b j
          rcases Mem.set_cases m a i v b j with ⟨rfl, rfl⟩ | hh
          · exact Or.inr w1
          · exact Or.inl hh
      | @rmw a i f k v _ hv' _ _ =>
        intro hwp; unfold wp at hwp
        obtain ⟨w1, _, _, w4, v', w5, w6⟩ := hwp
        have : v' = v := by
          have := hag a i (Or.inl w4); rw [hv', w5] at this; injection this with this; exact this.symm
        subst this
        refine ⟨mem.set a i (f v'), w6, ?_, ?_⟩
        · intro b j hb
          by_cases hba : b = a
          · subst hba; simp only [Mem.set_same]
            split
            · rfl
            · exact hag b j hb
          · rw [Mem.set_other _ _ _ _ _ hba, Mem.set_other _ _ _ _ _ hba]; exact hag b j hb
        · intro b j
          rcases Mem.set_cases m a i (f v') b j with ⟨rfl, rfl⟩ | hh
          · exact Or.inr w1
          · exact Or.inl hh
    obtain ⟨mem', hwp', hag', hch⟩ := main
    refine ⟨?_, ?_, ?_, ?_⟩
    · intro u hu
      by_cases hut : u = t
      · subst hut
        obtain ⟨⟨dn, h1, h2⟩, h3⟩ := hsh
        rw [hl] at h1 h3
        refine ⟨⟨dn, by rw [updT_same]; exact h1, fun b hb p hp => notified_upd_eq hlt p (h2 b hb p hp)⟩, ?_⟩
        rw [updT_same]
        exact ⟨h3.1, fun p hp => notified_upd_eq hlt p (h3.2 p hp)⟩
      · exact (h.shape u hu).other hut (by rw [hlt]; exact fun _ h => h)
    · intro u b hu hb
      rw [hremT]
      rcases hch S.fa b with e | e
      · rw [e]; exact h.flags u b hu hb
      · exact absurd e (hq.flags r b).1
    · intro a i k ha hk c1 c2
      rcases hch a i with e | e
      · rw [e]
        refine h.cells a i k ha hk ?_ ?_
        · intro u q hu hqm hw hp; rw [← hrem]; exact c1 u q hu hqm hw hp
        · intro u q hu hqm hw hp; rw [← huns]; exact c2 u q hu hqm hw hp
      · -- the running row writes this cell: it is neither finished nor unstarted
        by_cases hp : pos r < k
        · have := c1 t r ht hrT e hp; rw [hrem] at this; exact absurd hinrem this
        · have := c2 t r ht hrT e (by omega); rw [huns] at this; exact absurd this hnotuns
    · intro u task' r' q rs' rest' hu he
      by_cases hut : u = t
      · subst hut
        rw [updT_same] at he
        injection he with e1 e2 e3 e4 e5
        subst e1 e2 e3 e4 e5
        exact ⟨mem', hwp', hag'⟩
      · rw [updT_other _ _ hut] at he
        obtain ⟨memu, hwu, hagu⟩ := h.running u task' r' q rs' rest' hu he
        refine ⟨memu, hwu, ?_⟩
        intro a i hri
        rcases hch a i with e | e
        · rw [e]; exact hagu a i hri
        · -- two running rows would conflict
          exfalso
          have hrT' := cur_row_mem (h.shape u hu) he
          have hne : r ≠ r' := by
            rintro rfl; exact hut (hv.rows_disj u t r hu ht hrT' hrT)
          have hnu : r' ∉ (ls u).uns S := by
            have := rem_nodup hv hu (h.shape u hu)
            rw [he] at this ⊢
            simp only [PState.rem, List.cons_append, List.nodup_cons] at this
            exact this.1
          have hnr : r' ∈ (ls u).rem S := by rw [he]; simp [PState.rem]
          have hpne : pos r ≠ pos r' := fun hpe => hne (hq.pos_inj t r u r' ht hu hrT hrT' hpe)
          rcases Nat.lt_or_gt_of_ne hpne with hlt' | hlt'
          · have hb := hq.ordered t r u r' a i ht hu hrT hrT' hlt' (Or.inl ⟨e, hri⟩)
            exact finished_of_rowBefore hv h.shape ht hu hrT hrT' hb hnu hinrem
          · have hb := hq.ordered u r' t r a i hu ht hrT' hrT hlt' (Or.inr ⟨e, hri⟩)
            exact finished_of_rowBefore hv h.shape hu ht hrT' hrT hb hnotuns hnr
  | @stop task r v rs rest _ =>
    have hlt : (PState.rows (ty := ty) task rs rest).remT = (ls t).remT := by rw [hl]; rfl
    have hremT : ∀ u, (updT ls t (PState.rows task rs rest) u).remT = (ls u).remT := by
      intro u; by_cases hu : u = t
      · subst hu; rw [updT_same, hlt]
      · rw [updT_other _ _ hu]
    have huns : ∀ u, (updT ls t (PState.rows task rs rest) u).uns S = (ls u).uns S := by
      intro u; by_cases hu : u = t
      · subst hu; rw [updT_same, hl]; simp [PState.uns]
      · rw [updT_other _ _ hu]
    have hrem : ∀ u q, q ∈ (ls u).rem S → q ≠ r → q ∈ (updT ls t (PState.rows task rs rest) u).rem S := by
      intro u q hqm hne
      by_cases hu : u = t
      · subst hu; rw [updT_same]; rw [hl] at hqm
        simp only [PState.rem, List.cons_append, List.mem_cons] at hqm ⊢
        rcases hqm with hqm | hqm
        · exact absurd hqm hne
        · exact hqm
      · rwa [updT_other _ _ hu]
    have hrT := cur_row_mem hsh hl
    have hnotuns : r ∉ (ls t).uns S := by
      have := rem_nodup hv ht hsh
      rw [hl] at this ⊢
      simp only [PState.rem, List.cons_append, List.nodup_cons] at this
      exact this.1
    have hinrem : r ∈ (ls t).rem S := by rw [hl]; simp [PState.rem]
    obtain ⟨mem, hwp, hag⟩ := h.running t task r (.ret v) rs rest ht hl
    rw [wp_ret] at hwp
    subst hwp
    refine ⟨?_, ?_, ?_, ?_⟩
    · intro u hu
      by_cases hut : u = t
      · subst hut
        obtain ⟨⟨dn, h1, h2⟩, h3⟩ := hsh
        rw [hl] at h1 h3
        obtain ⟨⟨dr, hdr⟩, h5⟩ := h3
        refine ⟨⟨dn, by rw [updT_same]; exact h1, fun b hb p hp => notified_upd_eq hlt p (h2 b hb p hp)⟩, ?_⟩
        rw [updT_same]
        exact ⟨⟨dr ++ [r], by rw [hdr]; simp⟩, fun p hp => notified_upd_eq hlt p (h5 p hp)⟩
      · exact (h.shape u hu).other hut (by rw [hlt]; exact fun _ h => h)
    · intro u b hu hb; rw [hremT]; exact h.flags u b hu hb
    · intro a i k ha hk c1 c2
      by_cases hw : W r a i
      · have hpk : pos r < k := by
          by_contra hp
          have := c2 t r ht hrT hw (by omega)
          rw [huns] at this; exact hnotuns this
        rw [hag a i (Or.inr hw)]
        refine (SeqRun.const hq (k := pos r + 1) (k' := k) (by omega) hk ?_).symm
        intro u q hu hqm hp1 hp2 hwq
        have hb := hq.ordered t r u q a i ht hu hrT hqm (by omega) (Or.inl ⟨hw, Or.inr hwq⟩)
        refine finished_of_rowBefore hv h.shape ht hu hrT hqm hb ?_ hinrem
        intro hqu
        have := c1 u q hu hqm hwq hp2
        apply this
        have := PState.uns_sub_rem (S := S) (updT ls t (PState.rows task rs rest) u) q (by rw [huns]; exact hqu)
        exact this
      · refine h.cells a i k ha hk ?_ ?_
        · intro u q hu hqm hwq hp hqr
          have hne : q ≠ r := by rintro rfl; exact hw hwq
          exact c1 u q hu hqm hwq hp (hrem u q hqr hne)
        · intro u q hu hqm hwq hp; rw [← huns]; exact c2 u q hu hqm hwq hp
    · intro u task' r' p' rs' rest' hu he
      by_cases hut : u = t
      · subst hut; rw [updT_same] at he; cases he
      · rw [updT_other _ _ hut] at he
        exact h.running u task' r' p' rs' rest' hu he
  | @notify task rest _ hb =>
    have hsub : ∀ b, b ∈ (PState.next (ty := ty) rest).remT → b ∈ (ls t).remT := by
      intro b hbm; rw [hl]; simp only [PState.remT, List.mem_cons] at hbm ⊢; exact Or.inr hbm
    have hmono : ∀ b, Notified S n ls b → Notified S n (updT ls t (PState.next rest)) b := by
      intro b hb
      refine hb.mono ?_
      intro v _ c hc
      by_cases hv : v = t
      · subst hv; rw [updT_same] at hc; exact hsub c hc
      · rw [updT_other _ _ hv] at hc; exact hc
    have hrem : ∀ u, (updT ls t (PState.next rest) u).rem S = (ls u).rem S := by
      intro u; by_cases hu : u = t
      · subst hu; rw [updT_same, hl]; simp [PState.rem]
      · rw [updT_other _ _ hu]
    have huns : ∀ u, (updT ls t (PState.next rest) u).uns S = (ls u).uns S := by
      intro u; by_cases hu : u = t
      · subst hu; rw [updT_same, hl]; simp [PState.uns]
      · rw [updT_other _ _ hu]
    obtain ⟨⟨dn, h1, h2⟩, h3⟩ := id hsh
    rw [hl] at h1 h3
    simp only [PState.remT] at h1
    have htask : task ∈ S.tasksOf t := by rw [h1]; simp
    have hnd := hv.tasks_nodup t ht
    refine ⟨?_, ?_, ?_, ?_⟩
    · intro u hu
      by_cases hut : u = t
      · subst hut
        refine ⟨⟨dn ++ [task], by rw [updT_same, h1]; simp [PState.remT], ?_⟩, by rw [updT_same]; trivial⟩
        intro b hb p hp
        rcases List.mem_append.1 hb with hb | hb
        · exact hmono p (h2 b hb p hp)
        · have e : b = task := by simpa using hb
          subst e; exact hmono p (h3.2 p hp)
      · exact (h.shape u hu).other hut hsub
    · intro u b hu hbm
      by_cases hbt : b = task
      · subst hbt
        have : u = t := hv.tasks_disj u t b hu ht hbm htask
        subst this
        refine ⟨S.one, by simp [Mem.set_same], ?_⟩
        simp only [hone, true_iff]
        rw [updT_same]
        rw [h1] at hnd
        have := (List.nodup_append.1 hnd).2.1
        exact (List.nodup_cons.1 this).1
      · obtain ⟨v, hv1, hv2⟩ := h.flags u b hu hbm
        refine ⟨v, ?_, ?_⟩
        · rw [Mem.set_same]
          have : (b : Int) ≠ (task : Int) := by omega
          simp only [this, if_false]; exact hv1
        · rw [hv2]
          by_cases hut : u = t
          · subst hut; rw [updT_same, hl]
            simp only [PState.remT, List.mem_cons, not_or]
            exact ⟨fun h => h.2, fun h => ⟨hbt, h⟩⟩
          · rw [updT_other _ _ hut]
    · intro a i k ha hk c1 c2
      rw [Mem.set_other _ _ _ _ _ ha]
      refine h.cells a i k ha hk ?_ ?_
      · intro u q hu hqm hw hp; rw [← hrem]; exact c1 u q hu hqm hw hp
      · intro u q hu hqm hw hp; rw [← huns]; exact c2 u q hu hqm hw hp
    · intro u task' r' p' rs' rest' hu he
      by_cases hut : u = t
      · subst hut; rw [updT_same] at he; cases he
      · rw [updT_other _ _ hut] at he
        obtain ⟨memu, hwu, hagu⟩ := h.running u task' r' p' rs' rest' hu he
        refine ⟨memu, hwu, ?_⟩
        intro a i hri
        have ha : a ≠ S.fa := by
          rintro rfl; have := hq.flags r' i; tauto
        rw [Mem.set_other _ _ _ _ _ ha]; exact hagu a i hri

theorem p2p_acc_aux (accP : ∀ p : Prog ty Unit, Acc (fun p' p => ∃ m m', Step sz p m p' m') p) {rest : List Nat}
    (hn : Acc (fun l' l => ∃ m m', P2PStep sz S l m l' m') (.next rest)) (task : Nat) :
    (∀ rs, Acc (fun l' l => ∃ m m', P2PStep sz S l m l' m') (.rows task rs rest)) ∧
    (∀ ps, Acc (fun l' l => ∃ m m', P2PStep sz S l m l' m') (.wait task ps rest)) ∧
    ∀ r p rs, Acc (fun l' l => ∃ m m', P2PStep sz S l m l' m') (.row task r p rs rest) := by
  have hrow : ∀ rs, Acc (fun l' l => ∃ m m', P2PStep sz S l m l' m') (.rows task rs rest) →
      ∀ r p, Acc (fun l' l => ∃ m m', P2PStep sz S l m l' m') (.row task r p rs rest) := by
    intro rs hrs r p
    induction accP p with
    | intro p _ ih =>
      constructor
      rintro y ⟨m, m', h⟩
      cases h with
      | exec hst => exact ih _ ⟨m, m', hst⟩
      | stop => exact hrs
  have hrows : ∀ rs, Acc (fun l' l => ∃ m m', P2PStep sz S l m l' m') (.rows task rs rest) := by
    intro rs
    induction rs with
    | nil => constructor; rintro y ⟨m, m', h⟩; cases h; exact hn
    | cons r rs ih => constructor; rintro y ⟨m, m', h⟩; cases h; exact hrow rs ih r _
  refine ⟨hrows, ?_, fun r p rs => hrow rs (hrows rs) r p⟩
  intro ps
  induction ps with
  | nil => constructor; rintro y ⟨m, m', h⟩; cases h; exact hrows _
  | cons p ps ih => constructor; rintro y ⟨m, m', h⟩; cases h; exact ih

/-- Local control states only descend. -/
theorem p2p_acc (l : PState ty) : Acc (fun l' l => ∃ m m', P2PStep sz S l m l' m') l := by
  have accP : ∀ p : Prog ty Unit, Acc (fun p' p => ∃ m m', Step sz p m p' m') p := by
    intro p
    induction p with
    | ret a => constructor; rintro y ⟨m, m', h⟩; cases h
    | rd a i k ih => constructor; rintro y ⟨m, m', h⟩; cases h; exact ih _
    | wr a i v k ih => constructor; rintro y ⟨m, m', h⟩; cases h; exact ih
    | rmw a i f k ih => constructor; rintro y ⟨m, m', h⟩; cases h; exact ih _
    | fail => constructor; rintro y ⟨m, m', h⟩; cases h
  have hnext : ∀ rest, Acc (fun l' l => ∃ m m', P2PStep sz S l m l' m') (.next rest) ∧
      ∀ task, (∀ rs, Acc (fun l' l => ∃ m m', P2PStep sz S l m l' m') (.rows task rs rest)) ∧
        (∀ ps, Acc (fun l' l => ∃ m m', P2PStep sz S l m l' m') (.wait task ps rest)) ∧
        ∀ r p rs, Acc (fun l' l => ∃ m m', P2PStep sz S l m l' m') (.row task r p rs rest) := by
    intro rest
    induction rest with
    | nil =>
      have hn : Acc (fun l' l => ∃ m m', P2PStep sz S l m l' m') (.next []) := by
        constructor; rintro y ⟨m, m', h⟩; cases h
      exact ⟨hn, p2p_acc_aux accP hn⟩
    | cons x rest ih =>
      have hn : Acc (fun l' l => ∃ m m', P2PStep sz S l m l' m') (.next (x :: rest)) := by
        constructor; rintro y ⟨m, m', h⟩; cases h; exact (ih.2 x).2.1 _
      exact ⟨hn, p2p_acc_aux accP hn⟩
  cases l with
  | next rest => exact (hnext rest).1
  | wait task ps rest => exact ((hnext rest).2 task).2.1 ps
  | rows task rs rest => exact ((hnext rest).2 task).1 rs
  | row task r p rs rest => exact ((hnext rest).2 task).2.2 r p rs

/-- Threads that have returned have notified all their tasks. -/
theorem PInv.progress (hv : S.Valid n rank) (h : PInv S sz n N pos W R M ls m)
    (hsz : ∀ t b, t < n → b ∈ S.tasksOf t → (b : Int) < sz S.fa) :
    ∀ k t task rest, t < n → (ls t).remT = task :: rest → rank task = k →
      ∃ u l' m', u < n ∧ P2PStep sz S (ls u) m l' m' := by
  intro k
  induction k using Nat.strongRecOn with
  | _ k ih =>
    intro t task rest ht hrem hk
    have hsh := h.shape t ht
    cases hl : ls t with
    | next rs =>
      rw [hl] at hrem; simp only [PState.remT] at hrem; subst hrem
      exact ⟨t, _, m, ht, by rw [hl]; exact P2PStep.next⟩
    | rows tk rs rest' =>
      cases rs with
      | nil =>
        have hmem : tk ∈ S.tasksOf t := remT_sub hsh tk (by rw [hl]; simp [PState.remT])
        exact ⟨t, _, _, ht, by rw [hl]; exact P2PStep.notify (hsz t tk ht hmem)⟩
      | cons r rs => exact ⟨t, _, m, ht, by rw [hl]; exact P2PStep.start⟩
    | row tk r p rs rest' =>
      obtain ⟨mem, hwp, hag⟩ := h.running t tk r p rs rest' ht hl
      cases p with
      | ret v => exact ⟨t, _, m, ht, by rw [hl]; exact P2PStep.stop⟩
      | rd a i k =>
        unfold wp at hwp; obtain ⟨w1, v, w2, _⟩ := hwp
        exact ⟨t, _, m, ht, by rw [hl]; exact P2PStep.exec (Step.rd (by rw [hag a i (Or.inl w1)]; exact w2))⟩
      | wr a i v k =>
        unfold wp at hwp; obtain ⟨_, w2, w3, _⟩ := hwp
        exact ⟨t, _, _, ht, by rw [hl]; exact P2PStep.exec (Step.wr w2 w3)⟩
      | rmw a i f k =>
        unfold wp at hwp; obtain ⟨_, w2, w3, w4, v, w5, _⟩ := hwp
        exact ⟨t, _, _, ht, by
          rw [hl]; exact P2PStep.exec (Step.rmw (by rw [hag a i (Or.inl w4)]; exact w5) w2 w3)⟩
      | fail => exact (wp_fail.1 hwp).elim
    | wait tk ps rest' =>
      cases ps with
      | nil => exact ⟨t, _, m, ht, by rw [hl]; exact P2PStep.enter⟩
      | cons p ps =>
        obtain ⟨⟨dn, h1, _⟩, h3⟩ := hsh
        rw [hl] at h1 h3 hrem
        obtain ⟨pre, h4, _⟩ := h3
        simp only [PState.remT, List.cons.injEq] at hrem h1
        obtain ⟨e1, e2⟩ := hrem
        subst e1 e2
        have htask : tk ∈ S.tasksOf t := by rw [h1]; simp
        have hp : p ∈ S.parents tk := by rw [h4]; simp
        obtain ⟨u, hu, hpu⟩ := hv.parents_task t tk p ht htask hp
        obtain ⟨v, hv1, hv2⟩ := h.flags u p hu hpu
        by_cases hset : S.isSet v = true
        · exact ⟨t, _, m, ht, by rw [hl]; exact P2PStep.wait hv1 hset⟩
        · have hpr : p ∈ (ls u).remT := by
            by_contra hc; exact hset (hv2.2 hc)
          have hrank := hv.rank_parent t tk p ht htask hp
          cases hru : (ls u).remT with
          | nil => rw [hru] at hpr; cases hpr
          | cons c cs =>
            have hc : rank c ≤ rank p := by
              rw [hru] at hpr
              rcases List.mem_cons.1 hpr with rfl | hpc
              · exact Nat.le_refl _
              · obtain ⟨⟨dn', h1', _⟩, _⟩ := h.shape u hu
                refine Nat.le_of_lt (hv.rank_order u c p hu ?_)
                rw [h1', hru]
                refine List.Sublist.trans ?_ (List.sublist_append_right dn' _)
                exact List.Sublist.cons_cons _ (List.singleton_sublist.2 hpc)
            exact ih (rank c) (by omega) u c cs hu hru rfl

/-- Threads inside rows do not race: conflicting rows are ordered, so one of them has finished before the other starts. -/
theorem PInv.noRace (hv : S.Valid n rank) (hq : S.SeqRun sz n N pos W R M) (h : PInv S sz n N pos W R M ls m) : S.NoRace n ls := by
  refine ⟨?_, ?_⟩
  · intro t task r p rs rest i c ht hl he
    obtain ⟨mem, hwp, _⟩ := h.running t task r p rs rest ht hl
    rcases wp_next hwp he with ⟨_, h1⟩ | ⟨_, h1⟩
    · exact (hq.flags r i).2 h1
    · exact (hq.flags r i).1 h1
  · intro t u task r p rs rest task' r' q rs' rest' ht hu htu hl hl' a i hrace
    have key : ∀ t u task r p rs rest task' r' q rs' rest', t < n → u < n → ls t = .row task r p rs rest →
        ls u = .row task' r' q rs' rest' → pos r < pos r' → (W r a i ∧ (R r' a i ∨ W r' a i) ∨ W r' a i ∧ (R r a i ∨ W r a i)) → False := by
      intro t u task r p rs rest task' r' q rs' rest' ht hu hl hl' hlt hc
      have m1 := cur_row_mem (h.shape t ht) hl
      have m2 := cur_row_mem (h.shape u hu) hl'
      have hnd := rem_nodup hv hu (h.shape u hu)
      refine finished_of_rowBefore hv h.shape ht hu m1 m2 (hq.ordered t r u r' a i ht hu m1 m2 hlt hc) ?_ ?_
      · rw [hl'] at hnd ⊢
        exact (List.nodup_cons.1 hnd).1
      · rw [hl]; simp [PState.rem]
    obtain ⟨c, d, n1, n2, hcd⟩ := hrace
    obtain ⟨_, w1, _⟩ := h.running t task r p rs rest ht hl
    obtain ⟨_, w2, _⟩ := h.running u task' r' q rs' rest' hu hl'
    have hconf : W r a i ∧ (R r' a i ∨ W r' a i) ∨ W r' a i ∧ (R r a i ∨ W r a i) := by
      rcases wp_next w1 n1 with ⟨e1, h1⟩ | ⟨e1, h1⟩ <;> rcases wp_next w2 n2 with ⟨e2, h2⟩ | ⟨e2, h2⟩
      · exact absurd ⟨e1, e2⟩ hcd.1
      · exact Or.inr ⟨h2, Or.inl h1⟩
      · exact Or.inl ⟨h1, Or.inl h2⟩
      · exact Or.inl ⟨h1, Or.inr h2⟩
    rcases Nat.lt_trichotomy (pos r) (pos r') with hlt | heq | hlt
    · exact key _ _ _ _ _ _ _ _ _ _ _ _ ht hu hl hl' hlt hconf
    · have m1 := cur_row_mem (h.shape t ht) hl
      have m2 := cur_row_mem (h.shape u hu) hl'
      have := hq.pos_inj t r u r' ht hu m1 m2 heq
      subst this
      exact htu (hv.rows_disj t u r ht hu m1 m2)
    · exact key _ _ _ _ _ _ _ _ _ _ _ _ hu ht hl' hl hlt (hconf.elim Or.inr Or.inl)

/-- Main theorem: a valid schedule whose conflicting rows are ordered executes, in every interleaving, without
undefined behaviour, deadlock or endless execution, and leaves exactly the memory of the sequential sweep (outside
the flag array). -/
theorem p2p_correct (hv : S.Valid n rank) (hq : S.SeqRun sz n N pos W R M)
    (hone : S.isSet S.one = true)
    (hsz : ∀ t b, t < n → b ∈ S.tasksOf t → (b : Int) < sz S.fa)
    (hflags : ∀ t b, t < n → b ∈ S.tasksOf t → ∃ v, m S.fa (b : Int) = some v ∧ S.isSet v = false)
    (hm : ∀ a i, a ≠ S.fa → m a i = M 0 a i) :
    P2POk sz S n (fun m' => ∀ a i, a ≠ S.fa → m' a i = M N a i) m := by
  have hinit : PInv S sz n N pos W R M (fun t => .next (S.tasksOf t)) m := by
    refine ⟨?_, ?_, ?_, ?_⟩
    · intro t ht
      exact ⟨⟨[], by simp [PState.remT], by simp⟩, trivial⟩
    · intro t b ht hb
      obtain ⟨v, hv1, hv2⟩ := hflags t b ht hb
      refine ⟨v, hv1, ?_⟩
      simp [hv2, PState.remT, hb]
    · intro a i k ha hk c1 c2
      rw [hm a i ha]
      refine (SeqRun.const hq (Nat.zero_le k) hk ?_).symm
      intro t r ht hr _ hp hw
      exact c1 t r ht hr hw hp hr
    · intro t task r p rs rest _ he; cases he
  refine ⟨?_, fun ls g hr => (reach_inv (PInv S sz n N pos W R M) (fun ls g t l' g' h ht hs => h.step hv hq hone ht hs) hinit hr).noRace hv hq⟩
  refine teamOk_of_inv (PInv S sz n N pos W R M) (fun l => p2p_acc l) ?_ ?_ ?_ ?_ hinit
  · intro ls g t l' g' h ht hs
    exact h.step hv hq hone ht hs
  · intro ls g t h ht
    show ¬ P2PBad sz S (ls t) g
    have hsh := h.shape t ht
    cases hl : ls t with
    | next rest => simp [P2PBad]
    | wait tk ps rest =>
      cases ps with
      | nil => simp [P2PBad]
      | cons p ps =>
        obtain ⟨⟨dn, h1, _⟩, h3⟩ := hsh
        rw [hl] at h1 h3
        obtain ⟨pre, h4, _⟩ := h3
        obtain ⟨u, hu, hpu⟩ := hv.parents_task t tk p ht (by rw [h1]; simp [PState.remT]) (by rw [h4]; simp)
        obtain ⟨v, hv1, _⟩ := h.flags u p hu hpu
        simp [P2PBad, hv1]
    | rows tk rs rest =>
      cases rs with
      | nil =>
        have := hsz t tk ht (remT_sub hsh tk (by rw [hl]; simp [PState.remT]))
        simpa [P2PBad] using this
      | cons r rs => simp [P2PBad]
    | row tk r p rs rest =>
      obtain ⟨mem, hwp, hag⟩ := h.running t tk r p rs rest ht hl
      show ¬ Stuck sz p g
      cases p with
      | ret v => simp [Stuck]
      | rd a i k =>
        unfold wp at hwp; obtain ⟨w1, v, w2, _⟩ := hwp
        simp [Stuck, hag a i (Or.inl w1), w2]
      | wr a i v k =>
        unfold wp at hwp; obtain ⟨_, w2, w3, _⟩ := hwp
        simp [Stuck, w2, w3]
      | rmw a i f k =>
        unfold wp at hwp; obtain ⟨_, w2, w3, w4, v, w5, _⟩ := hwp
        simp [Stuck, hag a i (Or.inl w4), w5, w2, w3]
      | fail => exact (wp_fail.1 hwp).elim
  · intro ls g h hx
    obtain ⟨t, ht, hnf⟩ := hx
    have : ∃ task rest, (ls t).remT = task :: rest := by
      cases hl : ls t with
      | next rest =>
        cases rest with
        | nil => exact absurd hl hnf
        | cons x r => exact ⟨x, r, rfl⟩
      | wait tk ps rest => exact ⟨tk, rest, rfl⟩
      | rows tk rs rest => exact ⟨tk, rest, rfl⟩
      | row tk r p rs rest => exact ⟨tk, rest, rfl⟩
    obtain ⟨task, rest, hrem⟩ := this
    exact h.progress hv hsz (rank task) t task rest ht hrem rfl
  · intro ls g h hfin a i ha
    refine h.cells a i N ha (Nat.le_refl _) ?_ ?_
    · intro t r ht _ _ _
      have : ls t = .next [] := hfin t ht
      rw [this]; simp [PState.rem]
    · intro t r ht hr _ hp
      have := hq.pos_lt t r ht hr; omega

end
end

end SpMP
