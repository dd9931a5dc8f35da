import Verif.TaskPartMain
import Verif.TaskGraphProof
import Verif.Props.Schedules
import Verif.Props.Levels
/-
Property theorems C30, C31, C32, and C33-C36, C38 for schedules built by the library.
-/

namespace SpMP.Props
open SpMP SpMP.Spec

variable {R : Type}

/-! ### C30 -/

/-- C30 for cost functions that give every row a positive cost (with zero costs the claim is false, see below): for every list of levels, team
size, barrier and aggregation option, the partition succeeds, boundaries tile, the two permutations are inverse to each other, every task lies
inside one level and the tasks of a thread are in increasing level order. Without barriers no task is empty; with barriers every thread has
one task per level. -/
theorem C30_task_partition_partial {useBarrier agg : Bool} {T m : Nat} {cost : Nat → Nat} {L : List (List Nat)} (a0 : TaskArrays)
    (hT : 1 ≤ T) (hL : L.flatten.Perm (List.range m)) (hc : ∀ i, i < m → 0 < cost i) :
    ∃ P lvl, taskPartition useBarrier agg T m cost L a0 = some P ∧ P.sched.T = T ∧ P.sched.m = m ∧ SplitsLevels P.sched L P.o2t lvl ∧
      (∀ k, k < P.sched.ntasks → lvl k < L.length) ∧
      (useBarrier = false → ∀ k, k < P.sched.ntasks → P.sched.taskB k < P.sched.taskB (k + 1)) ∧
      (useBarrier = true → (∀ t, t ≤ T → P.sched.threadB t = t * L.length) ∧ ∀ k, k < P.sched.ntasks → lvl k = k % L.length) :=
  taskPartition_ok a0 hT hL hc

/-- C30 for the default cost function of constructTaskGraph(const CSR&): the number of stored entries of a row. -/
theorem C30_default_cost {useBarrier agg : Bool} {T : Nat} {A : Csr R} {dp ep : Nat → Nat} {L : List (List Nat)} (a0 : TaskArrays)
    (hT : 1 ≤ T) (hL : LevelDecomp (Dep A) A.m L) (hs : SplitRows A dp ep) :
    ∃ P lvl, taskPartition useBarrier agg T A.m (fun i => A.ptr (i + 1) - A.ptr i) L a0 = some P ∧ SplitsLevels P.sched L P.o2t lvl := by
  obtain ⟨P, lvl, h1, _, _, h2, _⟩ := taskPartition_ok (useBarrier := useBarrier) (agg := agg) (cost := fun i => A.ptr (i + 1) - A.ptr i) a0 hT hL.rows
    (fun i hi => by have := hs.bounds i hi; show 0 < A.ptr (i + 1) - A.ptr i; omega)
  exact ⟨P, lvl, h1, h2⟩

/-- Three rows in two levels, two threads. -/
def exLevels : List (List Nat) := [[1, 0], [2]]

/-- The hypotheses of C30 are met by a concrete case, and the result is what one expects: thread 0 gets row 0 and row 2, thread 1 row 1. -/
example : exLevels.flatten.Perm (List.range 3) ∧
    ((taskPartition false false 2 3 (fun _ => 1) exLevels ⟨fun _ => 0, fun _ => 0, fun _ => 0⟩).map fun P =>
      ((List.range 3).map P.sched.threadB, (List.range 4).map P.sched.taskB, (List.range 3).map P.sched.perm, (List.range 3).map P.o2t)) =
      some ([0, 2, 3], [0, 1, 2, 3], [0, 2, 1], [0, 2, 1]) := by
  exact ⟨by decide, by decide⟩

/-- C30 fails when the last rows of a level cost nothing: one thread, three independent rows with costs 1, 1, 0: row 2 is in no task, so the
"permutation" lacks it (the position 2 keeps the old content, here 7). -/
theorem C30_zero_cost_false : ∃ P, taskPartition false false 1 3 (fun i => if i = 2 then 0 else 1) [[0, 1, 2]] ⟨fun _ => 7, fun _ => 7, fun _ => 7⟩ = some P ∧
    (∀ p, p < 3 → P.sched.perm p ≠ 2) ∧ ¬ P.sched.Tiling := by
  refine ⟨_, rfl, by decide, ?_⟩
  intro h
  have := h.perm.1 2 (by decide)
  revert this
  decide

/-- ... and with aggregation the same costs make the shift of the tasks write before the start of the array (undefined behaviour). Nine rows, the last one free. -/
theorem C30_zero_cost_aggregate_ub : taskPartition false true 1 9 (fun i => if i = 8 then 0 else 1) [[0, 1, 2, 3, 4, 5, 6, 7, 8]] ⟨fun _ => 0, fun _ => 0, fun _ => 0⟩ = none := by
  decide

/-! ### C32 -/

/-- The schedule with all edges of a task graph `adj` as parents. -/
def withAll (S : Schedule) (adj : Nat → List Nat) : Schedule :=
  { S with parF := appended (parentEvents S.ntasks adj), parB := adj }

/-- The schedule with the edges kept by the transitive reduction as parents; `pev` is the order of the appends to parentsForward. -/
def withKept (S : Schedule) (adj inv : Nat → List Nat) (pev : List (Nat × Nat)) : Schedule :=
  { S with parF := appended pev, parB := fun j => keptChildren S inv j (adj j) }

/-- C32. For every acyclic task graph (`lvl` increases along edges and along the tasks of a thread) whose adjacency lists are increasing and whose
inverse lists hold the sources of the edges and the previous task of the thread: the reduction keeps exactly the same order between tasks, forward
and backward. -/
theorem C32_reduction {S : Schedule} (hS : S.Tiling) {adj inv : Nat → List Nat} {lvl : Nat → Nat} {pev : List (Nat × Nat)}
    (hadj : ∀ a, (adj a).Pairwise (· < ·)) (hinv : ∀ i, (inv i).Pairwise (· ≤ ·))
    (hi : ∀ a i, a ∈ inv i ↔ a < S.ntasks ∧ (i ∈ adj a ∨ i = a + 1 ∧ S.SameThread a (a + 1)))
    (hlt : ∀ a i, a < S.ntasks → i ∈ adj a → i < S.ntasks ∧ lvl a < lvl i)
    (hth : ∀ a b, S.SameThread a b → a < b → lvl a < lvl b)
    (hp : pev.Perm (parentEvents S.ntasks fun j => keptChildren S inv j (adj j))) :
    (∀ a b, (withAll S adj).Fwd a b ↔ (withKept S adj inv pev).Fwd a b) ∧
    (∀ a b, (withAll S adj).Bwd a b ↔ (withKept S adj inv pev).Bwd a b) := by
  have hk : ∀ a i, i ∈ keptChildren S inv a (adj a) → i ∈ adj a := fun a i h => (List.mem_filter.mp h).1
  have hF : ∀ b a, a ∈ (withKept S adj inv pev).parF b ↔ a < S.ntasks ∧ b ∈ keptChildren S inv a (adj a) := by
    intro b a
    show a ∈ appended pev b ↔ _
    rw [mem_appended, hp.mem_iff, mem_parentEvents]
  have hA : ∀ b a, a ∈ (withAll S adj).parF b ↔ a < S.ntasks ∧ b ∈ adj a := by
    intro b a
    show a ∈ appended (parentEvents S.ntasks adj) b ↔ _
    rw [mem_appended, mem_parentEvents]
  have cov := fun Q => @keptChildren_covers S hS adj inv lvl hadj hinv (fun a i h => (hi a i).mp h) hlt hth Q
  refine ⟨fun a b => ⟨fun h => ?_, fun h => ?_⟩, fun a b => ⟨fun h => ?_, fun h => ?_⟩⟩
  · induction h with
    | @parent a b h1 h2 =>
      obtain ⟨ha, hb⟩ := (hA b a).mp h2
      refine cov (fun x y => (withKept S adj inv pev).Fwd x y) ?_ ?_ ?_ _ a b (Nat.le_refl _) ha hb
      · intro x i hx hxi
        exact .parent (hlt x i hx (hk x i hxi)).1 ((hF i x).mpr ⟨hx, hxi⟩)
      · intro x y hxy hlt; exact .thread hxy hlt
      · intro x y z h1 h2; exact .trans h1 h2
    | thread h1 h2 => exact .thread h1 h2
    | trans _ _ i1 i2 => exact .trans i1 i2
  · induction h with
    | @parent a b h1 h2 =>
      obtain ⟨ha, hb⟩ := (hF b a).mp h2
      exact .parent h1 ((hA b a).mpr ⟨ha, hk a b hb⟩)
    | thread h1 h2 => exact .thread h1 h2
    | trans _ _ i1 i2 => exact .trans i1 i2
  · induction h with
    | @parent a b h1 h2 =>
      have h2 : a ∈ adj b := h2
      refine cov (fun x y => (withKept S adj inv pev).Bwd y x) ?_ ?_ ?_ _ b a (Nat.le_refl _) h1 h2
      · intro x i hx hxi
        exact .parent hx hxi
      · intro x y hxy hlt
        obtain ⟨t, ht, g1, g2, g3, g4⟩ := hxy
        exact .thread ⟨t, ht, g3, g4, g1, g2⟩ hlt
      · intro x y z h1 h2; exact .trans h2 h1
    | thread h1 h2 => exact .thread h1 h2
    | trans _ _ i1 i2 => exact .trans i1 i2
  · induction h with
    | @parent a b h1 h2 => exact .parent h1 (hk b a h2)
    | thread h1 h2 => exact .thread h1 h2
    | trans _ _ i1 i2 => exact .trans i1 i2

/-! ### C31 -/

/-- A matrix with a level decomposition and a partition of it into tasks. -/
structure Partitioned (S : Schedule) (A : Csr R) (dp ep : Nat → Nat) (L : List (List Nat)) (inv lvl : Nat → Nat) : Prop where
  rows : S.m = A.m
  split : SplitRows A dp ep
  inner : ∀ i p, i < A.m → dp i < p → p < ep i → A.col p < A.m
  sym : SymPat A
  levels : LevelDecomp (Dep A) A.m L
  tasks : SplitsLevels S L inv lvl

theorem Partitioned.row {S : Schedule} {A : Csr R} {dp ep : Nat → Nat} {L : List (List Nat)} {inv lvl : Nat → Nat} (h : Partitioned S A dp ep L inv lvl) :
    ∀ i, i < S.m → ∃ k, S.RowIn k i := by
  intro i hi
  obtain ⟨k, _, hk⟩ := exists_rowIn h.tasks.tiling hi
  exact ⟨k, hk⟩

theorem Partitioned.col {S : Schedule} {A : Csr R} {dp ep : Nat → Nat} {L : List (List Nat)} {inv lvl : Nat → Nat} (h : Partitioned S A dp ep L inv lvl) :
    ∀ i p, i < S.m → dp i < p → p < ep i → A.col p < S.m := by
  intro i p hi
  rw [h.rows] at hi ⊢
  exact h.inner i p hi

/-- Dependent rows are in tasks of increasing level. -/
theorem Partitioned.dep {S : Schedule} {A : Csr R} {dp ep : Nat → Nat} {L : List (List Nat)} {inv lvl : Nat → Nat} (h : Partitioned S A dp ep L inv lvl)
    {a b q r : Nat} (hd : Dep A q r) (ha : S.RowIn a q) (hb : S.RowIn b r) : lvl a < lvl b := by
  have h1 := h.tasks.level a q ha
  have h2 := h.tasks.level b r hb
  obtain ⟨k', hk', h3⟩ := h.levels.earlier _ r q h2 hd
  have h4 := h.levels.longest _ q _ h1 (h.levels.chain _ q h3)
  have h5 := h.levels.longest _ q _ h3 (h.levels.chain _ q h1)
  omega

/-- An entry between dependent rows in different threads is an edge. -/
theorem Partitioned.edge {S : Schedule} {A : Csr R} {dp ep : Nat → Nat} {L : List (List Nat)} {inv lvl : Nat → Nat} (h : Partitioned S A dp ep L inv lvl)
    {a b q r : Nat} (hqr : q < r) (hr : r < S.m) (hn : A.Nbr r q ∨ A.Nbr q r) (ha : S.RowIn a q) (hb : S.RowIn b r) :
    Dep A q r ∧ (¬ S.SameThread a b → Edge S A dp ep a b) := by
  have hrm : r < A.m := by rw [← h.rows]; exact hr
  have h1 : A.Nbr r q := by
    rcases hn with hn | hn
    · exact hn
    · exact h.sym q r (by omega) hrm hn
  obtain ⟨p, hp, hc⟩ := h.sym r q hrm (by omega) h1
  refine ⟨⟨hqr, h1⟩, fun hns => ⟨hns, q, p, ha, ?_, ?_, by rw [hc]; exact hb⟩⟩
  · by_contra hlt
    rcases Nat.lt_or_ge p (dp q) with g | g
    · have := h.split.lower q p (by omega) hp.2.1 g; omega
    · have e : p = dp q := by omega
      have := h.split.diag q (by omega)
      rw [← e] at this; omega
  · by_contra hlt
    have := h.split.ext q p (by omega) (by omega) hp.2.2
    omega

theorem Partitioned.edge_lvl {S : Schedule} {A : Csr R} {dp ep : Nat → Nat} {L : List (List Nat)} {inv lvl : Nat → Nat} (h : Partitioned S A dp ep L inv lvl)
    {a b : Nat} (he : Edge S A dp ep a b) : b < S.ntasks ∧ lvl a < lvl b := by
  obtain ⟨_, i, p, h1, h2, h3, h4⟩ := he
  have hi := (rowIn_lt h.tasks.tiling h1).1
  rw [h.rows] at hi
  have hb := h.split.bounds i hi
  have hup := h.split.upper i p hi h2 h3
  have hc := h.inner i p hi h2 h3
  refine ⟨(rowIn_lt h.tasks.tiling h4).2, h.dep ⟨hup, ?_⟩ h1 h4⟩
  exact h.sym i (A.col p) hi hc ⟨p, ⟨hi, by omega, by omega⟩, rfl⟩

/-- What the executions need to know about a schedule of the matrix `A`. -/
structure GoodSchedule (S : Schedule) (A : Csr R) (lvl : Nat → Nat) : Prop where
  tiling : S.Tiling
  levelled : S.Levelled lvl
  fwd : S.CoversFwd A.Nbr
  bwd : S.CoversBwd A.Nbr

theorem good_plain {S : Schedule} {A : Csr R} {dp ep : Nat → Nat} {L : List (List Nat)} {inv lvl : Nat → Nat} (h : Partitioned S A dp ep L inv lvl)
    {ev : List (Nat × Nat)} (hev : ev.Perm (allInvEvents S A dp ep false)) : GoodSchedule (graphPlain S A dp ep ev) A lvl := by
  have hS := h.tasks.tiling
  have hF : ∀ b a, a ∈ (graphPlain S A dp ep ev).parF b ↔ a < S.ntasks ∧ Edge S A dp ep a b := by
    intro b a
    show a ∈ taskInv ev b ↔ _
    rw [mem_taskInv, hev.mem_iff, mem_allInvEvents hS h.row h.col]
    simp
  have hB : ∀ b a, b < S.ntasks → (a ∈ (graphPlain S A dp ep ev).parB b ↔ Edge S A dp ep b a) := fun b a hb => mem_taskAdj hS h.row h.col hb
  refine ⟨⟨hS.threadB_zero, hS.threadB_mono, hS.threadB_last, hS.taskB_zero, hS.taskB_mono, hS.taskB_last, hS.perm⟩, ⟨h.tasks.order, ?_, ?_⟩, ?_, ?_⟩
  · intro b p _ hp
    obtain ⟨h1, h2⟩ := (hF b p).mp hp
    exact ⟨h1, (h.edge_lvl h2).2⟩
  · intro b p hb hp
    exact h.edge_lvl ((hB b p hb).mp hp)
  · intro q r a b hqr hr hn ha hb
    obtain ⟨hd, he⟩ := h.edge hqr hr hn ha hb
    by_cases hst : S.SameThread a b
    · refine .thread hst ?_
      by_contra hc
      have h1 := h.dep hd ha hb
      rcases Nat.lt_or_ge b a with g | g
      · obtain ⟨t, ht, g1, g2, g3, g4⟩ := hst
        have := h.tasks.order b a ⟨t, ht, g3, g4, g1, g2⟩ g; omega
      · have : a = b := by omega
        subst this; omega
    · exact .parent (rowIn_lt hS hb).2 ((hF b a).mpr ⟨(rowIn_lt hS ha).2, he hst⟩)
  · intro q r a b hqr hr hn ha hb
    obtain ⟨hd, he⟩ := h.edge hqr hr hn ha hb
    by_cases hst : S.SameThread a b
    · obtain ⟨t, ht, g1, g2, g3, g4⟩ := hst
      refine .thread ⟨t, ht, g3, g4, g1, g2⟩ ?_
      by_contra hc
      have h1 := h.dep hd ha hb
      rcases Nat.lt_or_ge b a with g | g
      · have := h.tasks.order b a ⟨t, ht, g3, g4, g1, g2⟩ g; omega
      · have : a = b := by omega
        subst this; omega
    · exact .parent (rowIn_lt hS ha).2 ((hB a b (rowIn_lt hS ha).2).mpr (he hst))

theorem fwd_congr {S S' : Schedule} (hT : S'.T = S.T) (hB : S'.threadB = S.threadB) (hn : S'.ntasks = S.ntasks)
    (hp : ∀ a b, b < S.ntasks → a ∈ S.parF b → a ∈ S'.parF b) {a b : Nat} (h : S.Fwd a b) : S'.Fwd a b := by
  induction h with
  | parent h1 h2 => exact .parent (by rw [hn]; exact h1) (hp _ _ h1 h2)
  | thread h1 h2 =>
    obtain ⟨t, ht, g⟩ := h1
    refine .thread ⟨t, by rw [hT]; exact ht, ?_⟩ h2
    rw [hB]; exact g
  | trans _ _ i1 i2 => exact .trans i1 i2

theorem bwd_congr {S S' : Schedule} (hT : S'.T = S.T) (hB : S'.threadB = S.threadB) (hn : S'.ntasks = S.ntasks)
    (hp : ∀ a b, b < S.ntasks → a ∈ S.parB b → a ∈ S'.parB b) {a b : Nat} (h : S.Bwd a b) : S'.Bwd a b := by
  induction h with
  | parent h1 h2 => exact .parent (by rw [hn]; exact h1) (hp _ _ h1 h2)
  | thread h1 h2 =>
    obtain ⟨t, ht, g⟩ := h1
    refine .thread ⟨t, by rw [hT]; exact ht, ?_⟩ h2
    rw [hB]; exact g
  | trans _ _ i1 i2 => exact .trans i1 i2

/-- C32 for the graph built by the library: with and without transitive reduction the parents induce the same order of tasks. -/
theorem C32_built_graph {S : Schedule} {A : Csr R} {dp ep : Nat → Nat} {L : List (List Nat)} {inv lvl : Nat → Nat} (h : Partitioned S A dp ep L inv lvl)
    {ev0 ev pev : List (Nat × Nat)} (hev0 : ev0.Perm (allInvEvents S A dp ep false)) (hev : ev.Perm (allInvEvents S A dp ep true))
    (hpev : pev.Perm (parentEvents S.ntasks (reducedChildren S A dp ep ev))) :
    (∀ a b, (graphPlain S A dp ep ev0).Fwd a b ↔ (graphReduced S A dp ep ev pev).Fwd a b) ∧
    (∀ a b, (graphPlain S A dp ep ev0).Bwd a b ↔ (graphReduced S A dp ep ev pev).Bwd a b) := by
  have hS := h.tasks.tiling
  have hr := C32_reduction (S := S) hS (adj := taskAdj S A dp ep) (inv := taskInv ev) (lvl := lvl) (pev := pev) (taskAdj_sorted S A dp ep)
    (taskInv_sorted ev) (by
      intro a i
      rw [mem_taskInv, hev.mem_iff, mem_allInvEvents hS h.row h.col]
      constructor
      · rintro ⟨h1, h2⟩
        refine ⟨h1, ?_⟩
        rcases h2 with h2 | ⟨h2, _, h3⟩
        · exact Or.inl ((mem_taskAdj hS h.row h.col h1).mpr h2)
        · exact Or.inr ⟨h2, h3⟩
      · rintro ⟨h1, h2⟩
        refine ⟨h1, ?_⟩
        rcases h2 with h2 | ⟨h2, h3⟩
        · exact Or.inl ((mem_taskAdj hS h.row h.col h1).mp h2)
        · exact Or.inr ⟨h2, rfl, h3⟩)
    (fun a i ha hi => h.edge_lvl ((mem_taskAdj hS h.row h.col ha).mp hi)) h.tasks.order hpev
  have e1 : ∀ b a, b < S.ntasks → (a ∈ (graphPlain S A dp ep ev0).parF b ↔ a ∈ (withAll S (taskAdj S A dp ep)).parF b) := by
    intro b a _
    show a ∈ taskInv ev0 b ↔ a ∈ appended (parentEvents S.ntasks (taskAdj S A dp ep)) b
    rw [mem_taskInv, hev0.mem_iff, mem_allInvEvents hS h.row h.col, mem_appended, mem_parentEvents]
    constructor
    · rintro ⟨h1, h2 | ⟨_, h2, _⟩⟩
      · exact ⟨h1, (mem_taskAdj hS h.row h.col h1).mpr h2⟩
      · simp at h2
    · rintro ⟨h1, h2⟩; exact ⟨h1, Or.inl ((mem_taskAdj hS h.row h.col h1).mp h2)⟩
  refine ⟨fun a b => ⟨fun hf => ?_, fun hf => ?_⟩, fun a b => ?_⟩
  · have h1 : (withAll S (taskAdj S A dp ep)).Fwd a b := fwd_congr (S := graphPlain S A dp ep ev0) (S' := withAll S (taskAdj S A dp ep)) rfl rfl rfl (fun a b hb hp => (e1 b a hb).mp hp) hf
    exact (hr.1 a b).mp h1
  · have h1 : (withKept S (taskAdj S A dp ep) (taskInv ev) pev).Fwd a b := hf
    exact fwd_congr (S := withAll S (taskAdj S A dp ep)) (S' := graphPlain S A dp ep ev0) rfl rfl rfl (fun a b hb hp => (e1 b a hb).mpr hp) ((hr.1 a b).mpr h1)
  · have h1 : (graphPlain S A dp ep ev0).Bwd a b ↔ (withAll S (taskAdj S A dp ep)).Bwd a b :=
      ⟨bwd_congr (S := graphPlain S A dp ep ev0) (S' := withAll S (taskAdj S A dp ep)) rfl rfl rfl (fun _ _ _ hp => hp), bwd_congr (S := withAll S (taskAdj S A dp ep)) (S' := graphPlain S A dp ep ev0) rfl rfl rfl (fun _ _ _ hp => hp)⟩
    have h2 : (graphReduced S A dp ep ev pev).Bwd a b ↔ (withKept S (taskAdj S A dp ep) (taskInv ev) pev).Bwd a b := Iff.rfl
    rw [h1, h2]; exact hr.2 a b

theorem good_reduced {S : Schedule} {A : Csr R} {dp ep : Nat → Nat} {L : List (List Nat)} {inv lvl : Nat → Nat} (h : Partitioned S A dp ep L inv lvl)
    {ev pev : List (Nat × Nat)} (hev : ev.Perm (allInvEvents S A dp ep true))
    (hpev : pev.Perm (parentEvents S.ntasks (reducedChildren S A dp ep ev))) : GoodSchedule (graphReduced S A dp ep ev pev) A lvl := by
  have hS := h.tasks.tiling
  obtain ⟨h1, h2⟩ := C32_built_graph h (List.Perm.refl _) hev hpev
  have hg := good_plain h (List.Perm.refl _)
  have hk : ∀ a i, a < S.ntasks → i ∈ reducedChildren S A dp ep ev a → Edge S A dp ep a i := by
    intro a i ha hi
    exact (mem_taskAdj hS h.row h.col ha).mp (List.mem_filter.mp hi).1
  refine ⟨⟨hS.threadB_zero, hS.threadB_mono, hS.threadB_last, hS.taskB_zero, hS.taskB_mono, hS.taskB_last, hS.perm⟩, ⟨h.tasks.order, ?_, ?_⟩, ?_, ?_⟩
  · intro b p _ hp
    have hp : p ∈ appended pev b := hp
    rw [mem_appended, hpev.mem_iff, mem_parentEvents] at hp
    exact ⟨hp.1, (h.edge_lvl (hk p b hp.1 hp.2)).2⟩
  · intro b p hb hp
    exact h.edge_lvl (hk b p hb hp)
  · intro q r a b hqr hr hn ha hb
    exact (h1 a b).mp (hg.fwd q r a b hqr hr hn ha hb)
  · intro q r a b hqr hr hn ha hb
    exact (h2 b a).mp (hg.bwd q r a b hqr hr hn ha hb)

/-- C31. For every matrix with symmetric pattern, every partition of its levels into tasks and every order of the concurrent appends: with or
without transitive reduction, the parents and the order of each thread's tasks guarantee that whenever two dependent rows are in different tasks,
the task of the smaller row precedes in a forward run and follows in a backward run; parents have smaller (backward: larger) level. -/
theorem C31_task_graph {S : Schedule} {A : Csr R} {dp ep : Nat → Nat} {L : List (List Nat)} {inv lvl : Nat → Nat} (h : Partitioned S A dp ep L inv lvl) :
    (∀ ev : List (Nat × Nat), ev.Perm (allInvEvents S A dp ep false) → GoodSchedule (graphPlain S A dp ep ev) A lvl) ∧
    (∀ ev pev : List (Nat × Nat), ev.Perm (allInvEvents S A dp ep true) → pev.Perm (parentEvents S.ntasks (reducedChildren S A dp ep ev)) →
      GoodSchedule (graphReduced S A dp ep ev pev) A lvl) :=
  ⟨fun _ => good_plain h, fun _ _ => good_reduced h⟩

/-! ### Schedules built by the library -/

/-- `S` is the schedule that constructTaskGraph builds for `A`: levels, task partition with team size `T` and the given options, task graph with or
without transitive reduction (reduction only without barriers: with empty tasks the inverse adjacency list of an empty task has no room for the
thread's previous task, LevelSchedule.cpp:917-923,1108-1111). -/
def Built (S : Schedule) (A : Csr R) (dp ep : Nat → Nat) (useBarrier : Bool) (L : List (List Nat)) : Prop :=
  LevelDecomp (Dep A) A.m L ∧ ∃ (agg : Bool) (T : Nat) (cost : Nat → Nat) (a0 : TaskArrays) (P : TaskPartition), 1 ≤ T ∧ (∀ i, i < A.m → 0 < cost i) ∧
    taskPartition useBarrier agg T A.m cost L a0 = some P ∧
    ((∃ ev : List (Nat × Nat), ev.Perm (allInvEvents P.sched A dp ep false) ∧ S = graphPlain P.sched A dp ep ev) ∨
     (∃ ev pev : List (Nat × Nat), useBarrier = false ∧ ev.Perm (allInvEvents P.sched A dp ep true) ∧
       pev.Perm (parentEvents P.sched.ntasks (reducedChildren P.sched A dp ep ev)) ∧ S = graphReduced P.sched A dp ep ev pev))

/-- `S` is the schedule built for `A` (as `Built`), with the aggregation option, the team size and the costs of the rows named. -/
def BuiltWith (S : Schedule) (A : Csr R) (dp ep : Nat → Nat) (useBarrier : Bool) (L : List (List Nat)) (agg : Bool) (T : Nat) (cost : Nat → Nat) : Prop :=
  LevelDecomp (Dep A) A.m L ∧ ∃ (a0 : TaskArrays) (P : TaskPartition), taskPartition useBarrier agg T A.m cost L a0 = some P ∧
    ((∃ ev : List (Nat × Nat), ev.Perm (allInvEvents P.sched A dp ep false) ∧ S = graphPlain P.sched A dp ep ev) ∨
     (∃ ev pev : List (Nat × Nat), useBarrier = false ∧ ev.Perm (allInvEvents P.sched A dp ep true) ∧
       pev.Perm (parentEvents P.sched.ntasks (reducedChildren P.sched A dp ep ev)) ∧ S = graphReduced P.sched A dp ep ev pev))

theorem built_iff {S : Schedule} {A : Csr R} {dp ep : Nat → Nat} {ub : Bool} {L : List (List Nat)} :
    Built S A dp ep ub L ↔ ∃ agg T cost, 1 ≤ T ∧ (∀ i, i < A.m → 0 < cost i) ∧ BuiltWith S A dp ep ub L agg T cost := by
  constructor
  · rintro ⟨hL, agg, T, cost, a0, P, hT, hc, hP, h⟩
    exact ⟨agg, T, cost, hT, hc, hL, a0, P, hP, h⟩
  · rintro ⟨agg, T, cost, hT, hc, hL, a0, P, hP, h⟩
    exact ⟨hL, agg, T, cost, a0, P, hT, hc, hP, h⟩

/-- The demands of constructTaskGraph on its matrix: rows split by diagptr and extptr, columns left of extptr are rows, symmetric pattern. -/
structure Schedulable (A : Csr R) (dp ep : Nat → Nat) : Prop where
  split : SplitRows A dp ep
  inner : ∀ i p, i < A.m → dp i < p → p < ep i → A.col p < A.m
  sym : SymPat A

theorem Built.good {S : Schedule} {A : Csr R} {dp ep : Nat → Nat} {ub : Bool} {L : List (List Nat)} (hA : Schedulable A dp ep) (hb : Built S A dp ep ub L) :
    ∃ lvl, GoodSchedule S A lvl ∧ (ub = true → S.Barriered L.length A.Nbr) ∧ S.m = A.m ∧ 1 ≤ S.T := by
  obtain ⟨hL, agg, T, cost, a0, P, hT, hc, hP, hS⟩ := hb
  obtain ⟨P', lvl, h1, h2, h3, h4, _, _, h6⟩ := taskPartition_ok (useBarrier := ub) (agg := agg) (cost := cost) a0 hT hL.rows hc
  rw [hP] at h1
  obtain rfl := Option.some.inj h1
  have hpart : Partitioned P.sched A dp ep L P.o2t lvl := ⟨h3, hA.split, hA.inner, hA.sym, hL, h4⟩
  have hbar : ub = true → P.sched.Barriered L.length A.Nbr := by
    intro hu
    obtain ⟨g1, g2⟩ := h6 hu
    refine ⟨fun t ht => g1 t (by rw [← h2]; exact ht), ?_⟩
    intro q r a b hqr hr hn ha hb
    rw [← g2 a (rowIn_lt h4.tiling ha).2, ← g2 b (rowIn_lt h4.tiling hb).2]
    exact hpart.dep (hpart.edge hqr hr hn ha hb).1 ha hb
  rcases hS with ⟨ev, g1, rfl⟩ | ⟨ev, pev, g0, g1, g2, rfl⟩
  · refine ⟨lvl, good_plain hpart g1, ?_, h3, by show 1 ≤ P.sched.T; omega⟩
    intro hu
    exact ⟨(hbar hu).threadB, (hbar hu).level⟩
  · refine ⟨lvl, good_reduced hpart g1 g2, ?_, h3, by show 1 ≤ P.sched.T; omega⟩
    intro hu
    rw [g0] at hu; simp at hu

theorem coversFwd_mono {S : Schedule} {A B : Csr R} (h : S.CoversFwd A.Nbr) (hn : ∀ r q, r < S.m → q < S.m → B.Nbr r q → A.Nbr r q) : S.CoversFwd B.Nbr := by
  intro q r a b hqr hr hb
  exact h q r a b hqr hr (hb.imp (hn r q hr (by omega)) (hn q r (by omega) hr))

theorem coversBwd_mono {S : Schedule} {A B : Csr R} (h : S.CoversBwd A.Nbr) (hn : ∀ r q, r < S.m → q < S.m → B.Nbr r q → A.Nbr r q) : S.CoversBwd B.Nbr := by
  intro q r a b hqr hr hb
  exact h q r a b hqr hr (hb.imp (hn r q hr (by omega)) (hn q r (by omega) hr))

/-- C33, C34 for every schedule built by the library and every row kernel that touches only stored neighbours: every interleaving of the forward
(backward) point-to-point loop computes the sequential sweep over rows 0..m-1 (m-1..0). -/
theorem C33_C34_library_any_kernel {S : Schedule} {sz : CArr → Int} {m0 : Mem (CTy R)} {n : Nat} {A : Csr R} {dp ep : Nat → Nat} {ub : Bool} {L : List (List Nat)}
    {body : Nat → Prog (CTy R) Unit} {f : Nat → (Nat → R) → R} {y0 : Nat → R}
    (hA : Schedulable A dp ep) (hb : Built S A dp ep ub L) (hk : KernelOn sz m0 S.m n A.Nbr body f) (hsz : (S.ntasks : Int) ≤ sz (.itmp 0))
    (hy : ∀ i : Nat, i < n → m0 (.vec 1) (i : Int) = some (y0 i)) :
    RunsTo sz S (sweepP2P (fwdTasks S) (fwdRows S) S.parF body) m0 (OnlyY m0 n (sweep f forwardOrd S.m y0)) ∧
    RunsTo sz S (sweepP2P (bwdTasks S) (bwdRows S) S.parB body) m0 (OnlyY m0 n (sweep f (backwardOrd S.m) S.m y0)) := by
  obtain ⟨lvl, hg, _, _, hT⟩ := hb.good hA
  exact ⟨C33_any_kernel hg.tiling hg.levelled hT hg.fwd hk hsz hy, C34_any_kernel hg.tiling hg.levelled hT hg.bwd hk hsz hy⟩

section
variable [Sub R] [Mul R] [Add R]

/-- C33 for every schedule built by the library for a matrix `A`, and every kernel matrix `B` whose entries are entries of `A` (e.g. its lower
triangle): every interleaving of the forward point-to-point loop leaves exactly the vector of the sequential loop. -/
theorem C33_library {S : Schedule} {sz : CArr → Int} {m0 : Mem (CTy R)} {base : Nat} {A B : Csr R} {dp ep : Nat → Nat} {ub : Bool} {L : List (List Nat)}
    {b idg y0 : Nat → R} (hA : Schedulable A dp ep) (hb : Built S A dp ep ub L) (hn : ∀ r q, r < S.m → q < S.m → B.Nbr r q → A.Nbr r q)
    (h : SolveSetup S sz m0 base B b idg y0) (u : Update) :
    ∃ y : Nat → R, y = sweep (rowUpdate B b idg u false) forwardOrd B.m y0 ∧
      RunsTo sz S (forwardExec S base u) m0 (OnlyY m0 B.n y) ∧
      (Script.seq sz (seqLoop B.m forwardOrd (rowKernel base u false)) .done).Ok m0 (fun _ m' => OnlyY m0 B.n y m') := by
  obtain ⟨lvl, hg, _⟩ := hb.good hA
  exact C33_forward_p2p h hg.levelled (coversFwd_mono hg.fwd hn) u

/-- C34 for every schedule built by the library. -/
theorem C34_library {S : Schedule} {sz : CArr → Int} {m0 : Mem (CTy R)} {base : Nat} {A B : Csr R} {dp ep : Nat → Nat} {ub : Bool} {L : List (List Nat)}
    {b idg y0 : Nat → R} (hA : Schedulable A dp ep) (hb : Built S A dp ep ub L) (hn : ∀ r q, r < S.m → q < S.m → B.Nbr r q → A.Nbr r q)
    (h : SolveSetup S sz m0 base B b idg y0) (u : Update) :
    RunsTo sz S (backwardExec S base u) m0
      (OnlyY m0 B.n (sweep (rowUpdate B b idg u true) (backwardOrd B.m) B.m y0)) ∧
    (SubExchange R → ∃ y : Nat → R, y = sweep (rowUpdate B b idg u false) (backwardOrd B.m) B.m y0 ∧
      RunsTo sz S (backwardExec S base u) m0 (OnlyY m0 B.n y) ∧
      (Script.seq sz (seqLoop B.m (backwardOrd B.m) (rowKernel base u false)) .done).Ok m0
        (fun _ m' => OnlyY m0 B.n y m')) := by
  obtain ⟨lvl, hg, _⟩ := hb.good hA
  exact C34_backward_p2p h hg.levelled (coversBwd_mono hg.bwd hn) u

/-- C35 for every schedule built by the library. -/
theorem C35_library {S : Schedule} {sz : CArr → Int} {m0 : Mem (CTy R)} {base : Nat} {A B : Csr R} {dp ep : Nat → Nat} {ub : Bool} {L : List (List Nat)}
    {b idg y0 : Nat → R} (hA : Schedulable A dp ep) (hb : Built S A dp ep ub L) (hn : ∀ r q, r < S.m → q < S.m → B.Nbr r q → A.Nbr r q)
    (h : SolveSetup S sz m0 base B b idg y0) (u : Update) :
    Live sz S (forwardExec (R := R) S base u) m0 ∧ Live sz S (backwardExec (R := R) S base u) m0 := by
  obtain ⟨lvl, hg, _⟩ := hb.good hA
  exact C35_no_deadlock h hg.levelled (coversFwd_mono hg.fwd hn) (coversBwd_mono hg.bwd hn) u

/-- C36 for every schedule built by the library with useBarrier; `L` are the levels, every thread passes one barrier per level. -/
theorem C36_library {S : Schedule} {sz : CArr → Int} {m0 : Mem (CTy R)} {base : Nat} {A B : Csr R} {dp ep : Nat → Nat} {L : List (List Nat)}
    {b idg y0 : Nat → R} (hA : Schedulable A dp ep) (hb : Built S A dp ep true L) (hn : ∀ r q, r < S.m → q < S.m → B.Nbr r q → A.Nbr r q)
    (h : SolveSetup S sz m0 base B b idg y0) (u : Update) :
    (∀ t, t < S.T → fwdTasks S t = (List.range L.length).map (fun l => S.threadB t + l) ∧
      bwdTasks S t = (List.range L.length).map (fun l => S.threadB (t + 1) - 1 - l)) ∧
    (barrierFrom sz S.T (fwdPhase S) (rowKernel base u false) 0 L.length).Ok m0
      (fun _ m' => OnlyY m0 B.n (sweep (rowUpdate B b idg u false) forwardOrd B.m y0) m') ∧
    (barrierFrom sz S.T (bwdPhase S) (rowKernel base u true) 0 L.length).Ok m0
      (fun _ m' => OnlyY m0 B.n (sweep (rowUpdate B b idg u true) (backwardOrd B.m) B.m y0) m') := by
  obtain ⟨lvl, hg, hbar, _⟩ := hb.good hA
  refine C36_barrier h ⟨(hbar rfl).threadB, ?_⟩ u
  intro q r a b hqr hr hnb
  exact (hbar rfl).level q r a b hqr hr (hnb.imp (hn r q hr (by omega)) (hn q r (by omega) hr))

/-- C38 for every schedule built by the library. -/
theorem C38_library (hx : SubExchange R) {S : Schedule} {sz : CArr → Int} {m0 : Mem (CTy R)} {base : Nat}
    {A B B' : Csr R} {dp ep : Nat → Nat} {ub : Bool} {L : List (List Nat)} {b idg y0 : Nat → R}
    (hA : Schedulable A dp ep) (hb : Built S A dp ep ub L) (hn : ∀ r q, r < S.m → q < S.m → B.Nbr r q → A.Nbr r q)
    (hp : PermutedBy S.perm B B')
    (h : SolveSetup (noPerm S) sz m0 base B' (fun i => b (S.perm i)) (fun i => idg (S.perm i)) (fun i => y0 (S.perm i))) (u : Update) :
    RunsTo sz S (forwardExec (noPerm S) base u) m0
      (OnlyY m0 B.n (fun i => sweep (rowUpdate B b idg u false) forwardOrd B.m y0 (S.perm i))) ∧
    RunsTo sz S (backwardExec (noPerm S) base u) m0
      (OnlyY m0 B.n (fun i => sweep (rowUpdate B b idg u false) (backwardOrd B.m) B.m y0 (S.perm i))) := by
  obtain ⟨lvl, hg, _⟩ := hb.good hA
  obtain ⟨h1, h2⟩ := C38_reordered hx hp hg.tiling h hg.levelled u
  exact ⟨h1 (coversFwd_mono hg.fwd hn), h2 (coversBwd_mono hg.bwd hn)⟩

end

end SpMP.Props
