import Verif.ShortCnt
import Verif.Ladder
import Verif.TgPure
import Verif.Props.TasksEx

/-
C67: the numbers of parents fit the type they are kept in.
-/

namespace SpMP.Props
open SpMP SpMP.Spec

variable {R : Type}

/-! ### Lists of parents have no repetitions -/

theorem nodup_len {l : List Nat} (hn : l.Nodup) {n b : Nat} (h : ∀ a ∈ l, a < n ∧ a ≠ b) (hb : b < n) : l.length + 1 ≤ n := by
  have h1 : (b :: l).Nodup := List.nodup_cons.mpr ⟨fun hm => (h b hm).2 rfl, hn⟩
  have h2 : (b :: l).Subperm (List.range n) := h1.subperm (by
    intro x hx
    rcases List.mem_cons.mp hx with rfl | hx
    · exact List.mem_range.mpr hb
    · exact List.mem_range.mpr (h x hx).1)
  have := h2.length_le
  simpa using this

theorem appended_perm {l l' : List (Nat × Nat)} (h : l.Perm l') (c : Nat) : (appended l c).Perm (appended l' c) :=
  (h.filter _).map _

theorem appended_parents_nodup (n : Nat) {children : Nat → List Nat} (hn : ∀ j, (children j).Nodup) (c : Nat) :
    (appended (parentEvents n children) c).Nodup := by
  unfold parentEvents
  rw [appended_flatMap, List.nodup_flatMap]
  constructor
  · intro i _
    refine appended_one ?_ c
    rw [List.map_map]
    exact (List.map_id' (children i)).symm ▸ hn i
  · refine List.nodup_range.imp ?_
    intro a b hab x hx hx'
    rw [mem_appended] at hx hx'
    obtain ⟨_, _, e⟩ := List.mem_map.mp hx
    obtain ⟨_, _, e'⟩ := List.mem_map.mp hx'
    exact hab ((Prod.mk.inj e).2.trans (Prod.mk.inj e').2.symm)

/-- The lists of a schedule built by the library have no repetitions. -/
theorem Built.nodup {S : Schedule} {A : Csr R} {dp ep : Nat → Nat} {ub : Bool} {L : List (List Nat)} (hb : Built S A dp ep ub L) (b : Nat) :
    (S.parF b).Nodup ∧ (S.parB b).Nodup := by
  obtain ⟨_, agg, T, cost, a0, P, _, _, _, hS⟩ := hb
  have hadj : ∀ j, (taskAdj P.sched A dp ep j).Nodup := fun j => (taskAdj_sorted P.sched A dp ep j).imp (fun h => Nat.ne_of_lt h)
  rcases hS with ⟨ev, hev, rfl⟩ | ⟨ev, pev, _, hev, hpev, rfl⟩
  · refine ⟨?_, hadj b⟩
    show (taskInv ev b).Nodup
    unfold taskInv
    rw [(List.perm_insertionSort _ _).nodup_iff, (appended_perm hev b).nodup_iff]
    exact appended_nodup _ _ _ _ _ _
  · have hk : ∀ j, (reducedChildren P.sched A dp ep ev j).Nodup := fun j => (hadj j).filter _
    refine ⟨?_, hk b⟩
    show (appended pev b).Nodup
    rw [(appended_perm hpev b).nodup_iff]
    exact appended_parents_nodup _ hk b

/-- Parents are joined to their task by an entry of the matrix. -/
theorem Built.edges {S : Schedule} {A : Csr R} {dp ep : Nat → Nat} {ub : Bool} {L : List (List Nat)} (hA : Schedulable A dp ep) (hb : Built S A dp ep ub L)
    {b : Nat} (hbn : b < S.ntasks) : (∀ a ∈ S.parF b, Edge S A dp ep a b) ∧ (∀ a ∈ S.parB b, Edge S A dp ep b a) := by
  obtain ⟨hL, agg, T, cost, a0, P, hT, hc, hP, hS⟩ := hb
  obtain ⟨P', lvl, h1, h2, h3, h4, _⟩ := taskPartition_ok (useBarrier := ub) (agg := agg) (cost := cost) a0 hT hL.rows hc
  rw [hP] at h1
  obtain rfl := Option.some.inj h1
  have hp : Partitioned P.sched A dp ep L P.o2t lvl := ⟨h3, hA.split, hA.inner, hA.sym, hL, h4⟩
  rcases hS with ⟨ev, g1, rfl⟩ | ⟨ev, pev, g0, g1, g2, rfl⟩
  · refine ⟨fun a ha => ?_, fun a ha => (mem_taskAdj h4.tiling hp.row hp.col hbn).mp ha⟩
    have ha' : a ∈ taskInv ev b := ha
    rw [mem_taskInv, g1.mem_iff, mem_allInvEvents h4.tiling hp.row hp.col] at ha'
    rcases ha'.2 with h | ⟨_, h, _⟩
    · exact h
    · cases h
  · refine ⟨fun a ha => ?_, fun a ha => (mem_taskAdj h4.tiling hp.row hp.col hbn).mp (List.mem_filter.mp ha).1⟩
    have ha' : a ∈ appended pev b := ha
    rw [mem_appended, g2.mem_iff, mem_parentEvents] at ha'
    exact (mem_taskAdj h4.tiling hp.row hp.col ha'.1).mp (List.mem_filter.mp ha'.2).1

/-- Different tasks with rows are not more than the rows. -/
theorem tasks_len {S : Schedule} (hS : S.Tiling) {l : List Nat} (hn : l.Nodup) {b : Nat} (hne : b ∉ l) (hr : ∀ a ∈ l, ∃ i, S.RowIn a i)
    (hb : l ≠ [] → ∃ i, S.RowIn b i) : l = [] ∨ l.length + 1 ≤ S.m := by
  by_cases hl : l = []
  · exact .inl hl
  right
  have hall : ∀ a, ∃ i, a ∈ b :: l → S.RowIn a i := by
    intro a
    by_cases ha : a ∈ b :: l
    · rcases List.mem_cons.mp ha with rfl | ha'
      · obtain ⟨i, hi⟩ := hb hl; exact ⟨i, fun _ => hi⟩
      · obtain ⟨i, hi⟩ := hr a ha'; exact ⟨i, fun _ => hi⟩
    · exact ⟨0, fun h => absurd h ha⟩
  choose f hf using hall
  have h1 : ((b :: l).map f).Nodup := (List.nodup_map_iff_inj_on (List.nodup_cons.mpr ⟨hne, hn⟩)).mpr (fun x hx y hy e =>
    SpMP.rowIn_unique hS (hf x hx) (e ▸ hf y hy))
  have h2 := (h1.subperm (l₂ := List.range S.m) (by
    intro x hx
    obtain ⟨a, ha, rfl⟩ := List.mem_map.mp hx
    exact List.mem_range.mpr (rowIn_lt hS (hf a ha)).1)).length_le
  simpa using h2

/-- **C67, partial.**  If the matrix has at most 2^15 rows or the schedule has at most 2^15 tasks, the counts are the lengths
of the lists in both directions, whatever the matrix, the team, the options and the order of the concurrent appends; so an
execution sees exactly the lists that were built, and the schedule it sees guarantees all dependencies. -/
theorem C67_counts_partial {S : Schedule} {A : Csr R} {dp ep : Nat → Nat} {ub : Bool} {L : List (List Nat)}
    (hA : Schedulable A dp ep) (hb : Built S A dp ep ub L) (hn : A.m ≤ 32768 ∨ S.ntasks ≤ 32768) :
    (∀ b, b < S.ntasks → incr16^[(S.parF b).length] 0 = (S.parF b).length ∧ incr16^[(S.parB b).length] 0 = (S.parB b).length ∧
      toI16 (S.parF b).length = (S.parF b).length ∧ toI16 (S.parB b).length = (S.parB b).length ∧
      (asStored S).parF b = S.parF b ∧ (asStored S).parB b = S.parB b) ∧
    ∃ lvl, GoodSchedule (asStored S) A lvl := by
  obtain ⟨lvl, hg, _, hm, _⟩ := Built.good hA hb
  have hlen : ∀ b, b < S.ntasks → (S.parF b).length ≤ 32767 ∧ (S.parB b).length ≤ 32767 := by
    intro b hb'
    have hnd := Built.nodup hb b
    have hF : ∀ a ∈ S.parF b, a < S.ntasks ∧ a ≠ b := fun a ha => by
      have := hg.levelled.parF b a hb' ha
      refine ⟨this.1, ?_⟩
      rintro rfl; omega
    have hB : ∀ a ∈ S.parB b, a < S.ntasks ∧ a ≠ b := fun a ha => by
      have := hg.levelled.parB b a hb' ha
      refine ⟨this.1, ?_⟩
      rintro rfl; omega
    rcases hn with hn | hn
    · have he := Built.edges hA hb hb'
      have h1 := tasks_len hg.tiling hnd.1 (b := b) (fun h => (hF b h).2 rfl)
        (fun a ha => by obtain ⟨_, i, p, g, _⟩ := he.1 a ha; exact ⟨i, g⟩)
        (fun hne => by
          obtain ⟨a, ha⟩ := List.exists_mem_of_ne_nil _ hne
          obtain ⟨_, i, p, _, _, _, g⟩ := he.1 a ha; exact ⟨_, g⟩)
      have h2 := tasks_len hg.tiling hnd.2 (b := b) (fun h => (hB b h).2 rfl)
        (fun a ha => by obtain ⟨_, i, p, _, _, _, g⟩ := he.2 a ha; exact ⟨_, g⟩)
        (fun hne => by
          obtain ⟨a, ha⟩ := List.exists_mem_of_ne_nil _ hne
          obtain ⟨_, i, p, g, _⟩ := he.2 a ha; exact ⟨_, g⟩)
      constructor
      · rcases h1 with h1 | h1
        · rw [h1]; exact Nat.zero_le _
        · omega
      · rcases h2 with h2 | h2
        · rw [h2]; exact Nat.zero_le _
        · omega
    · have h1 := nodup_len hnd.1 hF hb'
      have h2 := nodup_len hnd.2 hB hb'
      omega
  have hF : ∀ b, b < S.ntasks → (asStored S).parF b = S.parF b := fun b h =>
    (readBack_small (l := S.parF b) (hlen b h).1 :)
  have hB : ∀ b, b < S.ntasks → (asStored S).parB b = S.parB b := fun b h =>
    (readBack_small (l := S.parB b) (hlen b h).2 :)
  refine ⟨fun b h => ⟨(count16 _).trans (toI16_small (hlen b h).1), (count16 _).trans (toI16_small (hlen b h).2), toI16_small (hlen b h).1, toI16_small (hlen b h).2, hF b h, hB b h⟩, lvl, ?_, ⟨?_, ?_, ?_⟩, ?_, ?_⟩
  · have := hg.tiling
    exact ⟨this.threadB_zero, this.threadB_mono, this.threadB_last, this.taskB_zero, this.taskB_mono, this.taskB_last, this.perm⟩
  · exact hg.levelled.thread
  · intro b p h hp; rw [hF b h] at hp; exact hg.levelled.parF b p h hp
  · intro b p h hp; rw [hB b h] at hp; exact hg.levelled.parB b p h hp
  · intro q r a b h1 h2 h3 h4 h5
    exact fwd_congr (S := S) (S' := asStored S) rfl rfl rfl (fun a b h hp => by rw [hF b h]; exact hp) (hg.fwd q r a b h1 h2 h3 h4 h5)
  · intro q r a b h1 h2 h3 h4 h5
    exact bwd_congr (S := S) (S' := asStored S) rfl rfl rfl (fun a b h hp => by rw [hB b h]; exact hp) (hg.bwd q r a b h1 h2 h3 h4 h5)

/-- The hypotheses are met: the example matrix of Verif/Props/TasksEx.lean and its schedule for two threads. -/
example : ∃ S, Built S vee veeDp veeEp false exLevels ∧ S.T = 2 ∧ ∃ lvl, GoodSchedule (asStored S) vee lvl := by
  obtain ⟨S, h, hT⟩ := vee_built
  exact ⟨S, h, hT, (C67_counts_partial vee_schedulable h (.inl (by decide))).2⟩

/-! ### Where they do not fit -/

theorem lad_schedulable (K : Nat) : Schedulable (ladA K) (adjDiag (2 * K) (ladAdj K)) (adjEnd (2 * K) (ladAdj K)) := by
  have hs := adjCsr_split (m := 2 * K) (ladAdj_refl K)
  refine ⟨hs, ?_, adjCsr_sym (ladAdj_symm K)⟩
  intro i p hi h1 h2
  have := hs.bounds i hi
  exact adjCsr_inner hi (by omega) h2

/-- A strictly increasing function from `0..K-1` into itself is the identity. -/
theorem incr_id {K : Nat} {f : Nat → Nat} (hm : ∀ a b, a < b → b < K → f a < f b) (hb : ∀ a, a < K → f a < K) :
    ∀ a, a < K → f a = a := by
  have h1 : ∀ a, a < K → a ≤ f a := by
    intro a
    induction a with
    | zero => intro _; exact Nat.zero_le _
    | succ a ih => intro h; have := ih (by omega); have := hm a (a + 1) (by omega) h; omega
  have h2 : ∀ d a, a + d + 1 = K → f a ≤ a := by
    intro d
    induction d with
    | zero => intro a h; have := hb a (by omega); omega
    | succ d ih => intro a h; have := ih (a + 1) (by omega); have := hm a (a + 1) (by omega) (by omega); omega
  intro a ha
  have := h1 a ha
  have := h2 (K - 1 - a) a (by omega)
  omega

/-- What is known of the partition of the example: thread 0 has tasks 0..K-1 and thread 1 has K..2K-1, one for each level. -/
structure LadPart (K : Nat) (S : Schedule) (inv lvl : Nat → Nat) : Prop where
  part : Partitioned S (ladA K) (adjDiag (2 * K) (ladAdj K)) (adjEnd (2 * K) (ladAdj K)) (ladL K) inv lvl
  ntasks : S.ntasks = 2 * K
  same : ∀ a b, a < 2 * K → b < 2 * K → (S.SameThread a b ↔ (a < K ↔ b < K))
  lvl0 : ∀ a, a < K → lvl a = a
  lvl1 : ∀ a, a < K → lvl (K + a) = a
  row : ∀ a, a < 2 * K → ∃ i, S.RowIn a i

theorem lad_part {K : Nat} (a0 : TaskArrays) : ∃ P lvl,
    taskPartition false false 2 (2 * K) (fun i => (ladA K).ptr (i + 1) - (ladA K).ptr i) (ladL K) a0 = some P ∧
    P.sched.T = 2 ∧ LadPart K P.sched P.o2t lvl := by
  have hL := ladL_levels K
  have hA := lad_schedulable K
  have hcost : ∀ i, (ladA K).ptr (i + 1) - (ladA K).ptr i = (adjCols (2 * K) (ladAdj K) i).length := by
    intro i; show (adjCsr _ _).ptr (i + 1) - (adjCsr _ _).ptr i = _; rw [adjCsr_ptr]; omega
  have hpos : ∀ i, i < 2 * K → 0 < (ladA K).ptr (i + 1) - (ladA K).ptr i := by
    intro i hi
    have := hA.split.bounds i hi
    omega
  obtain ⟨P, lvl, h1, h2, h3, h4, h5, h6, _⟩ := taskPartition_ok (useBarrier := false) (agg := false) (T := 2)
    (cost := fun i => (ladA K).ptr (i + 1) - (ladA K).ptr i) a0 (by omega) hL.rows hpos
  have htr := allTasks_ladL (K := K) hpos (fun l hl => by
    show (ladA K).ptr (2 * l + 1) - (ladA K).ptr (2 * l) = (ladA K).ptr (2 * l + 1 + 1) - (ladA K).ptr (2 * l + 1)
    rw [hcost, hcost]; exact ladCost hl)
  have hB : P.sched.threadB = overThreads (taskCnt false (ladTasks K)) ∧ P.sched.ntasks = overThreads (taskCnt false (ladTasks K)) 2 := by
    unfold taskPartition at h1
    rw [htr] at h1
    obtain rfl := Option.some.inj h1
    exact ⟨rfl, rfl⟩
  have t0 : P.sched.threadB 0 = 0 := by rw [hB.1]; rfl
  have t1 : P.sched.threadB 1 = K := by
    rw [hB.1]
    show [taskCnt false (ladTasks K) 0].sum = K
    rw [taskCnt_ladL (by omega)]; simp
  have t2 : P.sched.threadB 2 = 2 * K := by
    rw [hB.1]
    show [taskCnt false (ladTasks K) 0, taskCnt false (ladTasks K) 1].sum = 2 * K
    rw [taskCnt_ladL (by omega), taskCnt_ladL (by omega)]; simp; omega
  have hn : P.sched.ntasks = 2 * K := by rw [hB.2, ← t2, hB.1]
  have hsame : ∀ a b, a < 2 * K → b < 2 * K → (P.sched.SameThread a b ↔ (a < K ↔ b < K)) := by
    intro a b ha hb
    constructor
    · rintro ⟨t, ht, g⟩
      rw [h2] at ht
      have : t = 0 ∨ t = 1 := by omega
      rcases this with rfl | rfl
      · rw [t0, t1] at g; omega
      · rw [t1, t2] at g; omega
    · intro h
      by_cases hc : a < K
      · exact ⟨0, by omega, by rw [t0, t1]; omega⟩
      · exact ⟨1, by omega, by rw [t1, t2]; omega⟩
  rw [ladL_length] at h5
  refine ⟨P, lvl, h1, h2, ⟨⟨h3, hA.split, hA.inner, hA.sym, hL, h4⟩, hn, hsame, ?_, ?_, ?_⟩⟩
  · exact incr_id (fun a b hab hb => h4.order a b ((hsame a b (by omega) (by omega)).mpr (by omega)) hab) (fun a ha => h5 a (by omega))
  · exact incr_id (f := fun a => lvl (K + a)) (fun a b hab hb => h4.order _ _ ((hsame _ _ (by omega) (by omega)).mpr (by omega)) (by omega))
      (fun a ha => h5 _ (by omega))
  · intro a ha
    have := h6 rfl a (by omega)
    exact ⟨_, _, ⟨by omega, Nat.le_refl _, this⟩, rfl⟩

section
variable {K : Nat} {S : Schedule} {inv lvl : Nat → Nat}

theorem LadPart.half (h : LadPart K S inv lvl) {a i : Nat} (hr : S.RowIn a i) : i / 2 = lvl a :=
  (mem_ladL.mp (h.part.tasks.level a i hr)).2

/-- Between which tasks of the example there is an edge. -/
theorem LadPart.edge (h : LadPart K S inv lvl) {a b : Nat} (ha : a < 2 * K) (hb : b < 2 * K) :
    Edge S (ladA K) (adjDiag (2 * K) (ladAdj K)) (adjEnd (2 * K) (ladAdj K)) a b ↔
      ¬ (a < K ↔ b < K) ∧ lvl a < lvl b ∧ ladLev K (lvl a) (lvl b) = true := by
  constructor
  · intro he
    obtain ⟨hns, i, p, h1, h2, h3, h4⟩ := he
    rw [h.same a b ha hb] at hns
    have hi := (rowIn_lt h.part.tasks.tiling h1).1
    have hc := (rowIn_lt h.part.tasks.tiling h4).1
    rw [h.part.rows] at hi hc
    have hbd := h.part.split.bounds i hi
    have hup := h.part.split.upper i p hi h2 h3
    have hd : Dep (ladA K) i ((ladA K).col p) := ⟨hup, h.part.sym i _ hi hc ⟨p, ⟨hi, by omega, by omega⟩, rfl⟩⟩
    have := ladDep.mp hd
    rw [h.half h1, h.half h4] at this
    exact ⟨hns, this.1, this.2.2⟩
  · rintro ⟨h1, h2, h3⟩
    obtain ⟨i, hi⟩ := h.row a ha
    obtain ⟨j, hj⟩ := h.row b hb
    have ei := h.half hi
    have ej := h.half hj
    have hjm := (rowIn_lt h.part.tasks.tiling hj).1
    have hjm' : j < 2 * K := by rw [h.part.rows] at hjm; exact hjm
    have hd : Dep (ladA K) i j := ladDep.mpr ⟨by omega, hjm', by rw [ei, ej]; exact h3⟩
    exact (h.part.edge hd.1 hjm (.inl hd.2) hi hj).2 (by rw [h.same a b ha hb]; exact h1)

/-- The lists of the last task. -/
structure LadLast (K : Nat) (l : List Nat) : Prop where
  nodup : l.Nodup
  only : ∀ a ∈ l, a < K ∧ a % 2 = 0
  all : ∀ a, a % 2 = 0 → a + 3 < K → a ∈ l

theorem LadLast.long {l : List Nat} (h : LadLast 65540 l) : 32768 ≤ l.length ∧ l.length ≤ 65535 := by
  have hmap : ∀ n, ((List.range n).map (2 * ·)).Nodup := fun n =>
    List.nodup_range.map (fun a b (hab : 2 * a = 2 * b) => by omega)
  constructor
  · have h1 := ((hmap 32768).subperm (l₂ := l) (by
      intro x hx
      obtain ⟨y, hy, rfl⟩ := List.mem_map.mp hx
      have := List.mem_range.mp hy
      exact h.all _ (by omega) (by omega))).length_le
    rw [List.length_map, List.length_range] at h1
    exact h1
  · have h1 := (h.nodup.subperm (l₂ := (List.range 32770).map (2 * ·)) (by
      intro x hx
      have := h.only x hx
      exact List.mem_map.mpr ⟨x / 2, List.mem_range.mpr (by omega), by show 2 * (x / 2) = x; omega⟩)).length_le
    rw [List.length_map, List.length_range] at h1
    exact Nat.le_trans h1 (by omega)

theorem LadPart.plain (h : LadPart K S inv lvl) (hK : 4 ≤ K) (he : K % 2 = 0) {ev : List (Nat × Nat)}
    (hev : ev.Perm (allInvEvents S (ladA K) (adjDiag (2 * K) (ladAdj K)) (adjEnd (2 * K) (ladAdj K)) false)) :
    LadLast K (taskInv ev (2 * K - 1)) := by
  have hm : ∀ a, a ∈ taskInv ev (2 * K - 1) ↔ a < K ∧ a < K - 1 ∧ (a + 1 = K - 1 ∨ a % 2 = 0) := by
    intro a
    rw [mem_taskInv, hev.mem_iff, mem_allInvEvents h.part.tasks.tiling h.part.row h.part.col, h.ntasks]
    have hl : lvl (2 * K - 1) = K - 1 := by have := h.lvl1 (K - 1) (by omega); rw [show K + (K - 1) = 2 * K - 1 from by omega] at this; exact this
    constructor
    · rintro ⟨h1, h2 | ⟨_, h2, _⟩⟩
      · obtain ⟨g1, g2, g3⟩ := (h.edge h1 (by omega)).mp h2
        have ha : a < K := by omega
        rw [hl, h.lvl0 a ha] at g2 g3
        have := (ladLev_iff g2 (by omega)).mp g3
        omega
      · cases h2
    · rintro ⟨h1, h2, h3⟩
      refine ⟨by omega, .inl ((h.edge (by omega) (by omega)).mpr ?_)⟩
      rw [hl, h.lvl0 a h1]
      refine ⟨by omega, h2, (ladLev_iff h2 (by omega)).mpr ?_⟩
      omega
  refine ⟨?_, ?_, ?_⟩
  · unfold taskInv
    rw [(List.perm_insertionSort _ _).nodup_iff, (appended_perm hev _).nodup_iff]
    exact appended_nodup _ _ _ _ _ _
  · intro a ha; have := (hm a).mp ha; omega
  · intro a h1 h2; exact (hm a).mpr (by omega)

theorem LadPart.reduced (h : LadPart K S inv lvl) (hK : 4 ≤ K) (he : K % 2 = 0) {ev pev : List (Nat × Nat)}
    (hev : ev.Perm (allInvEvents S (ladA K) (adjDiag (2 * K) (ladAdj K)) (adjEnd (2 * K) (ladAdj K)) true))
    (hpev : pev.Perm (parentEvents S.ntasks (reducedChildren S (ladA K) (adjDiag (2 * K) (ladAdj K)) (adjEnd (2 * K) (ladAdj K)) ev))) :
    LadLast K (appended pev (2 * K - 1)) := by
  have hS := h.part.tasks.tiling
  have hl : lvl (2 * K - 1) = K - 1 := by have := h.lvl1 (K - 1) (by omega); rw [show K + (K - 1) = 2 * K - 1 from by omega] at this; exact this
  have hl' : lvl (2 * K - 2) = K - 2 := by have := h.lvl1 (K - 2) (by omega); rw [show K + (K - 2) = 2 * K - 2 from by omega] at this; exact this
  have hadj : ∀ j, (taskAdj S (ladA K) (adjDiag (2 * K) (ladAdj K)) (adjEnd (2 * K) (ladAdj K)) j).Nodup :=
    fun j => (taskAdj_sorted _ _ _ _ j).imp (fun h => Nat.ne_of_lt h)
  have hlast : ∀ a, a < 2 * K → Edge S (ladA K) (adjDiag (2 * K) (ladAdj K)) (adjEnd (2 * K) (ladAdj K)) a (2 * K - 1) →
      a < K ∧ a < K - 1 ∧ (a + 1 = K - 1 ∨ a % 2 = 0) := by
    intro a h1 h2
    obtain ⟨g1, g2, g3⟩ := (h.edge h1 (by omega)).mp h2
    have ha : a < K := by omega
    rw [hl, h.lvl0 a ha] at g2 g3
    have := (ladLev_iff g2 (by omega)).mp g3
    omega
  refine ⟨?_, ?_, ?_⟩
  · rw [(appended_perm hpev _).nodup_iff]
    exact appended_parents_nodup _ (fun j => (hadj j).filter _) _
  · intro a ha
    rw [mem_appended, hpev.mem_iff, mem_parentEvents, h.ntasks] at ha
    have := hlast a ha.1 ((mem_taskAdj hS h.part.row h.part.col (by rw [h.ntasks]; exact ha.1)).mp (List.mem_filter.mp ha.2).1)
    omega
  · intro a h1 h2
    rw [mem_appended, hpev.mem_iff, mem_parentEvents, h.ntasks]
    refine ⟨by omega, List.mem_filter.mpr ⟨(mem_taskAdj hS h.part.row h.part.col (by rw [h.ntasks]; omega)).mpr ((h.edge (by omega) (by omega)).mpr ?_), ?_⟩⟩
    · rw [hl, h.lvl0 a (by omega)]
      exact ⟨by omega, by omega, (ladLev_iff (by omega) (by omega)).mpr (by omega)⟩
    · obtain ⟨ts, tm⟩ := tempAdj_spec (S := S) (t := threadOf S a) (j := a) (taskAdj_sorted S (ladA K) (adjDiag (2 * K) (ladAdj K)) (adjEnd (2 * K) (ladAdj K)) a)
      have hno : toRemove (taskInv ev (2 * K - 1)) (tempAdj S (threadOf S a) a (taskAdj S (ladA K) (adjDiag (2 * K) (ladAdj K)) (adjEnd (2 * K) (ladAdj K)) a)) ≠ true := by
        rw [ne_eq, toRemove_iff (taskInv_sorted ev _) ts]
        rintro ⟨x, hx, hx'⟩
        rw [mem_taskInv, hev.mem_iff, mem_allInvEvents hS h.part.row h.part.col, h.ntasks] at hx
        rw [tm, mem_taskAdj hS h.part.row h.part.col (by rw [h.ntasks]; omega)] at hx'
        obtain ⟨x1, x2⟩ := hx
        rcases hx' with hx' | ⟨hx', _⟩
        · obtain ⟨g1, g2, g3⟩ := (h.edge (by omega) x1).mp hx'
          rcases x2 with x2 | ⟨x2, _⟩
          · have := hlast x x1 x2; omega
          · have ex : x = 2 * K - 2 := by omega
            subst ex
            rw [hl', h.lvl0 a (by omega)] at g2 g3
            have := (ladLev_iff g2 (by omega)).mp g3
            omega
        · subst hx'
          rcases x2 with x2 | ⟨x2, _⟩
          · have := hlast _ x1 x2; omega
          · omega
      simpa using hno

/-- If the last task's list is lost, the last task does not wait for the other thread's last task but one. -/
theorem LadPart.lost (h : LadPart K S inv lvl) (hK : 4 ≤ K) {S' : Schedule} (hg : GoodSchedule S' (ladA K) lvl)
    (e1 : S'.T = S.T) (e2 : S'.threadB = S.threadB) (e3 : S'.ntasks = S.ntasks) (e4 : S'.m = S.m) (e5 : S'.taskB = S.taskB) (e6 : S'.perm = S.perm)
    (hlost : readBack (S'.parF (2 * K - 1)) = []) : ¬ (asStored S').CoversFwd (ladA K).Nbr := by
  intro hcov
  have hl : lvl (2 * K - 1) = K - 1 := by have := h.lvl1 (K - 1) (by omega); rw [show K + (K - 1) = 2 * K - 1 from by omega] at this; exact this
  have hsame : ∀ a b, (asStored S').SameThread a b → S.SameThread a b := by
    rintro a b ⟨t, ht, g⟩
    refine ⟨t, by rw [← e1]; exact ht, ?_⟩
    rw [← e2]; exact g
  have hrow : ∀ a i, S.RowIn a i → (asStored S').RowIn a i := by
    rintro a i ⟨p, ⟨g1, g2, g3⟩, g4⟩
    refine ⟨p, ⟨?_, ?_, ?_⟩, ?_⟩
    · show _ < S'.ntasks; rw [e3]; exact g1
    · show S'.taskB _ ≤ _; rw [e5]; exact g2
    · show _ < S'.taskB _; rw [e5]; exact g3
    · show S'.perm _ = _; rw [e6]; exact g4
  have hlv : ∀ a b, (asStored S').Fwd a b → lvl a < lvl b := by
    intro a b hf
    induction hf with
    | parent h1 h2 => exact (hg.levelled.parF _ _ h1 (mem_readBack h2)).2
    | thread h1 h2 => exact h.part.tasks.order _ _ (hsame _ _ h1) h2
    | trans _ _ i1 i2 => exact Nat.lt_trans i1 i2
  have hlast : ∀ a b, (asStored S').Fwd a b → b = 2 * K - 1 → lvl a + 2 < K ∨ K ≤ a := by
    intro a b hf
    induction hf with
    | parent h1 h2 =>
      rintro rfl
      exact absurd h2 (by show ¬ _ ∈ readBack (S'.parF (2 * K - 1)); rw [hlost]; simp)
    | @thread a b h1 h2 =>
      rintro rfl
      have := (h.same a (2 * K - 1) (by omega) (by omega)).mp (hsame _ _ h1)
      right; omega
    | @trans a b c hab hbc _ i2 =>
      intro hc
      have h1 := hlv _ _ hab
      have h2 := hlv _ _ hbc
      rw [hc, hl] at h2
      left; omega
  obtain ⟨i, hi⟩ := h.row (K - 2) (by omega)
  obtain ⟨j, hj⟩ := h.row (2 * K - 1) (by omega)
  have ei := h.half hi
  have ej := h.half hj
  have hl0 := h.lvl0 (K - 2) (by omega)
  have hjm := (rowIn_lt h.part.tasks.tiling hj).1
  have hjm' : j < 2 * K := by rw [h.part.rows] at hjm; exact hjm
  have hd : Dep (ladA K) i j := ladDep.mpr ⟨by omega, hjm', by rw [ei, ej, hl, hl0]; exact (ladLev_iff (by omega) (by omega)).mpr (by omega)⟩
  have := hlast _ _ (hcov i j (K - 2) (2 * K - 1) hd.1 (by show j < S'.m; rw [e4]; exact hjm) (.inl hd.2) (hrow _ _ hi) (hrow _ _ hj)) rfl
  omega

end

/-- **C67 is false of the code.**  There is a well-formed symmetric matrix without duplicates with 131080 rows, and a level
decomposition of it (the only one), such that the library's partition of it on two threads succeeds and, with it, whatever
the uninitialised memory and the order of the concurrent appends, with or without transitive reduction, some task's number
of parents is stored as a negative number, an execution sees none of its parents, and the schedule that an execution sees
does not order all dependent rows: a row of that task may be computed before a row it depends on. -/
theorem C67_short_counts_false : ∃ (A : Csr Int) (dp ep : Nat → Nat) (L : List (List Nat)),
    Schedulable A dp ep ∧ A.WF ∧ NoDup A ∧ A.m = 131080 ∧ LevelDecomp (Dep A) A.m L ∧
    (∀ a0, ∃ P, taskPartition false false 2 A.m (fun i => A.ptr (i + 1) - A.ptr i) L a0 = some P) ∧
    ∀ a0 P, taskPartition false false 2 A.m (fun i => A.ptr (i + 1) - A.ptr i) L a0 = some P → ∀ S : Schedule,
      ((∃ ev : List (Nat × Nat), ev.Perm (allInvEvents P.sched A dp ep false) ∧ S = graphPlain P.sched A dp ep ev) ∨
       (∃ ev pev : List (Nat × Nat), ev.Perm (allInvEvents P.sched A dp ep true) ∧
         pev.Perm (parentEvents P.sched.ntasks (reducedChildren P.sched A dp ep ev)) ∧ S = graphReduced P.sched A dp ep ev pev)) →
      (∃ b, b < S.ntasks ∧ S.parF b ≠ [] ∧ toI16 (S.parF b).length < 0 ∧ (asStored S).parF b = []) ∧
      S.CoversFwd A.Nbr ∧ ¬ (asStored S).CoversFwd A.Nbr := by
  obtain ⟨K, hK⟩ : ∃ K, K = 65540 := ⟨_, rfl⟩
  refine ⟨ladA K, adjDiag (2 * K) (ladAdj K), adjEnd (2 * K) (ladAdj K), ladL K, lad_schedulable K, adjCsr_wf, adjCsr_noDup, ?_, ladL_levels K, ?_, ?_⟩
  · show 2 * K = 131080; rw [hK]
  · intro a0
    obtain ⟨P, _, h, _⟩ := lad_part (K := K) a0
    exact ⟨P, h⟩
  · intro a0 P hP S hS
    obtain ⟨P', lvl, h, _, hp⟩ := lad_part (K := K) a0
    obtain rfl : P' = P := Option.some.inj (h.symm.trans hP)
    have key : ∀ hS' : GoodSchedule S (ladA K) lvl, S.T = P'.sched.T → S.threadB = P'.sched.threadB → S.ntasks = P'.sched.ntasks →
        S.m = P'.sched.m → S.taskB = P'.sched.taskB → S.perm = P'.sched.perm → LadLast K (S.parF (2 * K - 1)) →
        (∃ b, b < S.ntasks ∧ S.parF b ≠ [] ∧ toI16 (S.parF b).length < 0 ∧ (asStored S).parF b = []) ∧
        S.CoversFwd (ladA K).Nbr ∧ ¬ (asStored S).CoversFwd (ladA K).Nbr := by
      intro hg e1 e2 e3 e4 e5 e6 hll
      have hlen := (hK ▸ hll : LadLast 65540 (S.parF (2 * K - 1))).long
      have hrb := readBack_large hlen.1 hlen.2
      refine ⟨⟨2 * K - 1, by rw [e3, hp.ntasks]; omega, ?_, ?_, hrb⟩, hg.fwd, hp.lost (by omega) hg e1 e2 e3 e4 e5 e6 hrb⟩
      · intro e; rw [e] at hlen; simp at hlen
      · rw [toI16_large hlen.1 hlen.2]; omega
    rcases hS with ⟨ev, hev, rfl⟩ | ⟨ev, pev, hev, hpev, rfl⟩
    · exact key (good_plain hp.part hev) rfl rfl rfl rfl rfl rfl (hp.plain (by omega) (by omega) hev)
    · exact key (good_reduced hp.part hev hpev) rfl rfl rfl rfl rfl rfl (hp.reduced (by omega) (by omega) hev hpev)

end SpMP.Props
