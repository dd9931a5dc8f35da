import Verif.TaskPartMain
import Mathlib.Data.List.GetD
/-
The permutation of a schedule does not depend on how the levels were found or on useBarrier (LevelSchedule.cpp:602-797).
-/
namespace SpMP
open Spec

/-- A level decomposition is determined up to the order of the rows within a level. -/
theorem levels_perm {dep : Nat → Nat → Prop} {m : Nat} {L L' : List (List Nat)} (h : LevelDecomp dep m L) (h' : LevelDecomp dep m L') :
    L.length = L'.length ∧ ∀ k, (L.getD k []).Perm (L'.getD k []) := by
  have hin : ∀ {L L' : List (List Nat)}, LevelDecomp dep m L → LevelDecomp dep m L' → ∀ k i, i ∈ L.getD k [] → i ∈ L'.getD k [] := by
    intro L L' h h' k i hi
    have hk : k < L.length := by
      by_contra hk
      rw [List.getD_eq_default _ _ (by omega)] at hi; exact absurd hi (by simp)
    have h1 : i ∈ L.flatten := by
      rw [List.getD_eq_getElem _ _ hk] at hi
      exact List.mem_flatten.2 ⟨_, List.getElem_mem hk, hi⟩
    have h2 : i ∈ L'.flatten := (h.rows.trans h'.rows.symm).mem_iff.1 h1
    obtain ⟨l, hl, hil⟩ := List.mem_flatten.1 h2
    obtain ⟨k', hk', rfl⟩ := List.getElem_of_mem hl
    have h3 : i ∈ L'.getD k' [] := by rw [List.getD_eq_getElem _ _ hk']; exact hil
    have := h.longest k i k' hi (h'.chain k' i h3)
    have := h'.longest k' i k h3 (h.chain k i hi)
    have : k' = k := by omega
    subst this; exact h3
  have hlen : ∀ {L L' : List (List Nat)}, LevelDecomp dep m L → LevelDecomp dep m L' → L.length ≤ L'.length := by
    intro L L' h h'
    by_contra hlt
    have hk : L'.length < L.length := by omega
    obtain ⟨i, hi⟩ := List.exists_mem_of_ne_nil _ (h.nonempty _ (List.getElem_mem hk))
    have := hin h h' L'.length i (by rw [List.getD_eq_getElem _ _ hk]; exact hi)
    rw [List.getD_eq_default _ _ (Nat.le_refl _)] at this; exact absurd this (by simp)
  have hnd : ∀ {L : List (List Nat)}, LevelDecomp dep m L → ∀ k, (L.getD k []).Nodup := by
    intro L h k
    by_cases hk : k < L.length
    · rw [List.getD_eq_getElem _ _ hk]
      have := (h.rows.nodup_iff.2 List.nodup_range)
      exact (List.nodup_flatten.1 this).1 _ (List.getElem_mem hk)
    · rw [List.getD_eq_default _ _ (by omega)]; exact List.nodup_nil
  refine ⟨Nat.le_antisymm (hlen h h') (hlen h' h), fun k => ?_⟩
  exact (List.perm_ext_iff_of_nodup (hnd h k) (hnd h' k)).2 fun i => ⟨hin h h' k i, hin h' h k i⟩

theorem sort_eq {l l' : List Nat} (h : l.Perm l') : l.insertionSort (· ≤ ·) = l'.insertionSort (· ≤ ·) :=
  List.Perm.eq_of_pairwise' (List.pairwise_insertionSort _ _) (List.pairwise_insertionSort _ _)
    (((List.perm_insertionSort _ l).trans h).trans (List.perm_insertionSort _ l').symm)

/-- Equal up to the order within the levels. -/
theorem sortLevels_eq {L L' : List (List Nat)} (h : L.length = L'.length ∧ ∀ k, (L.getD k []).Perm (L'.getD k [])) :
    sortLevels L = sortLevels L' := by
  unfold sortLevels
  refine List.ext_getElem (by simp [h.1]) fun k h1 h2 => ?_
  simp only [List.length_map] at h1 h2
  rw [List.getElem_map, List.getElem_map]
  have := h.2 k
  rw [List.getD_eq_getElem _ _ h1, List.getD_eq_getElem _ _ h2] at this
  exact sort_eq this

theorem allTasks_congr {agg : Bool} {T : Nat} {cost : Nat → Nat} {L L' : List (List Nat)}
    (h : L.length = L'.length ∧ ∀ k, (L.getD k []).Perm (L'.getD k [])) : allTasks agg T cost L = allTasks agg T cost L' := by
  have e := sortLevels_eq h
  unfold allTasks
  rw [h.1, e]
  congr 1
  funext l
  rw [← levIdx_sortLevels L, ← levIdx_sortLevels L', ← levIdx_sortLevels L, ← levIdx_sortLevels L', e]

theorem rows_tasksBefore (useBarrier : Bool) (rev : Nat → Nat) (tr : List (List (Nat × Nat))) (t : Nat) :
    taskRowsOf rev (tasksBefore useBarrier tr t) = taskRowsOf rev (tasksBefore true tr t) := by
  induction t with
  | zero => rfl
  | succ t ih => rw [tasksBefore_succ, tasksBefore_succ, taskRowsOf_append, taskRowsOf_append, taskRowsOf_kept, taskRowsOf_kept, ih]

theorem tasksBefore_pre (useBarrier : Bool) (tr : List (List (Nat × Nat))) {t u : Nat} (h : t ≤ u) :
    tasksBefore useBarrier tr t <+: tasksBefore useBarrier tr u := by
  induction u, h using Nat.le_induction with
  | base => exact List.prefix_refl _
  | succ u _ ih => rw [tasksBefore_succ]; exact ih.trans (List.prefix_append _ _)

/-- What a task partition contains, in terms of the tasks of the levels. -/
theorem partition_content {useBarrier agg : Bool} {T m : Nat} {cost : Nat → Nat} {L : List (List Nat)} {a0 : TaskArrays} {P : TaskPartition}
    (hT : 1 ≤ T) (hL : L.flatten.Perm (List.range m)) (hc : ∀ i, i < m → 0 < cost i)
    (hP : taskPartition useBarrier agg T m cost L a0 = some P) :
    ∃ tr, allTasks agg T cost L = some tr ∧
      (∀ p, p < m → (taskRowsOf (revOf (sortLevels L)) (tasksBefore true tr T))[p]? = some (P.sched.perm p)) ∧
      (∀ p i, (taskRowsOf (revOf (sortLevels L)) (tasksBefore true tr T))[p]? = some i → P.o2t i = p) ∧
      P.sched.threadB = overThreads (taskCnt useBarrier tr) ∧ P.sched.ntasks = (tasksBefore useBarrier tr T).length ∧ P.sched.m = m ∧
      P.sched.T = T ∧
      ∀ k, k ≤ P.sched.ntasks → P.sched.taskB k = (taskRowsOf (revOf (sortLevels L)) ((tasksBefore useBarrier tr T).take k)).length := by
  obtain ⟨tr, htr, hok⟩ := allTasks_ok (agg := agg) (cost := cost) (L := L) hT
    (fun i hi => hc i (List.mem_range.mp (hL.mem_iff.mp hi)))
  have hQperm : (taskRowsOf (revOf (sortLevels L)) (tasksBefore useBarrier tr T)).Perm (List.range m) := by
    have h1 := rows_perm (useBarrier := useBarrier) (rev := revOf (sortLevels L)) hok
    have h2 : sliceOf (revOf (sortLevels L)) (0, levIdx L L.length) = (sortLevels L).flatten := by
      rw [levIdx_all, ← (sortLevels_flatten_perm L).length_eq]
      exact sliceOf_revOf _
    rw [h2] at h1
    exact (h1.trans (sortLevels_flatten_perm L)).trans hL
  have hQl : (taskRowsOf (revOf (sortLevels L)) (tasksBefore useBarrier tr T)).length = m := by rw [hQperm.length_eq, List.length_range]
  have hF : Filled (revOf (sortLevels L)) (tasksBefore useBarrier tr T) (fillAll useBarrier (revOf (sortLevels L)) tr T a0) :=
    filled_fillAll T (hQperm.nodup_iff.mpr List.nodup_range)
  have hnt : overThreads (taskCnt useBarrier tr) T = (tasksBefore useBarrier tr T).length := overThreads_taskCnt _ _ _
  unfold taskPartition at hP
  rw [htr] at hP
  have hP := Option.some.inj hP
  subst hP
  refine ⟨tr, htr, ?_, ?_, rfl, hnt, rfl, rfl, ?_⟩
  · intro p hp
    rw [← rows_tasksBefore useBarrier, List.getElem?_eq_getElem (by omega)]
    exact congrArg some (hF.rows p _ (List.getElem?_eq_getElem (by omega))).1.symm
  · intro p i hp
    rw [← rows_tasksBefore useBarrier] at hp
    exact (hF.rows p i hp).2
  · intro k hk
    show setAt _ _ m k = _
    have hk : k ≤ overThreads (taskCnt useBarrier tr) T := hk
    unfold setAt
    split
    · next h => rw [h, hnt, List.take_length]; exact hQl.symm
    · exact hF.tasks k (by omega)

/-- Two partitions of the same levels, found in any order, with or without empty tasks: the permutations agree, and so do the rows where the
threads begin. -/
theorem partition_same {dep : Nat → Nat → Prop} {ub ub' agg : Bool} {T m : Nat} {cost : Nat → Nat} {L L' : List (List Nat)} {a0 a0' : TaskArrays}
    {P P' : TaskPartition} (hT : 1 ≤ T) (hL : LevelDecomp dep m L) (hL' : LevelDecomp dep m L') (hc : ∀ i, i < m → 0 < cost i)
    (hP : taskPartition ub agg T m cost L a0 = some P) (hP' : taskPartition ub' agg T m cost L' a0' = some P') :
    (∀ p, p < m → P.sched.perm p = P'.sched.perm p) ∧ (∀ i, i < m → P.o2t i = P'.o2t i) ∧
    (∀ t, t ≤ T → P.sched.taskB (P.sched.threadB t) = P'.sched.taskB (P'.sched.threadB t)) ∧
    (ub = ub' → P.sched.ntasks = P'.sched.ntasks ∧ (∀ t, P.sched.threadB t = P'.sched.threadB t) ∧
      ∀ k, k ≤ P.sched.ntasks → P.sched.taskB k = P'.sched.taskB k) := by
  have hp := levels_perm hL hL'
  obtain ⟨tr, h1, h2, h3, h4, h5, _, _, h6⟩ := partition_content hT hL.rows hc hP
  obtain ⟨tr', g1, g2, g3, g4, g5, _, _, g6⟩ := partition_content hT hL'.rows hc hP'
  rw [allTasks_congr hp, g1] at h1
  obtain rfl := Option.some.inj h1
  rw [sortLevels_eq hp] at h2 h3 h6
  have hstart : ∀ {ub : Bool} {P : TaskPartition}, P.sched.threadB = overThreads (taskCnt ub tr') → P.sched.ntasks = (tasksBefore ub tr' T).length →
      (∀ k, k ≤ P.sched.ntasks → P.sched.taskB k = (taskRowsOf (revOf (sortLevels L')) ((tasksBefore ub tr' T).take k)).length) →
      ∀ t, t ≤ T → P.sched.taskB (P.sched.threadB t) = (taskRowsOf (revOf (sortLevels L')) (tasksBefore true tr' t)).length := by
    intro ub P e1 e2 e3 t ht
    have hpre : tasksBefore ub tr' t <+: tasksBefore ub tr' T := tasksBefore_pre ub tr' ht
    have hlen : P.sched.threadB t = (tasksBefore ub tr' t).length := by rw [e1]; exact overThreads_taskCnt _ _ _
    rw [e3 _ (by rw [hlen, e2]; exact hpre.length_le), hlen, ← List.prefix_iff_eq_take.1 hpre, rows_tasksBefore]
  refine ⟨fun p hp => ?_, fun i hi => ?_, fun t ht => ?_, fun e => ?_⟩
  · have := h2 p hp
    rw [g2 p hp] at this
    exact (Option.some.inj this).symm
  · have hi' : i ∈ taskRowsOf (revOf (sortLevels L')) (tasksBefore true tr' T) := by
      obtain ⟨P'', lvl, e1, _, e3, e4, _⟩ := taskPartition_ok (useBarrier := ub') (agg := agg) (cost := cost) a0' hT hL'.rows hc
      rw [hP'] at e1
      obtain rfl := Option.some.inj e1
      obtain ⟨p, h7, h8⟩ := isPermFn_surj e4.tiling.perm i (by rw [e3]; exact hi)
      rw [e3] at h7
      rw [← h8]
      exact List.mem_of_getElem? (g2 p h7)
    obtain ⟨p, hp⟩ := List.mem_iff_getElem?.1 hi'
    rw [h3 p i hp, g3 p i hp]
  · rw [hstart h4 h5 h6 t ht, hstart g4 g5 g6 t ht]
  · subst e
    refine ⟨by rw [h5, g5], fun t => by rw [h4, g4], fun k hk => ?_⟩
    rw [h6 k hk, g6 k (by rw [g5, ← h5]; exact hk)]

end SpMP
