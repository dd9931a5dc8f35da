import Verif.Props.TaskGraphMem
import Verif.Props.MMCrd
/-
C31 is false for schedules built with useBarrier and transitiveReduction together: a task without rows (there are such tasks only with
useBarrier) gets no room in the buffer of the inverse lists, its list and that of the next task overlap (LevelSchedule.cpp:917-926), and
the reduction drops an edge that nothing else implies.
-/

namespace SpMP.Props
open SpMP SpMP.Spec

/-- Six rows: the rows 1, 3 and 4 depend on row 0, the rows 3 and 5 on row 2, row 5 on row 1. -/
def barA : Csr Int :=
  ⟨6, 6, fun i => ([0, 4, 7, 10, 13, 15, 18] : List Nat).getD i 18, fun j => ([0, 1, 3, 4, 0, 1, 5, 2, 3, 5, 0, 2, 3, 0, 4, 1, 2, 5] : List Nat).getD j 0, fun _ => 1⟩

def barDp (i : Nat) : Nat := ([0, 5, 7, 12, 14, 17] : List Nat).getD i 0
def barEp (i : Nat) : Nat := barA.ptr (i + 1)
def barL : List (List Nat) := [[0, 2], [1, 3, 4], [5]]
def barLv (i : Nat) : Nat := ([0, 1, 0, 1, 1, 2] : List Nat).getD i 0

theorem bar_wf : barA.WF := by
  refine ⟨rfl, ?_, ?_⟩
  · have : ∀ i < 6, barA.ptr i ≤ barA.ptr (i + 1) := by decide
    exact fun i hi => this i hi
  · have : ∀ j < 18, barA.col j < 6 := by decide
    exact fun j hj => this j hj

theorem bar_schedulable : Schedulable barA barDp barEp := by
  have hb : ∀ i < 6, barA.ptr i ≤ barDp i ∧ barDp i < barEp i ∧ barEp i ≤ barA.ptr (i + 1) ∧ barEp i ≤ 18 := by decide
  have hd : ∀ i < 6, barA.col (barDp i) = i := by decide
  have hl : ∀ i < 6, ∀ p < 18, barA.ptr i ≤ p → p < barDp i → barA.col p < i := by decide +kernel
  have hu : ∀ i < 6, ∀ p < 18, barDp i < p → p < barEp i → i < barA.col p := by decide +kernel
  have hc : ∀ p < 18, barA.col p < 6 := by decide +kernel
  refine ⟨⟨fun i hi => ⟨(hb i hi).1, (hb i hi).2.1, (hb i hi).2.2.1⟩, hd, ?_, ?_, ?_⟩, ?_, ?_⟩
  · intro i p hi h1 h2
    have := hb i hi
    exact hl i hi p (by omega) h1 h2
  · intro i p hi h1 h2
    have := hb i hi
    exact hu i hi p (by omega) h1 h2
  · intro i p hi h1 h2
    have h1 : barA.ptr (i + 1) ≤ p := h1
    omega
  · intro i p hi h1 h2
    have := hb i hi
    exact hc p (by omega)
  · intro i j _ _ ⟨p, hp, hj⟩
    obtain ⟨q, h1, h2⟩ := patSym_of_check bar_wf (by decide +kernel) i p hp
    rw [hj] at h1
    exact ⟨q, h1, h2⟩

theorem bar_noDup : NoDup barA := noDup_of_check bar_wf (by decide +kernel)

theorem bar_lower : ((inRowPairs barA).all fun x => !(decide (barA.col x.2 < x.1)) || [(1, 0), (3, 0), (3, 2), (4, 0), (5, 1), (5, 2)].contains (x.1, barA.col x.2)) = true := by
  decide +kernel

theorem bar_dep {j i : Nat} (h : Dep barA j i) : i < 6 ∧ barLv j < barLv i ∧ (i, j) ∈ [(1, 0), (3, 0), (3, 2), (4, 0), (5, 1), (5, 2)] := by
  obtain ⟨hlt, p, hp, hc⟩ := h
  have hi : i < 6 := hp.1
  have h := List.all_eq_true.1 bar_lower _ (mem_inRowPairs bar_wf hp)
  rw [Bool.or_eq_true, List.contains_iff_mem] at h
  replace h := h.resolve_left (by simp; omega)
  replace h : (i, barA.col p) ∈ _ := h
  rw [hc] at h
  refine ⟨hi, ?_, h⟩
  simp only [List.mem_cons, Prod.mk.injEq, List.not_mem_nil, or_false] at h
  rcases h with ⟨rfl, rfl⟩ | ⟨rfl, rfl⟩ | ⟨rfl, rfl⟩ | ⟨rfl, rfl⟩ | ⟨rfl, rfl⟩ | ⟨rfl, rfl⟩ <;> decide

theorem bar_chain {k i : Nat} (h : Chain (Dep barA) k i) : k ≤ barLv i := by
  induction h with
  | start i => exact Nat.zero_le _
  | step _ hd ih => have := (bar_dep hd).2.1; omega

theorem bar_levels : LevelDecomp (Dep barA) 6 barL := by
  have hm : ∀ k i, i ∈ barL.getD k [] → k = barLv i ∧ i < 6 := by
    intro k i h
    match k with
    | 0 => have h : i ∈ [0, 2] := h; simp at h; rcases h with rfl | rfl <;> decide
    | 1 => have h : i ∈ [1, 3, 4] := h; simp at h; rcases h with rfl | rfl | rfl <;> decide
    | 2 => have h : i ∈ [5] := h; simp at h; subst h; decide
    | k + 3 => have h : i ∈ ([] : List Nat) := h; simp at h
  have hd : ∀ j i, i < 6 → barA.ptr i ≤ j → j < barA.ptr (i + 1) → barA.col j < i → Dep barA (barA.col j) i :=
    fun j i h1 h2 h3 h4 => ⟨h4, j, ⟨h1, h2, h3⟩, rfl⟩
  have c1 : Chain (Dep barA) 1 1 := .step (.start 0) (hd 4 1 (by decide) (by decide) (by decide) (by decide))
  refine ⟨by decide, by decide, ?_, ?_, ?_⟩
  · intro k i j hi hdep
    obtain ⟨rfl, _⟩ := hm k i hi
    obtain ⟨_, h2, h3⟩ := bar_dep hdep
    refine ⟨barLv j, h2, ?_⟩
    simp only [List.mem_cons, Prod.mk.injEq, List.not_mem_nil, or_false] at h3
    rcases h3 with ⟨rfl, rfl⟩ | ⟨rfl, rfl⟩ | ⟨rfl, rfl⟩ | ⟨rfl, rfl⟩ | ⟨rfl, rfl⟩ | ⟨rfl, rfl⟩ <;> decide
  · intro k i hi
    obtain ⟨rfl, h⟩ := hm k i hi
    rcases (by omega : i = 0 ∨ i = 1 ∨ i = 2 ∨ i = 3 ∨ i = 4 ∨ i = 5) with rfl | rfl | rfl | rfl | rfl | rfl
    · exact .start 0
    · exact c1
    · exact .start 2
    · exact .step (.start 0) (hd 10 3 (by decide) (by decide) (by decide) (by decide))
    · exact .step (.start 0) (hd 13 4 (by decide) (by decide) (by decide) (by decide))
    · exact .step c1 (hd 15 5 (by decide) (by decide) (by decide) (by decide))
  · intro k i k' hi hc
    obtain ⟨rfl, _⟩ := hm k i hi
    exact bar_chain hc

/-- The partition of the levels for three threads with useBarrier: three tasks per thread, the tasks 5, 6 and 8 have no rows. -/
def barS : Schedule where
  T := 3
  ntasks := 9
  m := 6
  threadB := fun t => 3 * t
  taskB := fun k => ([0, 1, 2, 3, 4, 5, 5, 5, 6, 6] : List Nat).getD k 6
  perm := fun p => ([0, 1, 5, 2, 3, 4] : List Nat).getD p 0
  parF := fun _ => []
  parB := fun _ => []

/-- It is the partition that the library computes (boundaries and permutation). -/
theorem barS_library : (taskPartition true false 3 6 (fun i => barA.ptr (i + 1) - barA.ptr i) barL ⟨fun _ => 0, fun _ => 0, fun _ => 0⟩).map (fun P =>
    (P.sched.ntasks, (List.range 4).map P.sched.threadB, (List.range 10).map P.sched.taskB, (List.range 6).map P.sched.perm)) =
    some (9, (List.range 4).map barS.threadB, (List.range 10).map barS.taskB, (List.range 6).map barS.perm) := by decide +kernel

set_option maxRecDepth 100000 in
/-- The number of forward parents of the tasks 6 and 7 after a run in which the threads work one after the other. -/
theorem bar_run : ((taskGraph (R := Int) (fun _ => 1000) true true 0 3 6 9).run (tgStart barS barA barDp barEp 0)).map
    (fun x => (x.2 (.itmp 40) 6, x.2 (.itmp 40) 7)) = some (some (0 : Int), some (0 : Int)) := by decide +kernel

theorem barS_tiling : barS.Tiling := by
  refine ⟨rfl, ?_, rfl, rfl, ?_, rfl, ?_, ?_⟩
  · intro t _
    show 3 * t ≤ 3 * (t + 1)
    omega
  · have : ∀ k < 9, barS.taskB k ≤ barS.taskB (k + 1) := by decide
    exact this
  · have : ∀ p < 6, barS.perm p < 6 := by decide
    exact this
  · have : ∀ p < 6, ∀ q < 6, barS.perm p = barS.perm q → p = q := by decide
    exact fun p q hp hq => this p hp q hq

/-- C31 is false with useBarrier and transitiveReduction together. The matrix meets every demand, `barL` are its levels, `barS` is the partition the
library computes for three threads with the default costs. Row 4 (task 7) depends on row 0 (task 0): with the parents that a run of
constructTaskGraph_ leaves in memory nothing makes task 7 wait for task 0. -/
theorem C31_barrier_reduction_false : Schedulable barA barDp barEp ∧ barA.WF ∧ NoDup barA ∧ LevelDecomp (Dep barA) 6 barL ∧ barS.Tiling ∧
    TgIn barS barA barDp barEp 0 true (tgStart barS barA barDp barEp 0) ∧
    ¬ (taskGraph (R := Int) (fun _ => 1000) true true 0 3 6 9).Ok (tgStart barS barA barDp barEp 0) (fun _ m =>
      ∃ S' : Schedule, S' = { barS with parF := S'.parF, parB := S'.parB } ∧ HasParents S' m ∧ S'.CoversFwd barA.Nbr) := by
  refine ⟨bar_schedulable, bar_wf, bar_noDup, bar_levels, barS_tiling, tgStart_in barS bar_schedulable.split 0, ?_⟩
  intro h
  obtain ⟨_, m, hm, S, hS, hpar, hcov⟩ := ok_run_proj h (fun _ m => (m (.itmp 40) 6, m (.itmp 40) 7)) bar_run
  have e6 : m (.itmp 40) 6 = some (0 : Int) := congrArg Prod.fst hm
  have e7 : m (.itmp 40) 7 = some (0 : Int) := congrArg Prod.snd hm
  have hnt : S.ntasks = 9 := by rw [hS]; rfl
  have p6 : S.parF 6 = [] := by
    have := (hpar 6 (by omega)).1
    rw [show ((6 : Nat) : Int) = 6 from rfl, e6] at this
    have := (Option.some.inj this : (0 : Int) = _)
    exact List.length_eq_zero_iff.mp (by omega)
  have p7 : S.parF 7 = [] := by
    have := (hpar 7 (by omega)).1
    rw [show ((7 : Nat) : Int) = 7 from rfl, e7] at this
    have := (Option.some.inj this : (0 : Int) = _)
    exact List.length_eq_zero_iff.mp (by omega)
  have hT : S.T = 3 := by rw [hS]; rfl
  have htb : S.threadB = fun t => 3 * t := by rw [hS]; rfl
  have hf : ∀ a b, S.Fwd a b → b = 6 ∨ b = 7 → a = 6 := by
    intro a b hab
    induction hab with
    | parent _ hp =>
      rintro (rfl | rfl)
      · rw [p6] at hp; simp at hp
      · rw [p7] at hp; simp at hp
    | thread hst hlt =>
      obtain ⟨t, ht, h1, h2, h3, h4⟩ := hst
      rw [htb] at h1 h2 h3 h4
      have h1 : 3 * t ≤ _ := h1
      have h3 : 3 * t ≤ _ := h3
      have h4 : _ < 3 * (t + 1) := h4
      rintro (rfl | rfl) <;> omega
    | trans _ _ ih1 ih2 => exact fun hb => ih1 (Or.inl (ih2 hb))
  have hr : ∀ k i p, k < 9 → barS.taskB k ≤ p → p < barS.taskB (k + 1) → barS.perm p = i → S.RowIn k i := by
    intro k i p h1 h2 h3 h4
    rw [hS]
    exact ⟨p, ⟨h1, h2, h3⟩, h4⟩
  have := hcov 0 4 0 7 (by decide) (by rw [hS]; show 4 < 6; decide) (Or.inl ?_) (hr 0 0 0 (by decide) (by decide) (by decide) (by decide))
    (hr 7 4 5 (by decide) (by decide) (by decide) (by decide))
  · have := hf _ _ this (Or.inr rfl)
    omega
  · exact ⟨13, ⟨by decide, by decide, by decide⟩, by decide⟩

end SpMP.Props
