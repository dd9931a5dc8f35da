import Verif.FusedProof
import Verif.Props.Fused
import Verif.Props.TasksEx
/-
Property theorem C55 (the parents computed for the fused Gauss-Seidel + SpMV execution).
-/

namespace SpMP.Props
open SpMP SpMP.Spec

variable {R : Type}

/-- The tasks an SpMV task `u` has to wait for, in any order `Bw` (`Bw a b`: in a backward sweep `a` is finished before `b` starts) that respects the
tasks of a thread, the edges of the task graph and the dependencies between rows. -/
theorem fuseParents_cover {S : Schedule} {A : Csr R} {dp ep : Nat → Nat} {L : List (List Nat)} {inv lvl : Nat → Nat} (h : Partitioned S A dp ep L inv lvl)
    {Bw : Nat → Nat → Prop} (hth : ∀ a b, S.SameThread a b → b < a → Bw a b)
    (hedge : ∀ a b, a < S.ntasks → Edge S A dp ep a b → Bw b a) (htr : ∀ a b c, Bw a b → Bw b c → Bw a c)
    {u r q b : Nat} (hu : S.RowIn u r) (hn : A.Nbr r q) (hq : q < A.m) (hb : S.RowIn b q) :
    ∃ p ∈ fuseParents S A dp (taskAdj S A dp ep) u, p < S.ntasks ∧ (b = p ∨ Bw b p) := by
  have hS := h.tasks.tiling
  obtain ⟨hrm, hun⟩ := rowIn_lt hS hu
  have hbn := (rowIn_lt hS hb).2
  have hrA : r < A.m := by rw [← h.rows]; exact hrm
  obtain ⟨hm1, hm2, hm3⟩ := fuseMinParent_spec S A dp u
  obtain ⟨t1, t2, t3⟩ := exists_thread hS hun
  have hI := fuseInter_inv S (taskAdj S A dp ep)
  have hmsame : S.SameThread u (fuseMinParent S A dp u) := by
    rw [sameThread_iff hS hun]
    rcases hm2 with e | e
    · rw [e]; exact ⟨t2, t3⟩
    · exact e
  have hu2 : u = fuseMinParent S A dp u ∨ Bw u (fuseMinParent S A dp u) := by
    rcases Nat.lt_or_ge (fuseMinParent S A dp u) u with g | g
    · exact Or.inr (hth _ _ hmsame g)
    · exact Or.inl (by omega)
  -- the task of the column is before some collected parent
  have key : ∃ v ∈ fuseInter S (taskAdj S A dp ep) u ++ [fuseMinParent S A dp u], b = v ∨ Bw b v := by
    rcases Nat.lt_trichotomy q r with hlt | rfl | hgt
    · obtain ⟨hd, he⟩ := h.edge hlt hrm (Or.inl hn) hb hu
      by_cases hst : S.SameThread b u
      · refine ⟨fuseMinParent S A dp u, by simp, ?_⟩
        obtain ⟨j, hj, hc⟩ := hn
        have hjd : j < dp r := by
          by_contra hge
          rcases Nat.lt_or_ge (dp r) j with g | g
          · rcases Nat.lt_or_ge j (ep r) with g' | g'
            · have := h.split.upper r j hrA g g'; omega
            · have := h.split.ext r j hrA g' hj.2.2; omega
          · have e : j = dp r := by omega
            have := h.split.diag r hrA
            rw [← e] at this; omega
        obtain ⟨p, ⟨_, p1, p2⟩, p3⟩ := hu
        have hot : origTask S (A.col j) = b := by rw [hc]; exact origTask_spec hS hb
        obtain ⟨t, ht, g1, g2, g3, g4⟩ := hst
        have hbu := (sameThread_iff hS hun).1 ⟨t, ht, g3, g4, g1, g2⟩
        have := hm3 p j p1 p2 (by rw [p3]; exact hj.2.1) (by rw [p3]; exact hjd) (by rw [hot]; exact hbu.1) (by rw [hot]; exact hbu.2)
        rw [hot] at this
        rcases Nat.lt_or_ge (fuseMinParent S A dp u) b with g | g
        · refine Or.inr (hth _ _ ?_ g)
          obtain ⟨t', ht', a1, a2, a3, a4⟩ := hmsame
          have e : t' = t := seg_unique hS.threadB_mono ht' ht a1 a2 g3 g4
          subst e
          exact ⟨t', ht', g1, g2, a3, a4⟩
        · exact Or.inl (by omega)
      · have hin := (mem_taskAdj hS h.row h.col hbn).2 (he hst)
        obtain ⟨p, hp, e1, e2⟩ := hI.covers u b ⟨hbn, hin⟩
        refine ⟨p, List.mem_append_left _ hp, ?_⟩
        have hpn := (hI.sound u p hp).1
        rcases Nat.lt_or_ge p b with g | g
        · refine Or.inr (hth _ _ ?_ g)
          rw [sameThread_iff hS hbn, ← e1]
          exact (exists_thread hS hpn).2
        · exact Or.inl (by omega)
    · have e : b = u := by
        have h1 := origTask_spec hS hb
        have h2 := origTask_spec hS hu
        omega
      subst e
      exact ⟨_, by simp, hu2⟩
    · have hbw : Bw b u := by
        obtain ⟨hd, he⟩ := h.edge hgt (by rw [h.rows]; exact hq) (Or.inr hn) hu hb
        by_cases hst : S.SameThread u b
        · obtain ⟨t, ht, g1, g2, g3, g4⟩ := hst
          refine hth _ _ ⟨t, ht, g3, g4, g1, g2⟩ ?_
          by_contra hc
          have h1 := h.dep hd hu hb
          rcases Nat.lt_or_ge b u with g | g
          · have := h.tasks.order b u ⟨t, ht, g3, g4, g1, g2⟩ g; omega
          · have : u = b := by omega
            subst this; omega
        · exact hedge _ _ hun (he hst)
      refine ⟨fuseMinParent S A dp u, by simp, Or.inr ?_⟩
      rcases hu2 with e | e
      · rw [← e]; exact hbw
      · exact htr _ _ _ hbw e
  obtain ⟨v, hv, hbv⟩ := key
  have hall : ∀ p ∈ fuseInter S (taskAdj S A dp ep) u ++ [fuseMinParent S A dp u], p < S.ntasks := by
    intro p hp
    rcases List.mem_append.1 hp with hp | hp
    · exact (hI.sound u p hp).1
    · have : p = fuseMinParent S A dp u := by simpa using hp
      omega
  obtain ⟨p, hp, h3⟩ := fuseReduce_covers hS (lvl := lvl) (Bw := Bw) hth
    (fun p q hpn hq => by
      have he := (mem_taskAdj hS h.row h.col hpn).1 hq
      exact ⟨hedge p q hpn he, (h.edge_lvl he).2⟩) htr h.tasks.order hall (lvl v) v (Nat.le_refl _) hv
  refine ⟨p, hp, hall p ((List.perm_insertionSort _ _).mem_iff.1 (List.mem_filter.1 hp).1), ?_⟩
  rcases hbv with rfl | hbv
  · exact h3
  · rcases h3 with rfl | h3
    · exact Or.inr hbv
    · exact Or.inr (htr _ _ _ hbv h3)

/-- C55 for the lists as computed. For every matrix with symmetric pattern, every partition of its levels into tasks, with or without transitive reduction and for every order of
the concurrent appends: take the parents computed for an SpMV task `u`. For every row `r` of `u`, every stored column `q < m` of row `r` and the
Gauss-Seidel task `b` of row `q`: `b` is one of the listed parents, or is finished in the backward sweep before a listed parent starts. So once the
backward steps of the listed parents are finished, all the values task `u` multiplies with are final. Listed parents are tasks. Missing for the full claim: the lists
handed out are these only when they do not overwrite each other (C55_room_partial, C55_overlap_false). -/
theorem C55_computed_parents_partial {S : Schedule} {A : Csr R} {dp ep : Nat → Nat} {L : List (List Nat)} {inv lvl : Nat → Nat} (h : Partitioned S A dp ep L inv lvl)
    {u r q b : Nat} (hu : S.RowIn u r) (hn : A.Nbr r q) (hq : q < A.m) (hb : S.RowIn b q) :
    (∀ ev : List (Nat × Nat), ∃ p ∈ fuseParents S A dp (taskAdj S A dp ep) u, p < S.ntasks ∧ (b = p ∨ (graphPlain S A dp ep ev).Bwd b p)) ∧
    (∀ ev pev : List (Nat × Nat), ev.Perm (allInvEvents S A dp ep true) → pev.Perm (parentEvents S.ntasks (reducedChildren S A dp ep ev)) →
      ∃ p ∈ fuseParents S A dp (taskAdj S A dp ep) u, p < S.ntasks ∧ (b = p ∨ (graphReduced S A dp ep ev pev).Bwd b p)) := by
  have hS := h.tasks.tiling
  have hpl : ∀ ev a b, a < S.ntasks → Edge S A dp ep a b → (graphPlain S A dp ep ev).Bwd b a := by
    intro ev a b ha he
    exact .parent ha ((mem_taskAdj hS h.row h.col ha).2 he)
  refine ⟨fun ev => fuseParents_cover h (fun a b hab hlt => .thread hab hlt) (hpl ev) (fun _ _ _ h1 h2 => .trans h1 h2) hu hn hq hb, ?_⟩
  intro ev pev hev hpev
  obtain ⟨_, h2⟩ := C32_built_graph h (List.Perm.refl _) hev hpev
  exact fuseParents_cover h (fun a b hab hlt => .thread hab hlt) (fun a b ha he => (h2 b a).1 (hpl _ a b ha he)) (fun _ _ _ h1 h2 => .trans h1 h2) hu hn hq hb

/-- C55 for the lists as handed out, for every task whose list is not longer than the room reserved for it, and for the last task. -/
theorem C55_room_partial {S : Schedule} {A : Csr R} {dp ep : Nat → Nat} {L : List (List Nat)} {inv lvl : Nat → Nat} (h : Partitioned S A dp ep L inv lvl)
    {len : Nat → Nat} {u r q b : Nat} (hroom : (fuseParents S A dp (taskAdj S A dp ep) u).length ≤ len u ∨ u + 1 = S.ntasks) (hu : S.RowIn u r) (hn : A.Nbr r q) (hq : q < A.m) (hb : S.RowIn b q) {ev pev : List (Nat × Nat)}
    (hev : ev.Perm (allInvEvents S A dp ep true)) (hpev : pev.Perm (parentEvents S.ntasks (reducedChildren S A dp ep ev))) :
    ∃ p ∈ fuseRead (fuseParents S A dp (taskAdj S A dp ep)) len S.ntasks u, p < S.ntasks ∧ (b = p ∨ (graphReduced S A dp ep ev pev).Bwd b p) := by
  rw [C37_room_partial _ len S.ntasks (rowIn_lt h.tasks.tiling hu).2 hroom]
  exact (C55_computed_parents_partial h hu hn hq hb).2 ev pev hev hpev

/-- C55 is false for the lists handed out: for two independent rows on two threads the SpMV of row 0 is told to wait for task 1 only, which does not make
it wait for task 0, the task of its own row. -/
theorem C55_overlap_false : eye2S.RowIn 0 0 ∧ eye2.Nbr 0 0 ∧
    ∀ p ∈ fuseRead eye2Parents eye2Len 2 0, p ≠ 0 ∧ ∀ ev : List (Nat × Nat), ¬ (graphPlain eye2S eye2 (fun i => i) (fun i => i + 1) ev).Bwd 0 p := by
  refine ⟨⟨0, ⟨by decide, by decide, by decide⟩, by decide⟩, ⟨0, ⟨by decide, by decide, by decide⟩, rfl⟩, ?_⟩
  intro p hp
  rw [C37_overlap_false.2.2.2.2] at hp
  have : p = 1 := by simpa using hp
  subst this
  refine ⟨by decide, ?_⟩
  intro ev hb
  have none : ∀ a b, (graphPlain eye2S eye2 (fun i => i) (fun i => i + 1) ev).Bwd a b → False := by
    intro a b hab
    induction hab with
    | @parent a b h1 h2 =>
      have h1 : b < 2 := h1
      have h2 : a ∈ taskAdj eye2S eye2 (fun i => i) (fun i => i + 1) b := h2
      have e : ∀ b < 2, taskAdj eye2S eye2 (fun i => i) (fun i => i + 1) b = [] := by decide
      rw [e b h1] at h2
      cases h2
    | @thread a b h1 h2 =>
      obtain ⟨t, ht, g1, g2, g3, g4⟩ := h1
      have ht : t < 2 := ht
      have e : ∀ t < 2, eye2S.threadB t = t ∧ eye2S.threadB (t + 1) = t + 1 := by decide
      have g1 : eye2S.threadB t ≤ a := g1
      have g2 : a < eye2S.threadB (t + 1) := g2
      have g3 : eye2S.threadB t ≤ b := g3
      have g4 : b < eye2S.threadB (t + 1) := g4
      rw [(e t ht).1] at g1 g3
      rw [(e t ht).2] at g2 g4
      omega
    | trans _ _ i1 _ => exact i1
  exact none _ _ hb

/-- The hypotheses of C55 are met by the partition of `vee` for two threads: row 2 stores column 0. -/
example : ∃ S inv lvl u b, Partitioned S vee veeDp veeEp exLevels inv lvl ∧ S.T = 2 ∧ S.RowIn u 2 ∧ vee.Nbr 2 0 ∧ S.RowIn b 0 := by
  obtain ⟨P, lvl, h1, h2, h3, h4, _⟩ := C30_task_partition_partial (useBarrier := false) (agg := false) (T := 2) (m := 3) (cost := fun _ => 1) (L := exLevels)
    ⟨fun _ => 0, fun _ => 0, fun _ => 0⟩ (by decide) vee_levels.rows (fun _ _ => by decide)
  have hp : Partitioned P.sched vee veeDp veeEp exLevels P.o2t lvl := ⟨h3, vee_schedulable.split, vee_schedulable.inner, vee_schedulable.sym, vee_levels, h4⟩
  obtain ⟨u, hu⟩ := hp.row 2 (by rw [h3]; decide)
  obtain ⟨b, hb⟩ := hp.row 0 (by rw [h3]; decide)
  exact ⟨P.sched, P.o2t, lvl, u, b, hp, h2, hu, ⟨4, ⟨by decide, by decide, by decide⟩, rfl⟩, hb⟩

/-- What the code computes for `vee` on two threads (thread 0: rows 0, 2; thread 1: row 1): the SpMV of task 1 (row 2) waits for task 0 (row 0, its own
thread's smallest parent) and task 2 (row 1); the SpMV of row 0 waits for its own task. -/
example : ((taskPartition false false 2 3 (fun _ => 1) exLevels ⟨fun _ => 0, fun _ => 0, fun _ => 0⟩).map fun P =>
    (List.range 3).map (fuseParents P.sched vee veeDp (taskAdj P.sched vee veeDp veeEp))) = some [[0], [0, 2], [2]] := by decide

/-- With reduction, the rooms the code reserves for these lists are 0, 2 and 0: the list of task 1 fits, task 2 is the last one, and the list of task 0
is overwritten (here with an equal entry). -/
example : ((taskPartition false false 2 3 (fun _ => 1) exLevels ⟨fun _ => 0, fun _ => 0, fun _ => 0⟩).map fun P =>
    let len := fun k => (taskInv (allInvEvents P.sched vee veeDp veeEp true) k).length
    ((List.range 3).map len, (List.range 3).map (fuseRead (fuseParents P.sched vee veeDp (taskAdj P.sched vee veeDp veeEp)) len 3))) =
    some ([0, 2, 0], [[0], [0, 2], [2]]) := by decide

end SpMP.Props
