import Verif.P2PSweep
import Verif.Spec.Schedule
import Verif.Perm
import Mathlib.Data.List.Range
/-
The task loops of the execution functions as lists of tasks and rows.
-/

namespace SpMP
open Spec

/-- `lo, lo+1, ..., hi-1`. -/
def seg (lo hi : Nat) : List Nat := List.range' lo (hi - lo)

theorem mem_seg {lo hi i : Nat} : i ∈ seg lo hi ↔ lo ≤ i ∧ i < hi := by
  simp only [seg, List.mem_range'_1]; omega

theorem seg_nodup (lo hi : Nat) : (seg lo hi).Nodup := by
  unfold seg; exact List.nodup_range'

theorem seg_append {a b c : Nat} (h1 : a ≤ b) (h2 : b ≤ c) : seg a b ++ seg b c = seg a c := by
  unfold seg
  have e : c - a = (b - a) + (c - b) := by omega
  rw [e, ← List.range'_append_1 (s := a)]
  congr 2; omega

theorem seg_self (a : Nat) : seg a a = [] := by simp [seg]

theorem seg_succ {a b : Nat} (h : a ≤ b) : seg a (b + 1) = seg a b ++ [b] := by
  rw [← seg_append h (Nat.le_succ b)]; simp [seg]

theorem sublist_seg {lo hi a b : Nat} (h1 : lo ≤ a) (h2 : a < b) (h3 : b < hi) : [a, b].Sublist (seg lo hi) := by
  rw [← seg_append (a := lo) (b := b) (c := hi) (by omega) (by omega)]
  have ha : [a].Sublist (seg lo b) := List.singleton_sublist.2 (mem_seg.2 ⟨h1, h2⟩)
  have hb : [b].Sublist (seg b hi) := List.singleton_sublist.2 (mem_seg.2 ⟨Nat.le_refl _, h3⟩)
  exact ha.append hb

theorem seg_sorted (lo hi : Nat) : (seg lo hi).Pairwise (· < ·) := by
  unfold seg; exact List.pairwise_lt_range'

theorem sublist_seg_iff {lo hi a b : Nat} : [a, b].Sublist (seg lo hi) ↔ lo ≤ a ∧ a < b ∧ b < hi := by
  constructor
  · intro h
    have h1 := mem_seg.1 (h.subset (show a ∈ [a, b] by simp))
    have h2 := mem_seg.1 (h.subset (show b ∈ [a, b] by simp))
    have h3 : List.Pairwise (· < ·) [a, b] := (seg_sorted lo hi).sublist h
    have : a < b := by simpa using h3
    omega
  · rintro ⟨h1, h2, h3⟩; exact sublist_seg h1 h2 h3

theorem mono_range {f : Nat → Nat} {N : Nat} (h : ∀ k, k < N → f k ≤ f (k + 1)) {i j : Nat} (hij : i ≤ j) (hj : j ≤ N) :
    f i ≤ f j := by
  induction j with
  | zero => have : i = 0 := by omega
            subst this; exact Nat.le_refl _
  | succ j ih =>
    by_cases he : i = j + 1
    · subst he; exact Nat.le_refl _
    · exact Nat.le_trans (ih (by omega) (by omega)) (h j (by omega))

/-- Concatenating consecutive segments. -/
theorem flatMap_seg {f : Nat → Nat} {N lo hi : Nat} (h : ∀ k, k < N → f k ≤ f (k + 1)) (h1 : lo ≤ hi) (h2 : hi ≤ N) :
    (seg lo hi).flatMap (fun k => seg (f k) (f (k + 1))) = seg (f lo) (f hi) := by
  induction hi with
  | zero => have : lo = 0 := by omega
            subst this; simp [seg]
  | succ k ih =>
    by_cases he : lo = k + 1
    · subst he; simp [seg]
    · rw [seg_succ (by omega), List.flatMap_append, ih (by omega) (by omega)]
      simp only [List.flatMap_cons, List.flatMap_nil, List.append_nil]
      exact seg_append (mono_range h (by omega) (by omega)) (h k (by omega))

theorem exists_seg {f : Nat → Nat} {N i : Nat} (h0 : f 0 ≤ i) (hN : i < f N) :
    ∃ k, k < N ∧ f k ≤ i ∧ i < f (k + 1) := by
  induction N with
  | zero => omega
  | succ N ih =>
    by_cases h : i < f N
    · obtain ⟨k, h1, h2⟩ := ih h; exact ⟨k, by omega, h2⟩
    · exact ⟨N, by omega, by omega, hN⟩

theorem seg_unique {f : Nat → Nat} {N i k k' : Nat} (h : ∀ k, k < N → f k ≤ f (k + 1)) (hk : k < N) (hk' : k' < N)
    (h1 : f k ≤ i) (h2 : i < f (k + 1)) (h3 : f k' ≤ i) (h4 : i < f (k' + 1)) : k = k' := by
  rcases Nat.lt_trichotomy k k' with hlt | he | hgt
  · have := mono_range h (i := k + 1) (j := k') (by omega) (by omega); omega
  · exact he
  · have := mono_range h (i := k' + 1) (j := k) (by omega) (by omega); omega

/-- Tasks of thread `t` in forward order: `for (task = threadBoundaries[t]; task < threadBoundaries[t+1]; ++task)`
(trsv_test.cpp:219). -/
def fwdTasks (S : Schedule) (t : Nat) : List Nat := seg (S.threadB t) (S.threadB (t + 1))

/-- Tasks of thread `t` in backward order (trsv_test.cpp:268). -/
def bwdTasks (S : Schedule) (t : Nat) : List Nat := (fwdTasks S t).reverse

/-- Rows of a task in forward order: `for (i = taskBoundaries[task]; i < taskBoundaries[task+1]; ++i) row = perm[i]`
(trsv_test.cpp:222-223). -/
def fwdRows (S : Schedule) (k : Nat) : List Nat := (seg (S.taskB k) (S.taskB (k + 1))).map S.perm

/-- Rows of a task in backward order (trsv_test.cpp:271-272). -/
def bwdRows (S : Schedule) (k : Nat) : List Nat := (fwdRows S k).reverse

variable {S : Schedule}

theorem flatMap_map_seg (h : S.Tiling) {t : Nat} (ht : t < S.T) :
    (fwdTasks S t).flatMap (fwdRows S) = (seg (S.taskB (S.threadB t)) (S.taskB (S.threadB (t + 1)))).map S.perm := by
  unfold fwdTasks fwdRows
  have h1 : S.threadB (t + 1) ≤ S.ntasks := by
    rw [← h.threadB_last]; exact mono_range h.threadB_mono (by omega) (Nat.le_refl _)
  rw [← flatMap_seg h.taskB_mono (h.threadB_mono t ht) h1, List.map_flatMap]

theorem pos_lt_m (h : S.Tiling) {t p : Nat} (ht : t < S.T)
    (hp : p < S.taskB (S.threadB (t + 1))) : p < S.m := by
  have h1 : S.threadB (t + 1) ≤ S.ntasks := by
    rw [← h.threadB_last]; exact mono_range h.threadB_mono (by omega) (Nat.le_refl _)
  have h2 : S.taskB (S.threadB (t + 1)) ≤ S.m := by
    rw [← h.taskB_last]; exact mono_range h.taskB_mono h1 (Nat.le_refl _)
  omega

theorem mem_fwd_rowsT (h : S.Tiling) {t r : Nat} (ht : t < S.T) :
    r ∈ (fwdTasks S t).flatMap (fwdRows S) ↔
      ∃ p, S.taskB (S.threadB t) ≤ p ∧ p < S.taskB (S.threadB (t + 1)) ∧ S.perm p = r := by
  rw [flatMap_map_seg h ht]
  simp only [List.mem_map, mem_seg]
  constructor
  · rintro ⟨p, ⟨h1, h2⟩, h3⟩; exact ⟨p, h1, h2, h3⟩
  · rintro ⟨p, h1, h2, h3⟩; exact ⟨p, ⟨h1, h2⟩, h3⟩

theorem fwd_rowsT_nodup (h : S.Tiling) {t : Nat} (ht : t < S.T) :
    ((fwdTasks S t).flatMap (fwdRows S)).Nodup := by
  rw [flatMap_map_seg h ht]
  refine List.Nodup.map_on ?_ (seg_nodup _ _)
  intro p hp q hq he
  rw [mem_seg] at hp hq
  exact h.perm.2 p q (pos_lt_m h ht hp.2) (pos_lt_m h ht hq.2) he

theorem fwd_rowsT_disj (h : S.Tiling) {t u r : Nat} (ht : t < S.T) (hu : u < S.T)
    (h1 : r ∈ (fwdTasks S t).flatMap (fwdRows S)) (h2 : r ∈ (fwdTasks S u).flatMap (fwdRows S)) : t = u := by
  rw [mem_fwd_rowsT h ht] at h1
  rw [mem_fwd_rowsT h hu] at h2
  obtain ⟨p, p1, p2, p3⟩ := h1
  obtain ⟨q, q1, q2, q3⟩ := h2
  have e : p = q := h.perm.2 p q (pos_lt_m h ht p2) (pos_lt_m h hu q2) (by rw [p3, q3])
  subst e
  refine seg_unique (f := fun t => S.taskB (S.threadB t)) (N := S.T) ?_ ht hu p1 p2 q1 q2
  intro t ht'
  refine mono_range h.taskB_mono (h.threadB_mono t ht') ?_
  rw [← h.threadB_last]; exact mono_range h.threadB_mono (by omega) (Nat.le_refl _)

theorem fwd_rows_lt (h : S.Tiling) {t r : Nat} (ht : t < S.T)
    (h1 : r ∈ (fwdTasks S t).flatMap (fwdRows S)) : r < S.m := by
  rw [mem_fwd_rowsT h ht] at h1
  obtain ⟨p, _, p2, rfl⟩ := h1
  exact h.perm.1 p (pos_lt_m h ht p2)

/-- Every row is executed by some thread. -/
theorem fwd_cover (h : S.Tiling) {r : Nat} (hr : r < S.m) :
    ∃ t, t < S.T ∧ r ∈ (fwdTasks S t).flatMap (fwdRows S) := by
  obtain ⟨p, hp, hpr⟩ := isPermFn_surj h.perm r hr
  have hp' : p < S.taskB (S.threadB S.T) := by rw [h.threadB_last, h.taskB_last]; exact hp
  obtain ⟨t, ht, h1, h2⟩ := exists_seg (f := fun t => S.taskB (S.threadB t)) (N := S.T)
    (by show S.taskB (S.threadB 0) ≤ p; rw [h.threadB_zero, h.taskB_zero]; omega) hp'
  exact ⟨t, ht, (mem_fwd_rowsT h ht).2 ⟨p, h1, h2, hpr⟩⟩

theorem fwdTasks_disj (h : S.Tiling) {t u b : Nat} (ht : t < S.T) (hu : u < S.T)
    (h1 : b ∈ fwdTasks S t) (h2 : b ∈ fwdTasks S u) : t = u := by
  unfold fwdTasks at h1 h2
  rw [mem_seg] at h1 h2
  exact seg_unique (f := S.threadB) h.threadB_mono ht hu h1.1 h1.2 h2.1 h2.2

theorem fwdTasks_lt (h : S.Tiling) {t b : Nat} (ht : t < S.T) (hb : b ∈ fwdTasks S t) : b < S.ntasks := by
  unfold fwdTasks at hb
  rw [mem_seg] at hb
  have : S.threadB (t + 1) ≤ S.ntasks := by
    rw [← h.threadB_last]; exact mono_range h.threadB_mono (by omega) (Nat.le_refl _)
  omega

theorem fwdTasks_cover (h : S.Tiling) {b : Nat} (hb : b < S.ntasks) : ∃ t, t < S.T ∧ b ∈ fwdTasks S t := by
  obtain ⟨t, ht, h1, h2⟩ := exists_seg (f := S.threadB) (N := S.T) (i := b) (by rw [h.threadB_zero]; omega)
    (by rw [h.threadB_last]; exact hb)
  exact ⟨t, ht, by unfold fwdTasks; rw [mem_seg]; exact ⟨h1, h2⟩⟩

theorem mem_fwdRows {k r : Nat} (hk : k < S.ntasks) : r ∈ fwdRows S k ↔ S.RowIn k r := by
  unfold fwdRows Schedule.RowIn Schedule.PosIn
  simp only [List.mem_map, mem_seg]
  constructor
  · rintro ⟨p, ⟨h1, h2⟩, h3⟩; exact ⟨p, ⟨hk, h1, h2⟩, h3⟩
  · rintro ⟨p, ⟨_, h1, h2⟩, h3⟩; exact ⟨p, ⟨h1, h2⟩, h3⟩

/-- Every row is in some task. -/
theorem exists_rowIn (h : S.Tiling) {r : Nat} (hr : r < S.m) : ∃ k, k < S.ntasks ∧ S.RowIn k r := by
  obtain ⟨p, hp, hpr⟩ := isPermFn_surj h.perm r hr
  obtain ⟨k, hk, h1, h2⟩ := exists_seg (f := S.taskB) (N := S.ntasks) (i := p) (by rw [h.taskB_zero]; omega)
    (by rw [h.taskB_last]; exact hp)
  exact ⟨k, hk, p, ⟨hk, h1, h2⟩, hpr⟩

theorem fwd_taskBefore (h : S.Tiling) {a b : Nat} (hf : S.Fwd a b) : TaskBefore S.T (fwdTasks S) S.parF a b := by
  induction hf with
  | parent hb hp =>
    obtain ⟨t, ht, hbt⟩ := fwdTasks_cover h hb
    exact .parent ht hbt hp
  | thread hs hlt =>
    obtain ⟨t, ht, h1, h2, h3, h4⟩ := hs
    exact .order ht (sublist_seg h1 hlt h4)
  | trans _ _ ih1 ih2 => exact .trans ih1 ih2

theorem bwd_taskBefore (h : S.Tiling) {a b : Nat} (hf : S.Bwd a b) : TaskBefore S.T (bwdTasks S) S.parB a b := by
  induction hf with
  | parent hb hp =>
    obtain ⟨t, ht, hbt⟩ := fwdTasks_cover h hb
    exact .parent ht (List.mem_reverse.2 hbt) hp
  | thread hs hlt =>
    obtain ⟨t, ht, h1, h2, h3, h4⟩ := hs
    refine .order ht ?_
    unfold bwdTasks
    have := (sublist_seg (lo := S.threadB t) (hi := S.threadB (t + 1)) h3 hlt h2).reverse
    simpa [fwdTasks] using this
  | trans _ _ ih1 ih2 => exact .trans ih1 ih2

/-- Row loop over the reordered matrix: `for (i = taskBoundaries[task]; i < taskBoundaries[task+1]; ++i)` without
permutation (trsv_test.cpp:349-390). -/
def noPerm (S : Schedule) : Schedule := { S with perm := fun p => p }

variable {R : Type} {body : Nat → Prog (CTy R) Unit}

theorem fwd_valid (h : S.Tiling) {lvl : Nat → Nat} (hl : S.Levelled lvl) :
    (sweepP2P (fwdTasks S) (fwdRows S) S.parF body).Valid S.T lvl := by
  refine ⟨?_, ?_, ?_, ?_, ?_, ?_, ?_⟩
  · intro t _; exact seg_nodup _ _
  · intro t u b ht hu h1 h2; exact fwdTasks_disj h ht hu h1 h2
  · intro t ht; exact fwd_rowsT_nodup h ht
  · intro t u r ht hu h1 h2; exact fwd_rowsT_disj h ht hu h1 h2
  · intro t b p ht hb hp
    exact fwdTasks_cover h (hl.parF b p (fwdTasks_lt h ht hb) hp).1
  · intro t b p ht hb hp
    exact (hl.parF b p (fwdTasks_lt h ht hb) hp).2
  · intro t a b ht hs
    obtain ⟨h1, h2, h3⟩ := sublist_seg_iff.1 hs
    exact hl.thread a b ⟨t, ht, h1, by omega, by omega, h3⟩ h2

theorem bwd_rowsT_perm (t : Nat) :
    ((bwdTasks S t).flatMap (bwdRows S)) = ((fwdTasks S t).flatMap (fwdRows S)).reverse := by
  unfold bwdTasks bwdRows
  rw [List.reverse_flatMap]; rfl

/-- Rank for the backward direction: reversed levels. -/
def revLvl (S : Schedule) (lvl : Nat → Nat) (b : Nat) : Nat :=
  (List.range (S.ntasks + 1)).foldl (fun acc k => max acc (lvl k)) 0 - lvl b

theorem le_foldl_max {f : Nat → Nat} (l : List Nat) (acc : Nat) :
    acc ≤ l.foldl (fun acc k => max acc (f k)) acc ∧
    ∀ k ∈ l, f k ≤ l.foldl (fun acc k => max acc (f k)) acc := by
  induction l generalizing acc with
  | nil => simp
  | cons x l ih =>
    simp only [List.foldl_cons, List.mem_cons]
    obtain ⟨h1, h2⟩ := ih (max acc (f x))
    refine ⟨by omega, ?_⟩
    rintro k (rfl | hk)
    · omega
    · exact h2 k hk

theorem revLvl_lt {lvl : Nat → Nat} {a b : Nat} (ha : a ≤ S.ntasks) (h : lvl b < lvl a) :
    revLvl S lvl a < revLvl S lvl b := by
  have := (le_foldl_max (f := lvl) (List.range (S.ntasks + 1)) 0).2 a (List.mem_range.2 (by omega))
  unfold revLvl; omega

theorem bwd_valid (h : S.Tiling) {lvl : Nat → Nat} (hl : S.Levelled lvl) :
    (sweepP2P (bwdTasks S) (bwdRows S) S.parB body).Valid S.T (revLvl S lvl) := by
  have hrT : ∀ t, (sweepP2P (bwdTasks S) (bwdRows S) S.parB body).rowsT t =
      ((fwdTasks S t).flatMap (fwdRows S)).reverse := fun t => bwd_rowsT_perm t
  refine ⟨?_, ?_, ?_, ?_, ?_, ?_, ?_⟩
  · intro t _; exact List.nodup_reverse.2 (seg_nodup _ _)
  · intro t u b ht hu h1 h2
    exact fwdTasks_disj h ht hu (List.mem_reverse.1 h1) (List.mem_reverse.1 h2)
  · intro t ht; rw [hrT]; exact List.nodup_reverse.2 (fwd_rowsT_nodup h ht)
  · intro t u r ht hu h1 h2
    rw [hrT] at h1 h2
    exact fwd_rowsT_disj h ht hu (List.mem_reverse.1 h1) (List.mem_reverse.1 h2)
  · intro t b p ht hb hp
    obtain ⟨u, hu, hpu⟩ := fwdTasks_cover h (hl.parB b p (fwdTasks_lt h ht (List.mem_reverse.1 hb)) hp).1
    exact ⟨u, hu, List.mem_reverse.2 hpu⟩
  · intro t b p ht hb hp
    obtain ⟨h1, h2⟩ := hl.parB b p (fwdTasks_lt h ht (List.mem_reverse.1 hb)) hp
    exact revLvl_lt (by omega) h2
  · intro t a b ht hs
    have hs' : [b, a].Sublist (fwdTasks S t) := by
      have := hs.reverse
      simpa [sweepP2P, bwdTasks] using this
    obtain ⟨h1, h2, h3⟩ := sublist_seg_iff.1 hs'
    have hlt := hl.thread b a ⟨t, ht, h1, by omega, by omega, h3⟩ h2
    have : a < S.ntasks := fwdTasks_lt h ht (hs'.subset (by simp))
    exact revLvl_lt (by omega) hlt

end SpMP
