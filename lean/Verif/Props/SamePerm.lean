import Verif.SamePerm
import Verif.Props.TasksEx
import Verif.Props.SchedulesEx
/-
C71: the schedules of one matrix share their permutation, whatever the synchronisation options and the interleaving of their
construction. The mains of trsv_test.cpp (476-545, 575-700) and gs_test.cpp build three schedules (with barriers, point-to-point,
point-to-point with transitive reduction), reorder the matrices once with the permutation of the last, and run all three
schedules with that permutation.
-/
namespace SpMP.Props
open SpMP SpMP.Spec

variable {R : Type}

theorem BuiltWith.arrays {S : Schedule} {A : Csr R} {dp ep : Nat → Nat} {ub : Bool} {L : List (List Nat)} {agg : Bool} {T : Nat} {cost : Nat → Nat}
    (h : BuiltWith S A dp ep ub L agg T cost) :
    ∃ (a0 : TaskArrays) (P : TaskPartition), taskPartition ub agg T A.m cost L a0 = some P ∧
      S.T = P.sched.T ∧ S.m = P.sched.m ∧ S.ntasks = P.sched.ntasks ∧ S.threadB = P.sched.threadB ∧ S.taskB = P.sched.taskB ∧ S.perm = P.sched.perm := by
  obtain ⟨_, a0, P, hP, h⟩ := h
  refine ⟨a0, P, hP, ?_⟩
  rcases h with ⟨_, _, rfl⟩ | ⟨_, _, _, _, _, rfl⟩ <;> exact ⟨rfl, rfl, rfl, rfl, rfl, rfl⟩

/-- C71. Two constructions for the same matrix, with the same aggregation option, number of threads and costs; the barrier and reduction options, the
order of the rows within the levels (left to the interleaving by the level search), the contents of the arrays before and the order of the
concurrent appends may differ. They have the same number of levels and of rows, the same permutation, and every thread gets the same range of
rows; with the same barrier option, also the same tasks. -/
theorem C71_same_permutation {S S' : Schedule} {A : Csr R} {dp ep : Nat → Nat} {ub ub' : Bool} {L L' : List (List Nat)} {agg : Bool} {T : Nat} {cost : Nat → Nat}
    (hT : 1 ≤ T) (hc : ∀ i, i < A.m → 0 < cost i) (hb : BuiltWith S A dp ep ub L agg T cost) (hb' : BuiltWith S' A dp ep ub' L' agg T cost) :
    L.length = L'.length ∧ S.m = A.m ∧ S'.m = A.m ∧ S.T = T ∧ S'.T = T ∧
    (∀ p, p < A.m → S.perm p = S'.perm p) ∧
    (∀ t, t ≤ T → S.taskB (S.threadB t) = S'.taskB (S'.threadB t)) ∧
    (ub = ub' → S.ntasks = S'.ntasks ∧ (∀ t, t ≤ T → S.threadB t = S'.threadB t) ∧ ∀ k, k ≤ S.ntasks → S.taskB k = S'.taskB k) := by
  have hlen := (levels_perm hb.1 hb'.1).1
  obtain ⟨a0, P, hP, e1, e2, e3, e4, e5, e6⟩ := hb.arrays
  obtain ⟨a0', P', hP', e1', e2', e3', e4', e5', e6'⟩ := hb'.arrays
  obtain ⟨Q, _, h1, h2, h3, _⟩ := taskPartition_ok (useBarrier := ub) (agg := agg) (cost := cost) a0 hT hb.1.rows hc
  rw [hP] at h1
  obtain rfl := Option.some.inj h1
  obtain ⟨Q', _, g1, g2, g3, _⟩ := taskPartition_ok (useBarrier := ub') (agg := agg) (cost := cost) a0' hT hb'.1.rows hc
  rw [hP'] at g1
  obtain rfl := Option.some.inj g1
  obtain ⟨k1, _, k3, k4⟩ := partition_same hT hb.1 hb'.1 hc hP hP'
  rw [e1, e2, e1', e2', e3, e4, e5, e6, e3', e4', e5', e6']
  exact ⟨hlen, h3, g3, h2, g2, k1, k3, fun e => ⟨(k4 e).1, fun t _ => (k4 e).2.1 t, (k4 e).2.2⟩⟩

/-- The schedule `S` executed with the permutation `p` (invPerm in the mains of trsv_test.cpp and gs_test.cpp). -/
def withPerm (S : Schedule) (p : Nat → Nat) : Schedule := { S with perm := p }

theorem withPerm_rowIn {S : Schedule} {p : Nat → Nat} (hS : S.Tiling) (h : ∀ i, i < S.m → p i = S.perm i) {k i : Nat} (hr : (withPerm S p).RowIn k i) : S.RowIn k i := by
  obtain ⟨q, h1, h2⟩ := hr
  have hq : S.PosIn k q := h1
  have hlt : q < S.m := by
    have : S.taskB (k + 1) ≤ S.m := by rw [← hS.taskB_last]; exact mono_range hS.taskB_mono (by have := hq.1; omega) (Nat.le_refl _)
    have := hq.2.2
    omega
  have h2 : p q = i := h2
  exact ⟨q, hq, by rw [← h q hlt]; exact h2⟩

theorem withPerm_fwd {S : Schedule} (p : Nat → Nat) {a b : Nat} (h : S.Fwd a b) : (withPerm S p).Fwd a b := by
  induction h with
  | parent h1 h2 => exact .parent h1 h2
  | thread h1 h2 => exact .thread h1 h2
  | trans _ _ i1 i2 => exact .trans i1 i2

theorem withPerm_bwd {S : Schedule} (p : Nat → Nat) {a b : Nat} (h : S.Bwd a b) : (withPerm S p).Bwd a b := by
  induction h with
  | parent h1 h2 => exact .parent h1 h2
  | thread h1 h2 => exact .thread h1 h2
  | trans _ _ i1 i2 => exact .trans i1 i2

theorem withPerm_good {S : Schedule} {A : Csr R} {lvl p : Nat → Nat} (hg : GoodSchedule S A lvl) (h : ∀ i, i < S.m → p i = S.perm i) :
    GoodSchedule (withPerm S p) A lvl := by
  have ht := hg.tiling
  refine ⟨⟨ht.threadB_zero, ht.threadB_mono, ht.threadB_last, ht.taskB_zero, ht.taskB_mono, ht.taskB_last, ?_, ?_⟩,
    ⟨hg.levelled.thread, hg.levelled.parF, hg.levelled.parB⟩, ?_, ?_⟩
  · intro i hi
    show p i < S.m
    rw [h i hi]; exact ht.perm.1 i hi
  · intro i j hi hj e
    have e : p i = p j := e
    rw [h i hi, h j hj] at e
    exact ht.perm.2 i j hi hj e
  · intro q r a b hqr hr hn ha hb
    exact withPerm_fwd p (hg.fwd q r a b hqr hr hn (withPerm_rowIn ht h ha) (withPerm_rowIn ht h hb))
  · intro q r a b hqr hr hn ha hb
    exact withPerm_bwd p (hg.bwd q r a b hqr hr hn (withPerm_rowIn ht h ha) (withPerm_rowIn ht h hb))

theorem withPerm_barriered {S : Schedule} {A B : Csr R} {L : Nat} {p : Nat → Nat} (ht : S.Tiling) (hb : S.Barriered L A.Nbr)
    (hn : ∀ r q, r < S.m → q < S.m → B.Nbr r q → A.Nbr r q) (h : ∀ i, i < S.m → p i = S.perm i) : (withPerm S p).Barriered L B.Nbr := by
  refine ⟨hb.threadB, fun q r a b hqr hr hnb ha hb' => ?_⟩
  have hr : r < S.m := hr
  exact hb.level q r a b hqr hr (hnb.imp (hn r q hr (by omega)) (hn q r (by omega) hr)) (withPerm_rowIn ht h ha) (withPerm_rowIn ht h hb')

section
variable [Sub R] [Mul R] [Add R]
variable {S S' : Schedule} {sz : CArr → Int} {m0 : Mem (CTy R)} {base : Nat} {A B B' : Csr R} {dp ep : Nat → Nat} {ub ub' : Bool} {L L' : List (List Nat)}
  {agg : Bool} {T : Nat} {cost : Nat → Nat} {b idg y0 : Nat → R}

omit [Sub R] [Mul R] [Add R] in
/-- What the theorems below need about `S` run with the permutation of `S'`. -/
theorem borrowed_good (hA : Schedulable A dp ep) (hT : 1 ≤ T) (hc : ∀ i, i < A.m → 0 < cost i) (hb : BuiltWith S A dp ep ub L agg T cost)
    (hb' : BuiltWith S' A dp ep ub' L' agg T cost) :
    ∃ lvl, GoodSchedule (withPerm S S'.perm) A lvl ∧ S.Tiling ∧ (∀ i, i < S.m → S'.perm i = S.perm i) ∧
      (ub = true → S.Barriered L.length A.Nbr) := by
  obtain ⟨lvl, hg, hbar, hm, _⟩ := (built_iff.2 ⟨agg, T, cost, hT, hc, hb⟩).good hA
  obtain ⟨_, _, _, _, _, hp, _⟩ := C71_same_permutation hT hc hb hb'
  have hp' : ∀ i, i < S.m → S'.perm i = S.perm i := fun i hi => (hp i (by omega)).symm
  exact ⟨lvl, withPerm_good hg hp', hg.tiling, hp', hbar⟩

/-- C71, solves on the matrix as it is (trsv_test.cpp:584-603 with invPerm of another schedule): the point-to-point solves of `S` with the
permutation of `S'` compute the sequential solves, in every interleaving. -/
theorem C71_borrowed_p2p (hA : Schedulable A dp ep) (hT : 1 ≤ T) (hc : ∀ i, i < A.m → 0 < cost i) (hb : BuiltWith S A dp ep ub L agg T cost)
    (hb' : BuiltWith S' A dp ep ub' L' agg T cost) (hn : ∀ r q, r < S.m → q < S.m → B.Nbr r q → A.Nbr r q)
    (h : SolveSetup (withPerm S S'.perm) sz m0 base B b idg y0) (u : Update) :
    RunsTo sz S (forwardExec (withPerm S S'.perm) base u) m0 (OnlyY m0 B.n (sweep (rowUpdate B b idg u false) forwardOrd B.m y0)) ∧
    RunsTo sz S (backwardExec (withPerm S S'.perm) base u) m0 (OnlyY m0 B.n (sweep (rowUpdate B b idg u true) (backwardOrd B.m) B.m y0)) := by
  obtain ⟨lvl, hg, _, _, _⟩ := borrowed_good hA hT hc hb hb'
  obtain ⟨_, rfl, h1, _⟩ := C33_forward_p2p h hg.levelled (coversFwd_mono hg.fwd hn) u
  exact ⟨h1, (C34_backward_p2p h hg.levelled (coversBwd_mono hg.bwd hn) u).1⟩

/-- ... and so do the solves with barriers of a schedule with barriers. -/
theorem C71_borrowed_barrier (hA : Schedulable A dp ep) (hT : 1 ≤ T) (hc : ∀ i, i < A.m → 0 < cost i) (hb : BuiltWith S A dp ep true L agg T cost)
    (hb' : BuiltWith S' A dp ep ub' L' agg T cost) (hn : ∀ r q, r < S.m → q < S.m → B.Nbr r q → A.Nbr r q)
    (h : SolveSetup (withPerm S S'.perm) sz m0 base B b idg y0) (u : Update) :
    (barrierFrom sz S.T (fwdPhase (withPerm S S'.perm)) (rowKernel base u false) 0 L.length).Ok m0
      (fun _ m' => OnlyY m0 B.n (sweep (rowUpdate B b idg u false) forwardOrd B.m y0) m') ∧
    (barrierFrom sz S.T (bwdPhase (withPerm S S'.perm)) (rowKernel base u true) 0 L.length).Ok m0
      (fun _ m' => OnlyY m0 B.n (sweep (rowUpdate B b idg u true) (backwardOrd B.m) B.m y0) m') := by
  obtain ⟨lvl, _, ht, hp, hbar⟩ := borrowed_good hA hT hc hb hb'
  exact (C36_barrier h (withPerm_barriered ht (hbar rfl) hn hp) u).2

/-- C71, solves on the reordered matrix (trsv_test.cpp:632-698, gs_test.cpp likewise): matrix, right-hand side, inverse diagonal and start
vector are reordered with the permutation of `S'`, the solves follow the tasks and parents of `S`. They leave the reordered result of the
sequential solves of the original system. -/
theorem C71_reordered_p2p (hx : SubExchange R) (hA : Schedulable A dp ep) (hT : 1 ≤ T) (hc : ∀ i, i < A.m → 0 < cost i)
    (hb : BuiltWith S A dp ep ub L agg T cost) (hb' : BuiltWith S' A dp ep ub' L' agg T cost) (hn : ∀ r q, r < S.m → q < S.m → B.Nbr r q → A.Nbr r q)
    (hp : PermutedBy S'.perm B B')
    (h : SolveSetup (noPerm S) sz m0 base B' (fun i => b (S'.perm i)) (fun i => idg (S'.perm i)) (fun i => y0 (S'.perm i))) (u : Update) :
    RunsTo sz S (forwardExec (noPerm S) base u) m0
      (OnlyY m0 B.n (fun i => sweep (rowUpdate B b idg u false) forwardOrd B.m y0 (S'.perm i))) ∧
    RunsTo sz S (backwardExec (noPerm S) base u) m0
      (OnlyY m0 B.n (fun i => sweep (rowUpdate B b idg u false) (backwardOrd B.m) B.m y0 (S'.perm i))) := by
  obtain ⟨lvl, hg, _, _, _⟩ := borrowed_good hA hT hc hb hb'
  obtain ⟨h1, h2⟩ := C38_reordered (S := withPerm S S'.perm) hx hp hg.tiling h hg.levelled u
  exact ⟨h1 (coversFwd_mono hg.fwd hn), h2 (coversBwd_mono hg.bwd hn)⟩

/-- ... with barriers (trsv_test.cpp:650-651, 669-670). -/
theorem C71_reordered_barrier (hx : SubExchange R) (hA : Schedulable A dp ep) (hT : 1 ≤ T) (hc : ∀ i, i < A.m → 0 < cost i)
    (hb : BuiltWith S A dp ep true L agg T cost) (hb' : BuiltWith S' A dp ep ub' L' agg T cost) (hn : ∀ r q, r < S.m → q < S.m → B.Nbr r q → A.Nbr r q)
    (hp : PermutedBy S'.perm B B')
    (h : SolveSetup (noPerm S) sz m0 base B' (fun i => b (S'.perm i)) (fun i => idg (S'.perm i)) (fun i => y0 (S'.perm i))) (u : Update) :
    (barrierFrom sz S.T (fwdPhase (noPerm S)) (rowKernel base u false) 0 L.length).Ok m0 (fun _ m' =>
      OnlyY m0 B.n (fun i => sweep (rowUpdate B b idg u false) forwardOrd B.m y0 (S'.perm i)) m') ∧
    (barrierFrom sz S.T (bwdPhase (noPerm S)) (rowKernel base u true) 0 L.length).Ok m0 (fun _ m' =>
      OnlyY m0 B.n (fun i => sweep (rowUpdate B b idg u false) (backwardOrd B.m) B.m y0 (S'.perm i)) m') := by
  obtain ⟨lvl, hg, ht, hp', hbar⟩ := borrowed_good hA hT hc hb hb'
  exact C38_reordered_barrier (S := withPerm S S'.perm) hx hp hg.tiling h (withPerm_barriered ht (hbar rfl) hn hp') u

/-- C38 with barriers for every schedule built by the library. -/
theorem C38_library_barrier (hx : SubExchange R) (hA : Schedulable A dp ep) (hb : Built S A dp ep true L) (hn : ∀ r q, r < S.m → q < S.m → B.Nbr r q → A.Nbr r q)
    (hp : PermutedBy S.perm B B')
    (h : SolveSetup (noPerm S) sz m0 base B' (fun i => b (S.perm i)) (fun i => idg (S.perm i)) (fun i => y0 (S.perm i))) (u : Update) :
    (barrierFrom sz S.T (fwdPhase (noPerm S)) (rowKernel base u false) 0 L.length).Ok m0 (fun _ m' =>
      OnlyY m0 B.n (fun i => sweep (rowUpdate B b idg u false) forwardOrd B.m y0 (S.perm i)) m') ∧
    (barrierFrom sz S.T (bwdPhase (noPerm S)) (rowKernel base u true) 0 L.length).Ok m0 (fun _ m' =>
      OnlyY m0 B.n (fun i => sweep (rowUpdate B b idg u false) (backwardOrd B.m) B.m y0 (S.perm i)) m') := by
  obtain ⟨agg, T, cost, hT, hc, hw⟩ := built_iff.1 hb
  exact C71_reordered_barrier hx hA hT hc hw hw hn hp h u

end

/-! ### A case: the three schedules of `vee` for two threads -/

/-- The other order of the rows within the first level of `vee`. -/
def exLevels' : List (List Nat) := [[0, 1], [2]]

theorem vee_levels' : LevelDecomp (Dep vee) 3 exLevels' := by
  have hm : ∀ k i, i ∈ exLevels'.getD k [] ↔ i ∈ exLevels.getD k [] := by
    intro k i
    match k with
    | 0 => show i ∈ [0, 1] ↔ i ∈ [1, 0]; simp; omega
    | 1 => exact Iff.rfl
    | k + 2 => exact Iff.rfl
  have h := vee_levels
  refine ⟨by decide, by decide, ?_, ?_, ?_⟩
  · intro k i j hi hd
    obtain ⟨k', h1, h2⟩ := h.earlier k i j ((hm k i).1 hi) hd
    exact ⟨k', h1, (hm k' j).2 h2⟩
  · exact fun k i hi => h.chain k i ((hm k i).1 hi)
  · exact fun k i k' hi hc => h.longest k i k' ((hm k i).1 hi) hc

def exTr : TaskArrays := ⟨fun _ => 0, fun _ => 0, fun _ => 0⟩
def exBar : TaskArrays := ⟨fun _ => 7, fun _ => 7, fun _ => 7⟩

/-- With transitive reduction and without barriers; the permutation is 0, 2, 1. -/
theorem vee_with_reduction : ∃ S, BuiltWith S vee veeDp veeEp false exLevels false 2 (fun _ => 1) ∧ ∀ i, i < 3 → S.perm i = ([0, 2, 1] : List Nat).getD i 0 := by
  obtain ⟨P, lvl, h1, _⟩ := C30_task_partition_partial (useBarrier := false) (agg := false) (T := 2) (m := 3) (cost := fun _ => 1) (L := exLevels)
    exTr (by decide) vee_levels.rows (fun _ _ => by decide)
  refine ⟨_, ⟨vee_levels, _, P, h1, Or.inr ⟨_, _, rfl, List.Perm.refl _, List.Perm.refl _, rfl⟩⟩, ?_⟩
  have hk : (taskPartition false false 2 3 (fun _ => 1) exLevels exTr).map (fun P => (List.range 3).map P.sched.perm) = some [0, 2, 1] := by decide +kernel
  rw [h1] at hk
  have hk : [P.sched.perm 0, P.sched.perm 1, P.sched.perm 2] = [0, 2, 1] := Option.some.inj hk
  simp only [List.cons.injEq, and_true] at hk
  intro i hi
  show P.sched.perm i = _
  rcases (by omega : i = 0 ∨ i = 1 ∨ i = 2) with rfl | rfl | rfl
  · exact hk.1
  · exact hk.2.1
  · exact hk.2.2

/-- With barriers, from levels found in another order and other contents of the arrays. -/
theorem vee_with_barriers : ∃ S, BuiltWith S vee veeDp veeEp true exLevels' false 2 (fun _ => 1) ∧ S.Tiling ∧ S.T = 2 ∧ S.m = 3 := by
  obtain ⟨P, lvl, h1, h2, h3, h4, _⟩ := C30_task_partition_partial (useBarrier := true) (agg := false) (T := 2) (m := 3) (cost := fun _ => 1) (L := exLevels')
    exBar (by decide) vee_levels'.rows (fun _ _ => by decide)
  refine ⟨_, ⟨vee_levels', _, P, h1, Or.inl ⟨_, List.Perm.refl _, rfl⟩⟩, ?_, h2, h3⟩
  have := h4.tiling
  exact ⟨this.threadB_zero, this.threadB_mono, this.threadB_last, this.taskB_zero, this.taskB_mono, this.taskB_last, this.perm⟩

/-- The hypotheses of C71 are met: so the permutation of the schedule with barriers is 0, 2, 1 as well. -/
example : ∃ S, BuiltWith S vee veeDp veeEp true exLevels' false 2 (fun _ => 1) ∧ S.perm 0 = 0 ∧ S.perm 1 = 2 ∧ S.perm 2 = 1 := by
  obtain ⟨S', hb', hp⟩ := vee_with_reduction
  obtain ⟨S, hb, _⟩ := vee_with_barriers
  obtain ⟨_, _, _, _, _, h, _⟩ := C71_same_permutation (by decide) (fun _ _ => Nat.one_pos) hb hb'
  exact ⟨S, hb, (h 0 (by decide)).trans (hp 0 (by decide)), (h 1 (by decide)).trans (hp 1 (by decide)), (h 2 (by decide)).trans (hp 2 (by decide))⟩

/-- The strict lower triangle of `vee`, with other values, and reordered by 0, 2, 1. -/
def veeL : Csr Int := ⟨3, 3, fun i => ([0, 0, 0, 2] : List Nat).getD i 2, fun j => ([0, 1] : List Nat).getD j 0, fun j => ([2, 3] : List Int).getD j 0⟩
def veeL' : Csr Int := ⟨3, 3, fun i => ([0, 0, 2, 2] : List Nat).getD i 2, fun j => ([0, 2] : List Nat).getD j 0, fun j => ([2, 3] : List Int).getD j 0⟩

theorem veeL_nbr {r q : Nat} (h : veeL.Nbr r q) : vee.Nbr r q := by
  obtain ⟨p, ⟨h1, h2, h3⟩, h4⟩ := h
  have h1 : r < 3 := h1
  rcases (by omega : r = 0 ∨ r = 1 ∨ r = 2) with rfl | rfl | rfl
  · have h3 : p < 0 := h3
    omega
  · have h3 : p < 0 := h3
    omega
  · have h3 : p < 2 := h3
    rcases (by omega : p = 0 ∨ p = 1) with rfl | rfl
    · exact ⟨4, ⟨by decide, by decide, by decide⟩, h4⟩
    · exact ⟨5, ⟨by decide, by decide, by decide⟩, h4⟩

theorem veeL'_permuted {p : Nat → Nat} (hp : ∀ i, i < 3 → p i = ([0, 2, 1] : List Nat).getD i 0) : PermutedBy p veeL veeL' := by
  have h0 := hp 0 (by decide)
  have h1 := hp 1 (by decide)
  have h2 := hp 2 (by decide)
  simp at h0 h1 h2
  refine ⟨rfl, rfl, rfl, ⟨?_, ?_⟩, ?_⟩
  · intro i hi
    have hi : i < 3 := hi
    rcases (by omega : i = 0 ∨ i = 1 ∨ i = 2) with rfl | rfl | rfl <;> simp [h0, h1, h2, veeL]
  · intro i j hi hj e
    have hi : i < 3 := hi
    have hj : j < 3 := hj
    rcases (by omega : i = 0 ∨ i = 1 ∨ i = 2) with rfl | rfl | rfl <;>
      rcases (by omega : j = 0 ∨ j = 1 ∨ j = 2) with rfl | rfl | rfl <;> simp_all
  · intro i hi
    have hi : i < 3 := hi
    rcases (by omega : i = 0 ∨ i = 1 ∨ i = 2) with rfl | rfl | rfl
    · rw [h0]; exact List.Perm.refl _
    · rw [h1]
      show [(p 0, (2 : Int)), (p 2, 3)].Perm [(0, 2), (1, 3)]
      rw [h0, h2]
    · rw [h2]; exact List.Perm.refl _

theorem veeL'_wf : veeL'.WF := by
  have h1 : ∀ i < 3, veeL'.ptr i ≤ veeL'.ptr (i + 1) := by decide
  have h2 : ∀ j < 2, veeL'.col j < 3 := by decide
  exact ⟨rfl, fun i hi => h1 i hi, fun j hj => h2 j hj⟩

/-- The hypotheses of C71 for the solves are met: triangle and vectors of `vee` reordered with the permutation of the schedule with reduction, solved with
the schedule with barriers, arrays one-based. -/
example (b idg y0 : Nat → Int) : ∃ S S', BuiltWith S vee veeDp veeEp true exLevels' false 2 (fun _ => 1) ∧
    BuiltWith S' vee veeDp veeEp false exLevels false 2 (fun _ => 1) ∧
    (barrierFrom (fun _ => (4 + S.ntasks : Int)) S.T (fwdPhase (noPerm S)) (rowKernel 1 .solve false) 0 2).Ok
      (solverMem 1 veeL' (fun i => b (S'.perm i)) (fun i => idg (S'.perm i)) (fun i => y0 (S'.perm i))) (fun _ m' =>
      OnlyY (solverMem 1 veeL' (fun i => b (S'.perm i)) (fun i => idg (S'.perm i)) (fun i => y0 (S'.perm i))) 3
        (fun i => sweep (rowUpdate veeL b idg .solve false) forwardOrd 3 y0 (S'.perm i)) m') ∧
    RunsTo (fun _ => (4 + S.ntasks : Int)) S (forwardExec (noPerm S) 1 .solve)
      (solverMem 1 veeL' (fun i => b (S'.perm i)) (fun i => idg (S'.perm i)) (fun i => y0 (S'.perm i)))
      (OnlyY (solverMem 1 veeL' (fun i => b (S'.perm i)) (fun i => idg (S'.perm i)) (fun i => y0 (S'.perm i))) 3
        (fun i => sweep (rowUpdate veeL b idg .solve false) forwardOrd 3 y0 (S'.perm i))) := by
  obtain ⟨S', hb', hp⟩ := vee_with_reduction
  obtain ⟨S, hb, ht, hT, hm⟩ := vee_with_barriers
  have hset : SolveSetup (noPerm S) (fun _ => (4 + S.ntasks : Int))
      (solverMem 1 veeL' (fun i => b (S'.perm i)) (fun i => idg (S'.perm i)) (fun i => y0 (S'.perm i))) 1 veeL'
      (fun i => b (S'.perm i)) (fun i => idg (S'.perm i)) (fun i => y0 (S'.perm i)) := by
    refine ⟨veeL'_wf, by decide, hm, ?_, ?_, solverMem_ok _ _ _ _ _, ?_, ?_, ?_⟩
    · show 1 ≤ S.T
      omega
    · exact ⟨ht.threadB_zero, ht.threadB_mono, ht.threadB_last, ht.taskB_zero, ht.taskB_mono, ht.taskB_last, ⟨fun _ h => h, fun _ _ _ _ h => h⟩⟩
    · intro i hi
      show (if 0 ≤ (i : Int) ∧ (i : Int) < veeL'.n then some (y0 (S'.perm (i : Int).toNat)) else none) = _
      simp [hi]
    · show (3 : Int) ≤ 4 + S.ntasks
      omega
    · show (S.ntasks : Int) ≤ 4 + S.ntasks
      omega
  exact ⟨S, S', hb, hb',
    (C71_reordered_barrier int_subExchange vee_schedulable (by decide) (fun _ _ => Nat.one_pos) hb hb' (fun _ _ _ _ h => veeL_nbr h) (veeL'_permuted hp) hset .solve).1,
    (C71_reordered_p2p int_subExchange vee_schedulable (by decide) (fun _ _ => Nat.one_pos) hb hb' (fun _ _ _ _ h => veeL_nbr h) (veeL'_permuted hp) hset .solve).1⟩

end SpMP.Props
