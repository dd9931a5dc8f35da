import Verif.BarrierExec
/-
Theorems for C33, C34, C35, C36, C38: execution of level schedules.
-/

set_option linter.unusedSectionVars false

namespace SpMP.Props
open SpMP SpMP.Spec

variable {R : Type}

/-! ### Any kernel -/

/-- C33 for an arbitrary row kernel: if the schedule covers the dependencies, every interleaving of the forward
point-to-point loop computes the sequential sweep over rows 0, 1, ..., m-1. -/
theorem C33_any_kernel {S : Schedule} {sz : CArr → Int} {m0 : Mem (CTy R)} {n : Nat} {nbr : Nat → Nat → Prop}
    {body : Nat → Prog (CTy R) Unit} {f : Nat → (Nat → R) → R} {lvl : Nat → Nat} {y0 : Nat → R}
    (hS : S.Tiling) (hl : S.Levelled lvl) (hT : 1 ≤ S.T) (hcov : S.CoversFwd nbr)
    (hk : KernelOn sz m0 S.m n nbr body f) (hsz : (S.ntasks : Int) ≤ sz (.itmp 0))
    (hy : ∀ i : Nat, i < n → m0 (.vec 1) (i : Int) = some (y0 i)) :
    RunsTo sz S (sweepP2P (fwdTasks S) (fwdRows S) S.parF body) m0 (OnlyY m0 n (sweep f forwardOrd S.m y0)) :=
  fwd_exec (pos := fun r => r) hS hl hT (fun _ hk => ⟨hk, rfl⟩) (fun _ hr => ⟨hr, rfl⟩)
    (fun q r a b _ hr hlt hn ha hb => hcov q r a b hlt hr hn ha hb) hk hsz hy

/-- C34 for an arbitrary row kernel. -/
theorem C34_any_kernel {S : Schedule} {sz : CArr → Int} {m0 : Mem (CTy R)} {n : Nat} {nbr : Nat → Nat → Prop}
    {body : Nat → Prog (CTy R) Unit} {f : Nat → (Nat → R) → R} {lvl : Nat → Nat} {y0 : Nat → R}
    (hS : S.Tiling) (hl : S.Levelled lvl) (hT : 1 ≤ S.T) (hcov : S.CoversBwd nbr)
    (hk : KernelOn sz m0 S.m n nbr body f) (hsz : (S.ntasks : Int) ≤ sz (.itmp 0))
    (hy : ∀ i : Nat, i < n → m0 (.vec 1) (i : Int) = some (y0 i)) :
    RunsTo sz S (sweepP2P (bwdTasks S) (bwdRows S) S.parB body) m0 (OnlyY m0 n (sweep f (backwardOrd S.m) S.m y0)) :=
  bwd_exec (pos := fun r => S.m - 1 - r) hS hl hT
    (fun k hk => ⟨by unfold backwardOrd; omega, by unfold backwardOrd; omega⟩)
    (fun r hr => ⟨by omega, by unfold backwardOrd; omega⟩)
    (fun q r a b hq hr hlt hn ha hb => hcov r q b a (by omega) hq hn.symm hb ha) hk hsz hy

/-! ### Triangular solves and Gauss-Seidel -/

section
variable [Sub R] [Mul R] [Add R]

/-- A solver call: a matrix (rows not more than columns), right-hand side, inverse diagonal and start vector in
memory, and a schedule for as many rows with flags for all its tasks. -/
structure SolveSetup (S : Schedule) (sz : CArr → Int) (m0 : Mem (CTy R)) (base : Nat) (A : Csr R)
    (b idg y0 : Nat → R) : Prop where
  wf : A.WF
  rows_le : A.m ≤ A.n
  rows : S.m = A.m
  team : 1 ≤ S.T
  tiling : S.Tiling
  mem : SolverMem m0 base A b idg
  y : ∀ i : Nat, i < A.n → m0 (.vec 1) (i : Int) = some (y0 i)
  size_y : (A.m : Int) ≤ sz (.vec 1)
  size_flags : (S.ntasks : Int) ≤ sz (.itmp 0)

/-- The forward point-to-point loop (trsv_test.cpp:191-234 for `.solve`, gs_test.cpp:189-232 for `.gs`). -/
def forwardExec (S : Schedule) (base : Nat) (u : Update) : P2P (CTy R) :=
  sweepP2P (fwdTasks S) (fwdRows S) S.parF (rowKernel base u false)

/-- The backward point-to-point loop (trsv_test.cpp:240-283 for `.solveUnit`, gs_test.cpp:238-281 for `.gs`). -/
def backwardExec (S : Schedule) (base : Nat) (u : Update) : P2P (CTy R) :=
  sweepP2P (bwdTasks S) (bwdRows S) S.parB (rowKernel base u true)

theorem onlyY_withY (m0 : Mem (CTy R)) (n : Nat) (y : Nat → R) : OnlyY m0 n y (withY m0 n y) := by
  refine ⟨fun i hi => withY_vec _ _ _ hi, ?_⟩
  intro a i _ h
  by_cases hv1 : a = .vec 1
  · subst hv1
    simp only [withY]
    rw [if_neg (by intro h'; exact h ⟨rfl, h'⟩)]
  · rw [withY_other _ _ _ hv1]

/-- C33. The forward point-to-point loop and the sequential reference loop (rows 0..m-1) leave the same vector, bit for
bit (no law of arithmetic is used), in every interleaving, and change nothing else. -/
theorem C33_forward_p2p {S : Schedule} {sz : CArr → Int} {m0 : Mem (CTy R)} {base : Nat} {A : Csr R}
    {b idg y0 : Nat → R} {lvl : Nat → Nat} (h : SolveSetup S sz m0 base A b idg y0) (hl : S.Levelled lvl)
    (hcov : S.CoversFwd A.Nbr) (u : Update) :
    ∃ y : Nat → R, y = sweep (rowUpdate A b idg u false) forwardOrd A.m y0 ∧
      RunsTo sz S (forwardExec S base u) m0 (OnlyY m0 A.n y) ∧
      (Script.seq sz (seqLoop A.m forwardOrd (rowKernel base u false)) .done).Ok m0 (fun _ m' => OnlyY m0 A.n y m') := by
  refine ⟨_, rfl, ?_, ?_⟩
  · have hk := rowKernel_on h.wf h.rows_le h.mem h.size_y u false
    rw [← h.rows] at hk ⊢
    exact C33_any_kernel h.tiling hl h.team hcov hk h.size_flags h.y
  · refine Script.Ok.mono (seqLoop_ok (rowKernel_isKernel h.wf h.rows_le h.mem h.size_y u false)
      (fun k hk => hk) h.y) ?_
    rintro _ m' rfl; exact onlyY_withY _ _ _

/-- C34. The backward point-to-point loop visits each row's entries in reverse order; it computes exactly the
sequential backward sweep of that row kernel, and, when subtractions may be exchanged (exact arithmetic), the
vector left by the sequential reference loop (rows m-1..0, entries in storage order). -/
theorem C34_backward_p2p {S : Schedule} {sz : CArr → Int} {m0 : Mem (CTy R)} {base : Nat} {A : Csr R}
    {b idg y0 : Nat → R} {lvl : Nat → Nat} (h : SolveSetup S sz m0 base A b idg y0) (hl : S.Levelled lvl)
    (hcov : S.CoversBwd A.Nbr) (u : Update) :
    RunsTo sz S (backwardExec S base u) m0
      (OnlyY m0 A.n (sweep (rowUpdate A b idg u true) (backwardOrd A.m) A.m y0)) ∧
    (SubExchange R → ∃ y : Nat → R, y = sweep (rowUpdate A b idg u false) (backwardOrd A.m) A.m y0 ∧
      RunsTo sz S (backwardExec S base u) m0 (OnlyY m0 A.n y) ∧
      (Script.seq sz (seqLoop A.m (backwardOrd A.m) (rowKernel base u false)) .done).Ok m0
        (fun _ m' => OnlyY m0 A.n y m')) := by
  have h1 : RunsTo sz S (backwardExec S base u) m0
      (OnlyY m0 A.n (sweep (rowUpdate A b idg u true) (backwardOrd A.m) A.m y0)) := by
    have hk := rowKernel_on h.wf h.rows_le h.mem h.size_y u true
    rw [← h.rows] at hk ⊢
    exact C34_any_kernel h.tiling hl h.team hcov hk h.size_flags h.y
  refine ⟨h1, fun hx => ⟨_, rfl, ?_, ?_⟩⟩
  · rw [sweep_congr (fun r y => rowUpdate_rev hx A b idg u r y)] at h1
    exact h1
  · refine Script.Ok.mono (seqLoop_ok (rowKernel_isKernel h.wf h.rows_le h.mem h.size_y u false)
      (fun k hk => by unfold backwardOrd; omega) h.y) ?_
    rintro _ m' rfl; exact onlyY_withY _ _ _

/-- No deadlock and termination of a point-to-point run: from every reachable state in which some thread has not
returned, some thread can take a step (that is, not all are spinning); and every fair run ends with all
threads returned. -/
def Live (sz : CArr → Int) (S : Schedule) (P : P2P (CTy R)) (m0 : Mem (CTy R)) : Prop :=
  (clearFlags sz S.T S.ntasks).Ok m0 (fun _ m1 =>
    (∀ ls g, TeamReach (p2pMachine sz P) S.T (fun t => .next (P.tasksOf t)) m1 ls g →
      (∃ t, t < S.T ∧ ls t ≠ .next []) → ∃ ls' g', TeamStep (p2pMachine sz P) S.T ls g ls' g') ∧
    (∀ (sch : Nat → Nat) (ls : Nat → Nat → PState (CTy R)) (g : Nat → Mem (CTy R)),
      IsRun (p2pMachine sz P) S.T sch ls g → ls 0 = (fun t => .next (P.tasksOf t)) → g 0 = m1 →
      (∀ t, t < S.T → ∀ k, ∃ k', k ≤ k' ∧ sch k' = t) →
      ∃ k, ∀ t, t < S.T → ls k t = .next []))

theorem live_of_runsTo {sz : CArr → Int} {S : Schedule} {P : P2P (CTy R)} {m0 : Mem (CTy R)}
    {Post : Mem (CTy R) → Prop} (h : RunsTo sz S P m0 Post) : Live sz S P m0 := by
  refine Script.Ok.mono h ?_
  rintro _ m1 ⟨hok, _⟩
  refine ⟨?_, ?_⟩
  · intro ls g hr hx
    cases hok.reach hr with | mk _ _ h3 _ => exact h3 hx
  · intro sch ls g hrun h0 hg hfair
    obtain ⟨k, _, hk, _⟩ := TeamOk.fair_terminates hrun hfair hok 0 h0 hg
    exact ⟨k, hk⟩

/-- C35. Forward and backward point-to-point execution never deadlock and terminate in every fair execution. -/
theorem C35_no_deadlock {S : Schedule} {sz : CArr → Int} {m0 : Mem (CTy R)} {base : Nat} {A : Csr R}
    {b idg y0 : Nat → R} {lvl : Nat → Nat} (h : SolveSetup S sz m0 base A b idg y0) (hl : S.Levelled lvl)
    (hf : S.CoversFwd A.Nbr) (hb : S.CoversBwd A.Nbr) (u : Update) :
    Live sz S (forwardExec (R := R) S base u) m0 ∧ Live sz S (backwardExec (R := R) S base u) m0 := by
  obtain ⟨y, _, h1, _⟩ := C33_forward_p2p h hl hf u
  exact ⟨live_of_runsTo h1, live_of_runsTo (C34_backward_p2p h hl hb u).1⟩

/-! ### C36 -/

theorem rowIn_unique {S : Schedule} (hS : S.Tiling) {k k' r : Nat} (h : S.RowIn k r) (h' : S.RowIn k' r) : k = k' := by
  obtain ⟨p, ⟨hk, h1, h2⟩, h3⟩ := h
  obtain ⟨q, ⟨hk', h4, h5⟩, h6⟩ := h'
  have hb : ∀ k, k < S.ntasks → S.taskB (k + 1) ≤ S.m := by
    intro k hk
    rw [← hS.taskB_last]; exact mono_range hS.taskB_mono (by omega) (Nat.le_refl _)
  have e : p = q := hS.perm.2 p q (by have := hb k hk; omega) (by have := hb k' hk'; omega) (by rw [h3, h6])
  subst e
  exact seg_unique hS.taskB_mono hk hk' h1 h2 h4 h5

/-- Rows of phase `l` of thread `t`, forward: task `threadBoundaries[t] + l`. -/
def fwdPhase (S : Schedule) (l t : Nat) : List Nat := fwdRows S (S.threadB t + l)

/-- Rows of phase `l` of thread `t`, backward: task `threadBoundaries[t+1] - 1 - l`. -/
def bwdPhase (S : Schedule) (l t : Nat) : List Nat := bwdRows S (S.threadB (t + 1) - 1 - l)

/-- A schedule in which every thread has `L` tasks: what the phases of a barrier execution contain. -/
structure PhaseFacts (S : Schedule) (L : Nat) (task : Nat → Nat) : Prop where
  row : ∀ r, r < S.m → task r < S.ntasks ∧ S.RowIn (task r) r
  length : ∀ t, t < S.T → S.threadB (t + 1) = S.threadB t + L
  mod : ∀ t, t < S.T → ∀ l, l < L → S.threadB t + l < S.ntasks ∧ (S.threadB t + l) % L = l
  pos : ∀ r, r < S.m → 0 < L
  thread : ∀ k, k < S.ntasks → 0 < L → ∃ t, t < S.T ∧ k = S.threadB t + k % L
  nodup : ∀ k, k < S.ntasks → (fwdRows S k).Nodup
  phase : ∀ l t r, l < L → t < S.T → r ∈ fwdPhase S l t → r < S.m ∧ task r = S.threadB t + l
  rev : ∀ l t, l < L → t < S.T → bwdPhase S l t = (fwdPhase S (L - 1 - l) t).reverse
  one : ∀ t u l l', t < S.T → u < S.T → l < L → l' < L → S.threadB t + l = S.threadB u + l' → t = u ∧ l = l'

theorem phaseFacts {S : Schedule} {L : Nat} (hS : S.Tiling) (hb : ∀ t, t ≤ S.T → S.threadB t = t * L) : ∃ task, PhaseFacts S L task := by
  have hTL : S.ntasks = S.T * L := by rw [← hS.threadB_last, hb _ (Nat.le_refl _)]
  have hLt : ∀ t, t < S.T → S.threadB (t + 1) = S.threadB t + L := by
    intro t ht
    rw [hb t (by omega), hb (t + 1) (by omega), Nat.add_mul, Nat.one_mul]
  have htB : ∀ t, t < S.T → ∀ l, l < L → S.threadB t + l < S.ntasks ∧ (S.threadB t + l) % L = l := by
    intro t ht l hl
    rw [hTL, hb t (by omega)]
    have : (t + 1) * L ≤ S.T * L := Nat.mul_le_mul_right _ ht
    rw [Nat.add_mul] at this
    refine ⟨by omega, ?_⟩
    rw [Nat.add_comm, Nat.add_mul_mod_self_right]; exact Nat.mod_eq_of_lt hl
  -- the task of a row
  have htask : ∀ r : Nat, ∃ k, r < S.m → k < S.ntasks ∧ S.RowIn k r := by
    intro r
    by_cases hr : r < S.m
    · obtain ⟨k, h1, h2⟩ := exists_rowIn hS hr; exact ⟨k, fun _ => ⟨h1, h2⟩⟩
    · exact ⟨0, fun h => absurd h hr⟩
  obtain ⟨task, htask⟩ := Classical.axiomOfChoice htask
  have hLpos : ∀ r, r < S.m → 0 < L := by
    intro r hr
    have := (htask r hr).1
    rw [hTL] at this
    rcases Nat.eq_zero_or_pos L with h0 | h0
    · subst h0; simp at this
    · exact h0
  have hth : ∀ k, k < S.ntasks → 0 < L → ∃ t, t < S.T ∧ k = S.threadB t + k % L := by
    intro k hk hL
    refine ⟨k / L, ?_, ?_⟩
    · rw [hTL] at hk
      exact Nat.div_lt_of_lt_mul (by rw [Nat.mul_comm]; exact hk)
    · rw [hb _ ?_]
      · rw [Nat.mul_comm, Nat.div_add_mod]
      · rw [hTL] at hk
        exact Nat.le_of_lt (Nat.div_lt_of_lt_mul (by rw [Nat.mul_comm]; exact hk))
  have hrm : ∀ k r, S.RowIn k r → r < S.m := by
    rintro k r ⟨p, ⟨hk, h1, h2⟩, rfl⟩
    have hbk : S.taskB (k + 1) ≤ S.m := by
      rw [← hS.taskB_last]; exact mono_range hS.taskB_mono (by omega) (Nat.le_refl _)
    exact hS.perm.1 p (by omega)
  have hnod : ∀ k, k < S.ntasks → (fwdRows S k).Nodup := by
    intro k hk
    unfold fwdRows
    refine List.Nodup.map_on ?_ (seg_nodup _ _)
    intro p hp q hq he
    rw [mem_seg] at hp hq
    have hbk : S.taskB (k + 1) ≤ S.m := by
      rw [← hS.taskB_last]; exact mono_range hS.taskB_mono (by omega) (Nat.le_refl _)
    exact hS.perm.2 p q (by omega) (by omega) he
  have hph : ∀ l t r, l < L → t < S.T → r ∈ fwdPhase S l t → r < S.m ∧ task r = S.threadB t + l := by
    intro l t r hl ht hr
    have hk := htB t ht l hl
    have hin := (mem_fwdRows hk.1).1 hr
    have hr' := hrm _ _ hin
    exact ⟨hr', rowIn_unique hS (htask r hr').2 hin⟩
  have hbp : ∀ l t, l < L → t < S.T → bwdPhase S l t = (fwdPhase S (L - 1 - l) t).reverse := by
    intro l t hl ht
    unfold bwdPhase fwdPhase bwdRows
    rw [hLt t ht]
    have : S.threadB t + L - 1 - l = S.threadB t + (L - 1 - l) := by omega
    rw [this]
  have hone : ∀ t u l l', t < S.T → u < S.T → l < L → l' < L → S.threadB t + l = S.threadB u + l' → t = u ∧ l = l' := by
    intro t u l l' ht hu hl hl' he
    have e1 := (htB t ht l hl).2
    have e2 := (htB u hu l' hl').2
    rw [he, e2] at e1
    subst e1
    rw [hb t (by omega), hb u (by omega)] at he
    have : t * L = u * L := by omega
    exact ⟨Nat.eq_of_mul_eq_mul_right (by omega) this, rfl⟩
  exact ⟨task, htask, hLt, htB, hLpos, hth, hnod, hph, hbp, hone⟩

/-- Barrier execution in any order that the phases respect, forward. -/
theorem barrier_fwd [Races CArr] {S : Schedule} {sz : CArr → Int} {m0 : Mem (CTy R)} {L n : Nat} {nbr : Nat → Nat → Prop}
    {body : Nat → Prog (CTy R) Unit} {f : Nat → (Nat → R) → R} {ord pos : Nat → Nat} {y0 : Nat → R} (hS : S.Tiling)
    (hb : ∀ t, t ≤ S.T → S.threadB t = t * L) (hmn : S.m ≤ n)
    (hord : ∀ k, k < S.m → ord k < S.m ∧ pos (ord k) = k) (hpos : ∀ r, r < S.m → pos r < S.m ∧ ord (pos r) = r)
    (hk : IsKernel sz m0 S.m n nbr body f) (hloc : Local S.m nbr f)
    (hdep : ∀ q r a b, q < S.m → r < S.m → pos q < pos r → (nbr r q ∨ nbr q r) → S.RowIn a q → S.RowIn b r → a % L < b % L)
    (hy : ∀ i : Nat, i < n → m0 (.vec 1) (i : Int) = some (y0 i)) :
    (barrierFrom sz S.T (fwdPhase S) body 0 L).Ok m0 (fun _ m' => m' = withY m0 n (sweep f ord S.m y0)) := by
  obtain ⟨task, F⟩ := phaseFacts hS hb
  refine barrier_exec (pos := pos) (ph := fun r => task r % L) hmn hord hpos hk hloc ?_ ?_ ?_ ?_ ?_ hy
  · intro l t r hl ht hr
    obtain ⟨h1, h2⟩ := F.phase l t r hl ht hr
    exact ⟨h1, by show task r % L = l; rw [h2]; exact (F.mod t ht l hl).2⟩
  · intro r hr
    have hL := F.pos r hr
    obtain ⟨hk1, hk2⟩ := F.row r hr
    obtain ⟨t, ht, he⟩ := F.thread (task r) hk1 hL
    refine ⟨Nat.mod_lt _ hL, t, ht, ?_⟩
    show r ∈ fwdRows S (S.threadB t + task r % L)
    rw [← he]; exact (mem_fwdRows hk1).2 hk2
  · intro l t hl ht; exact F.nodup _ (F.mod t ht l hl).1
  · intro l t u r hl ht hu h1 h2
    have e1 := (F.phase l t r hl ht h1).2
    have e2 := (F.phase l u r hl hu h2).2
    exact (F.one t u l l ht hu hl hl (by omega)).1
  · intro q r hq hr hlt hn
    exact hdep q r _ _ hq hr hlt hn (F.row q hq).2 (F.row r hr).2

/-- Barrier execution in any order that the phases respect, backward. -/
theorem barrier_bwd [Races CArr] {S : Schedule} {sz : CArr → Int} {m0 : Mem (CTy R)} {L n : Nat} {nbr : Nat → Nat → Prop}
    {body : Nat → Prog (CTy R) Unit} {f : Nat → (Nat → R) → R} {ord pos : Nat → Nat} {y0 : Nat → R} (hS : S.Tiling)
    (hb : ∀ t, t ≤ S.T → S.threadB t = t * L) (hmn : S.m ≤ n)
    (hord : ∀ k, k < S.m → ord k < S.m ∧ pos (ord k) = k) (hpos : ∀ r, r < S.m → pos r < S.m ∧ ord (pos r) = r)
    (hk : IsKernel sz m0 S.m n nbr body f) (hloc : Local S.m nbr f)
    (hdep : ∀ q r a b, q < S.m → r < S.m → pos q < pos r → (nbr r q ∨ nbr q r) → S.RowIn a q → S.RowIn b r → b % L < a % L)
    (hy : ∀ i : Nat, i < n → m0 (.vec 1) (i : Int) = some (y0 i)) :
    (barrierFrom sz S.T (bwdPhase S) body 0 L).Ok m0 (fun _ m' => m' = withY m0 n (sweep f ord S.m y0)) := by
  obtain ⟨task, F⟩ := phaseFacts hS hb
  refine barrier_exec (pos := pos) (ph := fun r => L - 1 - task r % L) hmn hord hpos hk hloc ?_ ?_ ?_ ?_ ?_ hy
  · intro l t r hl ht hr
    rw [F.rev l t hl ht, List.mem_reverse] at hr
    obtain ⟨h1, h2⟩ := F.phase _ t r (by omega) ht hr
    refine ⟨h1, ?_⟩
    show L - 1 - task r % L = l
    rw [h2, (F.mod t ht (L - 1 - l) (by omega)).2]; omega
  · intro r hr
    have hL := F.pos r hr
    obtain ⟨hk1, hk2⟩ := F.row r hr
    obtain ⟨t, ht, he⟩ := F.thread (task r) hk1 hL
    have hmod := Nat.mod_lt (task r) hL
    refine ⟨by omega, t, ht, ?_⟩
    rw [F.rev _ t (by omega) ht, List.mem_reverse]
    have e : L - 1 - (L - 1 - task r % L) = task r % L := by omega
    rw [e]
    show r ∈ fwdRows S (S.threadB t + task r % L)
    rw [← he]; exact (mem_fwdRows hk1).2 hk2
  · intro l t hl ht
    rw [F.rev l t hl ht, List.nodup_reverse]
    exact F.nodup _ (F.mod t ht _ (by omega)).1
  · intro l t u r hl ht hu h1 h2
    rw [F.rev l _ hl ht, List.mem_reverse] at h1
    rw [F.rev l _ hl hu, List.mem_reverse] at h2
    have e1 := (F.phase _ t r (by omega) ht h1).2
    have e2 := (F.phase _ u r (by omega) hu h2).2
    exact (F.one t u _ _ ht hu (by omega) (by omega) (e1.symm.trans e2)).1
  · intro q r hq hr hlt hn
    have hL := F.pos r hr
    have := hdep q r _ _ hq hr hlt hn (F.row q hq).2 (F.row r hr).2
    have := Nat.mod_lt (task q) hL
    show L - 1 - task q % L < L - 1 - task r % L
    omega

/-- C36. With a barrier after every task, every interleaving between barriers gives the sequential sweep: forward bit for
bit, backward with the entries of a row visited in reverse order. Every thread executes `L` tasks, hence `L`
barriers: phase `l` of the script is the `l`-th task of every thread. Holds under every race policy, so without data races (C58). -/
theorem C36_barrier [Races CArr] {S : Schedule} {sz : CArr → Int} {m0 : Mem (CTy R)} {base L : Nat} {A : Csr R}
    {b idg y0 : Nat → R} (h : SolveSetup S sz m0 base A b idg y0) (hb : S.Barriered L A.Nbr) (u : Update) :
    (∀ t, t < S.T → fwdTasks S t = (List.range L).map (fun l => S.threadB t + l) ∧
      bwdTasks S t = (List.range L).map (fun l => S.threadB (t + 1) - 1 - l)) ∧
    (barrierFrom sz S.T (fwdPhase S) (rowKernel base u false) 0 L).Ok m0
      (fun _ m' => OnlyY m0 A.n (sweep (rowUpdate A b idg u false) forwardOrd A.m y0) m') ∧
    (barrierFrom sz S.T (bwdPhase S) (rowKernel base u true) 0 L).Ok m0
      (fun _ m' => OnlyY m0 A.n (sweep (rowUpdate A b idg u true) (backwardOrd A.m) A.m y0) m') := by
  have hS := h.tiling
  have hrows := h.rows
  have hle := h.rows_le
  obtain ⟨task, F⟩ := phaseFacts hS hb.threadB
  refine ⟨?_, ?_, ?_⟩
  · intro t ht
    have e : fwdTasks S t = (List.range L).map (fun l => S.threadB t + l) := by
      unfold fwdTasks seg
      rw [F.length t ht, Nat.add_sub_cancel_left, List.range'_eq_map_range]
    refine ⟨e, ?_⟩
    unfold bwdTasks
    rw [e, F.length t ht]
    apply List.ext_getElem
    · simp
    · intro i h1 h2
      simp at h1
      simp
      omega
  · have hk := rowKernel_isKernel h.wf h.rows_le h.mem h.size_y u false
    have hloc := rowUpdate_local A b idg u false
    rw [← hrows] at hk hloc hle ⊢
    refine Script.Ok.mono (barrier_fwd (pos := fun r => r) (ord := forwardOrd) hS hb.threadB hle (fun k hk => ⟨hk, rfl⟩)
      (fun r hr => ⟨hr, rfl⟩) hk hloc (fun q r a b _ hr hlt hn ha hb' => hb.level q r a b hlt hr hn ha hb') h.y) ?_
    rintro _ m' rfl; exact onlyY_withY _ _ _
  · have hk := rowKernel_isKernel h.wf h.rows_le h.mem h.size_y u true
    have hloc := rowUpdate_local A b idg u true
    rw [← hrows] at hk hloc hle ⊢
    refine Script.Ok.mono (barrier_bwd (pos := fun r => S.m - 1 - r) (ord := backwardOrd S.m) hS hb.threadB hle
      (fun k hk => ⟨by unfold backwardOrd; omega, by unfold backwardOrd; omega⟩)
      (fun r hr => ⟨by omega, by unfold backwardOrd; omega⟩) hk hloc
      (fun q r a b hq _ hlt hn ha hb' => hb.level r q b a (by omega) hq hn.symm hb' ha) h.y) ?_
    rintro _ m' rfl; exact onlyY_withY _ _ _

/-! ### C38 -/

theorem residual_permuted (hx : SubExchange R) {p : Nat → Nat} {A A' : Csr R} (hp : PermutedBy p A A')
    {b y : Nat → R} {i : Nat} (hi : i < A.m) {l : List Nat} (hl : l.Perm (rowPos A' i)) :
    residual A' (fun i => b (p i)) (fun i => y (p i)) i l = residual A b y (p i) (rowPos A (p i)) := by
  unfold residual
  have e1 := foldl_sub_perm hx (fun j => A'.val j * y (p (A'.col j))) hl (b (p i))
  have e2 := foldl_sub_perm hx (fun e : Nat × R => e.2 * y e.1) (hp.rows i hi) (b (p i))
  simp only [List.foldl_map] at e2
  exact e1.trans e2

/-- The reordered system: the inverse of the permutation, the neighbours, and the sweeps. -/
theorem reordered_facts (hx : SubExchange R) {S : Schedule} {sz : CArr → Int} {m0 : Mem (CTy R)} {base : Nat}
    {A A' : Csr R} {b idg y0 : Nat → R} (hp : PermutedBy S.perm A A') (hS : S.Tiling)
    (h : SolveSetup (noPerm S) sz m0 base A' (fun i => b (S.perm i)) (fun i => idg (S.perm i)) (fun i => y0 (S.perm i))) (u : Update) :
    ∃ inv : Nat → Nat, (∀ k, k < S.m → inv k < S.m ∧ S.perm (inv k) = k) ∧ (∀ i, i < S.m → inv (S.perm i) = i) ∧
      (∀ r c, r < S.m → A'.Nbr r c → A.Nbr (S.perm r) (S.perm c)) ∧
      ∀ rev (ord : Nat → Nat), (∀ k, k < S.m → ord k < S.m) → ∀ m',
        OnlyY m0 A'.n (sweep (rowUpdate A' (fun i => b (S.perm i)) (fun i => idg (S.perm i)) u rev)
          (fun k => inv (ord k)) S.m (fun i => y0 (S.perm i))) m' →
        OnlyY m0 A.n (fun i => sweep (rowUpdate A b idg u false) ord A.m y0 (S.perm i)) m' := by
  have hSm : S.m = A.m := by rw [← hp.m]; exact h.rows
  have hperm := hS.perm
  have hsurj := isPermFn_surj hperm
  -- inverse of the permutation
  have hinv : ∀ k : Nat, ∃ i, k < S.m → i < S.m ∧ S.perm i = k := by
    intro k
    by_cases hk : k < S.m
    · obtain ⟨i, h1, h2⟩ := hsurj k hk; exact ⟨i, fun _ => ⟨h1, h2⟩⟩
    · exact ⟨0, fun h => absurd h hk⟩
  obtain ⟨inv, hinv⟩ := Classical.axiomOfChoice hinv
  have hinv2 : ∀ i, i < S.m → inv (S.perm i) = i := by
    intro i hi
    have h1 := hinv (S.perm i) (hperm.1 i hi)
    exact hperm.2 _ _ h1.1 hi h1.2
  have hnbr : ∀ r c, r < S.m → A'.Nbr r c → A.Nbr (S.perm r) (S.perm c) := by
    rintro r c hr ⟨j, hj, rfl⟩
    have h1 : (S.perm (A'.col j), A'.val j) ∈ ((rowPos A (S.perm r)).map fun j => (A.col j, A.val j)) := by
      rw [← (hp.rows r (by omega)).mem_iff]
      refine List.mem_map.2 ⟨j, ?_, rfl⟩
      unfold rowPos; rw [List.mem_range'_1]
      have := hj.2.1
      have := hj.2.2
      omega
    obtain ⟨j', h2, h3⟩ := List.mem_map.1 h1
    unfold rowPos at h2; rw [List.mem_range'_1] at h2
    refine ⟨j', ⟨by have := hperm.1 r hr; omega, h2.1, by omega⟩, ?_⟩
    exact (Prod.mk.inj h3).1
  have hstep : ∀ rev (k : Nat) (y : Nat → R), k < S.m →
      rowUpdate A' (fun i => b (S.perm i)) (fun i => idg (S.perm i)) u rev (inv k) (fun i => y (S.perm i)) =
      rowUpdate A b idg u false k y := by
    intro rev k y hk
    have h1 := hinv k hk
    unfold rowUpdate
    rw [residual_permuted hx hp (b := b) (y := y) (i := inv k) (by omega)
      (by cases rev
          · simp
          · simp), h1.2]
    simp only [h1.2]
    simp
  have hsweep : ∀ rev (ord : Nat → Nat), (∀ k, k < S.m → ord k < S.m) → ∀ k, k ≤ S.m → ∀ i, i < S.m →
      sweep (rowUpdate A' (fun i => b (S.perm i)) (fun i => idg (S.perm i)) u rev) (fun k => inv (ord k)) k
        (fun i => y0 (S.perm i)) i = sweep (rowUpdate A b idg u false) ord k y0 (S.perm i) := by
    intro rev ord hord k
    induction k with
    | zero => intro _ i _; rfl
    | succ k ih =>
      intro hk i hi
      have ho := hord k (by omega)
      have h1 := hinv (ord k) ho
      have hloc := rowUpdate_local A' (fun i => b (S.perm i)) (fun i => idg (S.perm i)) u rev (inv (ord k))
        (sweep (rowUpdate A' (fun i => b (S.perm i)) (fun i => idg (S.perm i)) u rev) (fun k => inv (ord k)) k
          (fun i => y0 (S.perm i)))
        (fun i => sweep (rowUpdate A b idg u false) ord k y0 (S.perm i)) (by have := hp.m; omega)
        (ih (by omega) _ h1.1)
        (by
          rintro c ⟨j, hj, rfl⟩
          have hc := h.wf.col_lt j (hj.lt_nnz h.wf)
          have := hp.n; have := hp.square
          exact ih (by omega) _ (by omega))
      simp only [sweep, updV]
      rw [hloc, hstep rev (ord k) _ ho]
      by_cases he : i = inv (ord k)
      · rw [if_pos he, if_pos (by rw [he, h1.2])]
      · rw [if_neg he, if_neg ?_]
        · exact ih (by omega) i hi
        · intro hc; exact he (by rw [← hc, hinv2 i hi])
  have hmm : (noPerm S).m = S.m := rfl
  have hnn : A'.n = A.n := hp.n
  have hAn : A.n = S.m := by have := hp.square; omega
  have hpost : ∀ rev (ord : Nat → Nat), (∀ k, k < S.m → ord k < S.m) → ∀ m',
      OnlyY m0 A'.n (sweep (rowUpdate A' (fun i => b (S.perm i)) (fun i => idg (S.perm i)) u rev)
        (fun k => inv (ord k)) S.m (fun i => y0 (S.perm i))) m' →
      OnlyY m0 A.n (fun i => sweep (rowUpdate A b idg u false) ord A.m y0 (S.perm i)) m' := by
    intro rev ord hord m' hm'
    rw [hnn] at hm'
    refine ⟨?_, hm'.2⟩
    intro i hi
    rw [hm'.1 i hi, hsweep rev ord hord S.m (Nat.le_refl _) i (by omega), hSm]
  exact ⟨inv, hinv, hinv2, hnbr, hpost⟩

/-- C38. The reordered system: matrix `A'`, right-hand side, inverse diagonal and start vector permuted by the schedule's
permutation. Forward and backward point-to-point loops over the task ranges leave the permuted solution of the
original sequential loops, in every interleaving (arithmetic in which subtractions may be exchanged). -/
theorem C38_reordered (hx : SubExchange R) {S : Schedule} {sz : CArr → Int} {m0 : Mem (CTy R)} {base : Nat}
    {A A' : Csr R} {b idg y0 : Nat → R} {lvl : Nat → Nat}
    (hp : PermutedBy S.perm A A') (hS : S.Tiling)
    (h : SolveSetup (noPerm S) sz m0 base A' (fun i => b (S.perm i)) (fun i => idg (S.perm i))
      (fun i => y0 (S.perm i))) (hl : S.Levelled lvl) (u : Update) :
    (S.CoversFwd A.Nbr → RunsTo sz S (forwardExec (noPerm S) base u) m0
      (OnlyY m0 A.n (fun i => sweep (rowUpdate A b idg u false) forwardOrd A.m y0 (S.perm i)))) ∧
    (S.CoversBwd A.Nbr → RunsTo sz S (backwardExec (noPerm S) base u) m0
      (OnlyY m0 A.n (fun i => sweep (rowUpdate A b idg u false) (backwardOrd A.m) A.m y0 (S.perm i)))) := by
  have hSm : S.m = A.m := by rw [← hp.m]; exact h.rows
  have hperm := hS.perm
  obtain ⟨inv, hinv, hinv2, hnbr, hpost⟩ := reordered_facts hx hp hS h u
  have hl' : (noPerm S).Levelled lvl := ⟨hl.thread, hl.parF, hl.parB⟩
  have hfw : ∀ a b, S.Fwd a b → (noPerm S).Fwd a b := by
    intro a b hf
    induction hf with
    | parent h1 h2 => exact .parent h1 h2
    | thread h1 h2 => exact .thread h1 h2
    | trans _ _ i1 i2 => exact .trans i1 i2
  have hbw : ∀ a b, S.Bwd a b → (noPerm S).Bwd a b := by
    intro a b hf
    induction hf with
    | parent h1 h2 => exact .parent h1 h2
    | thread h1 h2 => exact .thread h1 h2
    | trans _ _ i1 i2 => exact .trans i1 i2
  have hrow : ∀ k i, (noPerm S).RowIn k i → S.RowIn k (S.perm i) := by
    rintro k i ⟨q, h1, h2⟩
    have h2 : q = i := h2
    subst h2; exact ⟨q, h1, rfl⟩
  refine ⟨fun hcov => ?_, fun hcov => ?_⟩
  · have hk := rowKernel_on h.wf h.rows_le h.mem h.size_y u false
    rw [hp.m, ← hSm] at hk
    have := fwd_exec (S := noPerm S) (pos := fun i => S.perm i) (ord := fun k => inv (forwardOrd k)) h.tiling hl'
      h.team (fun k hk => ⟨(hinv k hk).1, (hinv k hk).2⟩) (fun r hr => ⟨hperm.1 r hr, hinv2 r hr⟩)
      (fun q r a c hq hr hlt hn ha hc => hfw _ _ (hcov _ _ _ _ hlt (hperm.1 r hr)
        (hn.imp (hnbr r q hr) (hnbr q r hq)) (hrow _ _ ha) (hrow _ _ hc))) hk h.size_flags h.y
    refine Script.Ok.mono this ?_
    intro _ m1 hok
    exact P2POk.mono hok (fun m' hm' => hpost false forwardOrd (fun k hk => hk) m' hm')
  · have hk := rowKernel_on h.wf h.rows_le h.mem h.size_y u true
    rw [hp.m, ← hSm] at hk
    have := bwd_exec (S := noPerm S) (pos := fun i => S.m - 1 - S.perm i) (ord := fun k => inv (backwardOrd A.m k))
      h.tiling hl' h.team
      (fun k hk => by
        have hk : k < S.m := hk
        have hb : backwardOrd A.m k < S.m := by unfold backwardOrd; omega
        refine ⟨(hinv _ hb).1, ?_⟩
        show S.m - 1 - S.perm (inv (backwardOrd A.m k)) = k
        rw [(hinv _ hb).2]; unfold backwardOrd; omega)
      (fun r hr => by
        have hr : r < S.m := hr
        refine ⟨by show _ < S.m; omega, ?_⟩
        show inv (backwardOrd A.m (S.m - 1 - S.perm r)) = r
        have := hperm.1 r hr
        have e : backwardOrd A.m (S.m - 1 - S.perm r) = S.perm r := by unfold backwardOrd; omega
        rw [e]; exact hinv2 r hr)
      (fun q r a c hq hr hlt hn ha hc => hbw _ _ (hcov _ _ _ _
        (by have hlt : S.m - 1 - S.perm q < S.m - 1 - S.perm r := hlt
            omega) (hperm.1 q hq)
        (hn.symm.imp (hnbr q r hq) (hnbr r q hr)) (hrow _ _ hc) (hrow _ _ ha))) hk h.size_flags h.y
    refine Script.Ok.mono this ?_
    intro _ m1 hok
    exact P2POk.mono hok (fun m' hm' => hpost true (backwardOrd A.m)
      (fun k hk => by unfold backwardOrd; omega) m' hm')

/-- C38 with barriers (forwardSolveWithBarrierAndReorderedMatrix and its three companions, trsv_test.cpp:289-341,
gs_test.cpp:287-339): the loops over the task ranges of the reordered system with a barrier after every task leave the permuted
solution of the original sequential loops. Holds under every race policy, so without data races (C58). -/
theorem C38_reordered_barrier [Races CArr] (hx : SubExchange R) {S : Schedule} {sz : CArr → Int} {m0 : Mem (CTy R)} {base L : Nat}
    {A A' : Csr R} {b idg y0 : Nat → R} (hp : PermutedBy S.perm A A') (hS : S.Tiling)
    (h : SolveSetup (noPerm S) sz m0 base A' (fun i => b (S.perm i)) (fun i => idg (S.perm i))
      (fun i => y0 (S.perm i))) (hb : S.Barriered L A.Nbr) (u : Update) :
    (barrierFrom sz S.T (fwdPhase (noPerm S)) (rowKernel base u false) 0 L).Ok m0 (fun _ m' =>
      OnlyY m0 A.n (fun i => sweep (rowUpdate A b idg u false) forwardOrd A.m y0 (S.perm i)) m') ∧
    (barrierFrom sz S.T (bwdPhase (noPerm S)) (rowKernel base u true) 0 L).Ok m0 (fun _ m' =>
      OnlyY m0 A.n (fun i => sweep (rowUpdate A b idg u false) (backwardOrd A.m) A.m y0 (S.perm i)) m') := by
  have hSm : S.m = A.m := by rw [← hp.m]; exact h.rows
  have hperm := hS.perm
  have hle : S.m ≤ A'.n := by rw [hSm, ← hp.m]; exact h.rows_le
  obtain ⟨inv, hinv, hinv2, hnbr, hpost⟩ := reordered_facts hx hp hS h u
  have hrow : ∀ k i, (noPerm S).RowIn k i → S.RowIn k (S.perm i) := by
    rintro k i ⟨q, h1, h2⟩
    have h2 : q = i := h2
    subst h2; exact ⟨q, h1, rfl⟩
  have hk : ∀ rev, IsKernel sz m0 S.m A'.n A'.Nbr (rowKernel base u rev) _ := fun rev => by
    have := rowKernel_isKernel h.wf h.rows_le h.mem h.size_y u rev
    rw [hp.m, ← hSm] at this; exact this
  have hloc : ∀ rev, Local S.m A'.Nbr (rowUpdate A' (fun i => b (S.perm i)) (fun i => idg (S.perm i)) u rev) := fun rev => by
    have := rowUpdate_local A' (fun i => b (S.perm i)) (fun i => idg (S.perm i)) u rev
    rw [hp.m, ← hSm] at this; exact this
  refine ⟨?_, ?_⟩
  · refine Script.Ok.mono (barrier_fwd (S := noPerm S) (pos := fun i => S.perm i) (ord := fun k => inv (forwardOrd k)) h.tiling hb.threadB hle
      (fun k hk => ⟨(hinv k hk).1, (hinv k hk).2⟩) (fun r hr => ⟨hperm.1 r hr, hinv2 r hr⟩) (hk false) (hloc false)
      (fun q r a c hq hr hlt hn ha hc => hb.level _ _ _ _ hlt (hperm.1 r hr) (hn.imp (hnbr r q hr) (hnbr q r hq)) (hrow _ _ ha) (hrow _ _ hc)) h.y) ?_
    rintro _ m' rfl
    exact hpost false forwardOrd (fun k hk => hk) _ (onlyY_withY _ _ _)
  · refine Script.Ok.mono (barrier_bwd (S := noPerm S) (pos := fun i => S.m - 1 - S.perm i) (ord := fun k => inv (backwardOrd A.m k)) h.tiling hb.threadB hle
      (fun k hk => by
        have hk : k < S.m := hk
        have hb : backwardOrd A.m k < S.m := by unfold backwardOrd; omega
        refine ⟨(hinv _ hb).1, ?_⟩
        show S.m - 1 - S.perm (inv (backwardOrd A.m k)) = k
        rw [(hinv _ hb).2]; unfold backwardOrd; omega)
      (fun r hr => by
        have hr : r < S.m := hr
        refine ⟨by show _ < S.m; omega, ?_⟩
        show inv (backwardOrd A.m (S.m - 1 - S.perm r)) = r
        have := hperm.1 r hr
        have e : backwardOrd A.m (S.m - 1 - S.perm r) = S.perm r := by unfold backwardOrd; omega
        rw [e]; exact hinv2 r hr) (hk true) (hloc true)
      (fun q r a c hq hr hlt hn ha hc => hb.level _ _ _ _
        (by have hlt : S.m - 1 - S.perm q < S.m - 1 - S.perm r := hlt
            omega) (hperm.1 q hq) (hn.symm.imp (hnbr q r hq) (hnbr r q hr)) (hrow _ _ hc) (hrow _ _ ha)) h.y) ?_
    rintro _ m' rfl
    exact hpost true (backwardOrd A.m) (fun k hk => by unfold backwardOrd; omega) _ (onlyY_withY _ _ _)

end

end SpMP.Props
