import Verif.SynkInitMain
import Verif.Spec.SynkInit
import Verif.Props.Barrier
import Verif.Props.ReduceBarrier

/-
C65: initialization of the barrier objects by the team.
-/
namespace SpMP.Props
open SpMP

theorem cellOf_eq (C x i : Nat) : linkPtr C (x : Int) i = cellOf C x i := by
  unfold linkPtr cellOf
  by_cases h : x < C
  · rw [if_pos h, if_pos (by omega)]
  · rw [if_neg h, if_neg (by omega)]

theorem sideAt_ready (C lg n2 x : Nat) : SideReady C lg n2 x (sideAt C lg n2 x (x : Int) lg) where
  flags := fun j i hj hi => by simp only [sideAt, newSide, if_pos (And.intro hj hi)]
  partner := fun j i hj hi => by simp only [sideAt, if_pos (And.intro hj hi), linkTarget_nat, cellOf_eq]
  parity := rfl
  sense := rfl
  rvals := fun i hi => by simp [sideAt, hi]
  partnerRvals := fun i hi => by simp only [sideAt, if_pos hi, linkTarget_nat, cellOf_eq]

theorem initInv_ready {C P lg n2 : Nat} {ls : Nat → InitL} {g : InitG} (h : InitInv C P lg n2 ls g) (hP : 0 < P)
    (hP8 : P ≤ 128) (h8 : n2 ≤ 128 ∨ n2 ≤ C) {t : Nat} (ht : t < C * P) (hd : (ls t).pc = .done) :
    SynkReady C P lg n2 g := by
  obtain ⟨h1, h2⟩ := h.complete hP ht hd
  refine ⟨fun c hc => ⟨_, h1 c hc, rfl, fun p hp => ?_, sideAt_ready C lg n2 c, fun hps => ?_, fun hps => ?_⟩,
    fun u hu => ?_⟩
  · show (if p < P then _ else _) = _
    rw [if_pos hp]
  · refine ⟨_, ?_, sideAt_ready C lg n2 (c + C)⟩
    show (if c + C < n2 then _ else _ : Option InitSide) = _
    rw [if_pos hps, toI8_of_lt (by omega)]
  · show (if c + C < n2 then _ else _ : Option InitSide) = _
    rw [if_neg (by omega)]
  · obtain ⟨a, b⟩ := h2 u hu
    refine ⟨a, ?_⟩
    rw [b, toI8_of_lt]
    have := Nat.mod_lt u hP
    omega

theorem initInv_over {C P lg n2 : Nat} {ls : Nat → InitL} {g : InitG} (h : InitInv C P lg n2 ls g) (hT : 0 < C * P)
    (hd : ∀ t, t < C * P → (ls t).pc = .done) : g.waiting = C * P ∧ g.initState = 2 := by
  cases h.ph with
  | open' h1 hw hpos =>
    have hk : g.initState = 2 := by
      rcases h1 0 hT with ⟨a, _⟩ | a
      · rw [hd 0 hT] at a; exact a.symm
      · rw [hd 0 hT] at a; cases a
    have := initCnt_zero (T := C * P) (k := g.initState) (pcs := fun u => (ls u).pc)
      (fun t ht => by rw [hk]; show (ls t).pc.d ≠ 3; rw [hd t ht]; decide)
    exact ⟨by omega, hk⟩
  | resetting t0 h0 hr h => rw [hd t0 h0] at hr; cases hr
  | raising t0 h0 hr h hw => rw [hd t0 h0] at hr; cases hr

theorem initTeam {C P lg n2 : Nat} (hC : 0 < C) (hP : 0 < P) (hP8 : P ≤ 128) (hn0 : 0 < n2) (hn : n2 ≤ C + C)
    (h8 : n2 ≤ 128 ∨ n2 ≤ C) :
    TeamOk (initMachine C P lg n2) (C * P)
      (fun _ g => SynkReady C P lg n2 g ∧ g.waiting = C * P ∧ g.initState = 2) initL0 (initG0 C P) := by
  have hT : 0 < C * P := Nat.mul_pos hC hP
  refine teamOk_of_inv (InitInv C P lg n2) initAcc ?_ ?_ ?_ ?_ (initInv_init hC hP)
  · exact fun _ _ _ _ _ hi ht hs => hi.step hP ht hs
  · exact fun _ _ _ hi ht => hi.not_bad hP hn0 hn h8 ht
  · rintro ls g hi ⟨t, ht, hnf⟩
    apply Classical.byContradiction
    intro hno
    apply hnf
    refine hi.progress (fun u hu => ?_) t ht
    cases hx : initNext C P lg n2 (ls u) g with
    | none => rfl
    | some x => exact absurd ⟨u, x.1, x.2, hu, hx⟩ hno
  · exact fun ls g hi hd => ⟨initInv_ready hi hP hP8 h8 hT (hd 0 hT), initInv_over hi hT hd⟩

theorem initReach {C P lg n2 : Nat} (hC : 0 < C) (hP : 0 < P) {ls : Nat → InitL} {g : InitG}
    (h : TeamReach (initMachine C P lg n2) (C * P) initL0 (initG0 C P) ls g) : InitInv C P lg n2 ls g :=
  reach_inv (InitInv C P lg n2) (fun _ _ _ _ _ hi ht hs => hi.step hP ht hs) (initInv_init hC hP) h

/-- **C65, `Barrier::init`.**  When all threads of a team of `C` cores with `P ≤ 128` threads each call `init`, then in
every interleaving: no thread uses the object of a core before it exists, there is no deadlock and no endless execution
(besides spinning), and in the end the object is ready. -/
theorem C65_barrier_init_partial {C P : Nat} (hC : 0 < C) (hP : 0 < P) (hP8 : P ≤ 128) :
    TeamOk (initMachine C P (synkRounds C) C) (C * P)
      (fun _ g => SynkReady C P (synkRounds C) C g ∧ g.waiting = C * P ∧ g.initState = 2) initL0 (initG0 C P) :=
  initTeam hC hP hP8 hC (by omega) (.inr (Nat.le_refl _))

/-- **C65, return from `Barrier::init`.**  As soon as one thread has returned, the object is ready for all threads: a
thread may call `wait` at once. -/
theorem C65_barrier_return_partial {C P : Nat} (hP8 : P ≤ 128) {ls : Nat → InitL} {g : InitG}
    (h : TeamReach (initMachine C P (synkRounds C) C) (C * P) initL0 (initG0 C P) ls g) {t : Nat} (ht : t < C * P)
    (hd : (ls t).pc = .done) : SynkReady C P (synkRounds C) C g := by
  have hT : 0 < C * P := by omega
  have hC := Nat.pos_of_mul_pos_right hT
  have hP := Nat.pos_of_mul_pos_left hT
  exact initInv_ready (initReach hC hP h) hP hP8 (.inr (Nat.le_refl _)) ht hd

/-- **C65, `ReduceBarrier::init`.**  The same for the reducing barrier, whose cores are linked on a ring of a power of
two of real and pseudo cores, if this power is at most 128 or there are no pseudo cores. -/
theorem C65_reduce_init_partial {C P : Nat} (hC : 0 < C) (hP : 0 < P) (hP8 : P ≤ 128)
    (h8 : nearestPow2 C ≤ 128 ∨ nearestPow2 C = C) :
    TeamOk (initMachine C P (synkRounds C) (nearestPow2 C)) (C * P)
      (fun _ g => SynkReady C P (synkRounds C) (nearestPow2 C) g ∧ g.waiting = C * P ∧ g.initState = 2)
      initL0 (initG0 C P) := by
  have hb : 0 < nearestPow2 C ∧ nearestPow2 C ≤ C + C := by
    by_cases h1 : C = 1
    · subst h1; decide
    · obtain ⟨_, h2, h3⟩ := nearestPow2_eq (C := C) (by omega)
      omega
  exact initTeam (by omega) hP hP8 (by omega) (by omega) (h8.imp_right Nat.le_of_eq)

/-- **C65, return from `ReduceBarrier::init`.** -/
theorem C65_reduce_return_partial {C P : Nat} (hP8 : P ≤ 128) (h8 : nearestPow2 C ≤ 128 ∨ nearestPow2 C = C)
    {ls : Nat → InitL} {g : InitG}
    (h : TeamReach (initMachine C P (synkRounds C) (nearestPow2 C)) (C * P) initL0 (initG0 C P) ls g) {t : Nat}
    (ht : t < C * P) (hd : (ls t).pc = .done) : SynkReady C P (synkRounds C) (nearestPow2 C) g := by
  have hT : 0 < C * P := by omega
  have hC := Nat.pos_of_mul_pos_right hT
  have hP := Nat.pos_of_mul_pos_left hT
  exact initInv_ready (initReach hC hP h) hP hP8 (h8.imp_right Nat.le_of_eq) ht hd

/-! ### Witnesses -/

/-- Three cores with two threads each meet the hypotheses; core 0 then holds the pseudo core number 3. -/
example : (0 < 3 ∧ 0 < 2 ∧ 2 ≤ 128) ∧ (nearestPow2 3 = 4 ∧ nearestPow2 3 ≤ 128) := by decide

/-- A complete execution of `ReduceBarrier::init` by three cores with two threads each. -/
def exInitSched : List Nat :=
  [0, 1, 2, 3, 4, 5, 0, 1, 2, 3, 4, 5, 5, 5, 0, 0, 0, 0, 0, 0, 0, 0, 0, 1, 1, 1, 1, 2, 2, 2, 2, 2, 2, 2, 2, 2, 3, 3, 3, 3,
   4, 4, 4, 4, 4, 4, 4, 4, 4, 5, 5, 5, 5, 5, 0, 1, 2, 3, 4]

example : (execSched (initNext 3 2 2 4) exInitSched initL0 (initG0 3 2)).map
    (fun r => ((List.range 6).all fun t => (r.1 t).pc == .done) && r.2.waiting == 6 && r.2.initState == 2) =
    some true := by decide +kernel

/-! ### What the code does not do -/

/-- 129 cores: all threads arrive at the first counting barrier, and thread 0 goes on. -/
def manyCoresSched : List Nat := List.range 129 ++ List.range 129 ++ [128, 128, 0, 0, 0, 0]

/-- The number that core 0 has stored for its pseudo core. -/
def pseudoId (g : InitG) : Option Int := (g.cores 0).bind fun r => r.pseudo.map fun s => s.coreId

theorem manyCores_run : (execSched (initNext 129 1 8 256) manyCoresSched initL0 (initG0 129 1)).map
    (fun r => decide ((r.1 0).pc = .link 0 true) && decide (pseudoId r.2 = some (-127))) = some true := by decide +kernel

/-- **C65 is false of the code (more than 128 cores).**  The number of a pseudo core is kept in an `int8_t`: with 129
cores on a ring of 256, the pseudo core 129 becomes -127, and its first partner is looked up as `cores[-126]`. -/
theorem C65_many_cores_false : ∃ ls g,
    TeamReach (initMachine 129 1 8 (nearestPow2 129)) 129 initL0 (initG0 129 1) ls g ∧
    (initMachine 129 1 8 (nearestPow2 129)).bad (ls 0) g := by
  have hn : nearestPow2 129 = 256 := by decide +kernel
  rw [hn]
  have hx := manyCores_run
  cases hr : execSched (initNext 129 1 8 256) manyCoresSched initL0 (initG0 129 1) with
  | none => rw [hr] at hx; simp at hx
  | some r =>
    rw [hr] at hx
    simp only [Option.map_some, Option.some.injEq, Bool.and_eq_true, decide_eq_true_eq] at hx
    have hreach := execSched_reach (initNext 129 1 8 256) (initMachine 129 1 8 256) 129 (fun _ _ _ _ h => h)
      manyCoresSched _ _ _ _ (by decide +kernel) r hr TeamReach.init
    refine ⟨r.1, r.2, hreach, ?_⟩
    have htid : (r.1 0).tid = 0 :=
      (initReach (C := 129) (P := 1) (by omega) (by omega) hreach).tid 0 (by omega)
    show initBad 129 1 8 256 (r.1 0) r.2
    unfold initBad
    rw [hx.1, htid]
    intro q hq
    have h2 := hx.2
    unfold pseudoId at h2
    have hq : r.2.cores 0 = some q := hq
    rw [hq] at h2
    simp only [Option.bind_some, Option.map_eq_some_iff] at h2
    obtain ⟨s, hs, hid⟩ := h2
    refine ⟨s, hs, ?_⟩
    rw [hid]
    intro hok
    exact absurd hok.1 (by decide)

/-- **C65 is false of the code (more than 128 threads per core).**  The place of a thread in its core is kept in an
`int8_t`: whenever one core with 129 threads is initialized, thread 128 ends up with place -128, with which `wait`
indexes `threadSenses`. -/
theorem C65_many_threads_false : TeamOk (initMachine 1 129 (synkRounds 1) 1) (1 * 129)
    (fun _ g => g.coreTids 128 = some (-128)) initL0 (initG0 1 129) := by
  refine teamOk_of_inv (InitInv 1 129 (synkRounds 1) 1) initAcc ?_ ?_ ?_ ?_ (initInv_init (by omega) (by omega))
  · exact fun _ _ _ _ _ hi ht hs => hi.step (by omega) ht hs
  · exact fun _ _ _ hi ht => hi.not_bad (by omega) (by omega) (by omega) (by omega) ht
  · rintro ls g hi ⟨t, ht, hnf⟩
    apply Classical.byContradiction
    intro hno
    apply hnf
    refine hi.progress (fun u hu => ?_) t ht
    cases hx : initNext 1 129 (synkRounds 1) 1 (ls u) g with
    | none => rfl
    | some x => exact absurd ⟨u, x.1, x.2, hu, hx⟩ hno
  · intro ls g hi hd
    have := ((hi.complete (by omega) (t := 0) (by omega) (hd 0 (by omega))).2 128 (by omega)).2
    exact this

/-- **C65 is false of the code (LoadImba::init).**  `Barrier::init` leaves `initState = 2`, so that the last counting
barrier, `while (initState == 0)`, waits for nobody: a thread returns while `limba[1]`, which `reset` and `print` follow
for all threads, is not written yet. -/
theorem C65_loadimba_false : ∃ ls g,
    TeamReach (limMachine 2) 2 (fun t => ⟨t, .fill⟩) ⟨2, 2, fun _ => false⟩ ls g ∧
    (ls 0).pc = .done ∧ g.limba 1 = false := by
  have hx : (execSched (limNext 2) [0, 0, 0] (fun t => ⟨t, .fill⟩) ⟨2, 2, fun _ => false⟩).map
      (fun r => decide ((r.1 0).pc = .done) && !r.2.limba 1) = some true := by decide
  cases hr : execSched (limNext 2) [0, 0, 0] (fun t => (⟨t, .fill⟩ : LimL)) ⟨2, 2, fun _ => false⟩ with
  | none => rw [hr] at hx; simp at hx
  | some r =>
    rw [hr] at hx
    simp only [Option.map_some, Option.some.injEq, Bool.and_eq_true, decide_eq_true_eq, Bool.not_eq_true'] at hx
    exact ⟨r.1, r.2, execSched_reach (limNext 2) (limMachine 2) 2 (fun _ _ _ _ h => h) [0, 0, 0] _ _ _ _ (by decide) r hr
      TeamReach.init, hx.1, hx.2⟩

end SpMP.Props
