import Verif.Barrier
import Mathlib.Data.Nat.Log
/-
C40, C41: the dissemination barrier.
-/
namespace SpMP.Props
open SpMP

/-- synk.cpp:61-66: `lgNumCores = (int)ceil(log2(numCores)); if (lgNumCores == 0) lgNumCores = 1`.
Simplification: the double-precision `ceil(log2(n))` is taken to be exact (`Nat.clog 2 n`). -/
def synkRounds (numCores : Nat) : Nat := if Nat.clog 2 numCores = 0 then 1 else Nat.clog 2 numCores

/-- synk.cpp:42-51, the USE_MCRT replacement of `ceil(log2(n))`: the least `i` with `n >> (i+1) == 0`. -/
def mcrtCeilLog2 (n : Nat) : Nat := ((List.range 32).find? (fun i => n / 2 ^ (i + 1) = 0)).getD 0

/-- Lines 58-66 with USE_MCRT. -/
def synkRoundsMcrt (numCores : Nat) : Nat := if mcrtCeilLog2 numCores = 0 then 1 else mcrtCeilLog2 numCores

theorem synkRounds_pos (C : Nat) : 1 ≤ synkRounds C := by unfold synkRounds; split <;> omega

theorem le_two_pow_synkRounds (C : Nat) : C ≤ 2 ^ synkRounds C := by
  have h := Nat.le_pow_clog (b := 2) (by omega) C
  unfold synkRounds
  split
  · next e => rw [e] at h; omega
  · exact h

/-- A history of the barrier object of `Synk(C, P)`: all threads have initialized it and each calls `wait` up to `N`
times; `ls`, `g` is a state some interleaving reaches. -/
def BarrierReach (C P N : Nat) (ls : Nat → BarL) (g : BarG) : Prop :=
  TeamReach (barMachine C P (synkRounds C) N) (C * P) barL0 barG0 ls g

theorem BarrierReach.inv {C P N : Nat} {ls : Nat → BarL} {g : BarG} (hP : 0 < P) (h : BarrierReach C P N ls g) :
    BarInv C P (synkRounds C) N ls g :=
  reach_inv (BarInv C P (synkRounds C) N)
    (fun _ _ _ _ _ hi ht hs => hi.step hP (synkRounds_pos C) (le_two_pow_synkRounds C) ht hs) barInv_init h

/-- C40. In every reachable state of the barrier, for every number of cores `C`, threads per core `P` and calls `N`:
if some thread has returned from its `k`-th wait (counting from 0: more than `k` returns), then every thread has
called its `k`-th wait. -/
theorem C40_barrier_separates {C P N : Nat} {ls : Nat → BarL} {g : BarG} (h : BarrierReach C P N ls g)
    {t u k : Nat} (ht : t < C * P) (hu : u < C * P) (hret : k < (ls t).rets) : k < (ls u).calls := by
  have hP : 0 < P := by rcases Nat.eq_zero_or_pos P with e | e; (subst e; simp at ht); exact e
  exact Nat.lt_of_lt_of_le hret ((h.inv hP).safe hP ht hu)

/-- No thread is ever more than one episode ahead: a thread that has called its wait number `k + 1` finds every
thread past its call number `k`. -/
theorem C40_one_episode_apart {C P N : Nat} {ls : Nat → BarL} {g : BarG} (h : BarrierReach C P N ls g)
    {t u : Nat} (ht : t < C * P) (hu : u < C * P) : (ls t).calls ≤ (ls u).calls + 1 := by
  have hP : 0 < P := by rcases Nat.eq_zero_or_pos P with e | e; (subst e; simp at ht); exact e
  have h1 := (h.inv hP).safe hP ht hu
  have h2 := (h.inv hP).calls t ht
  split at h2 <;> omega

/-- C41. From every reachable state, no matter how threads are interleaved: no access is out of bounds, execution can
always continue until all threads have returned from all their `N` waits (no deadlock), no infinite execution exists in
which every step makes progress, and at the end every thread has returned `N` times. -/
theorem C41_no_deadlock (C P N : Nat) :
    TeamOk (barMachine C P (synkRounds C) N) (C * P)
      (fun ls _ => ∀ t, t < C * P → (ls t).calls = N ∧ (ls t).rets = N) barL0 barG0 := by
  rcases Nat.eq_zero_or_pos P with e | hP
  · subst e
    refine TeamOk.mk ?_ ?_ ?_ ?_
    · intro t ht; omega
    · intro _ t ht; omega
    · rintro ⟨t, ht, -⟩; omega
    · rintro ls' g' ⟨t, ht, -⟩; omega
  refine teamOk_of_inv (BarInv C P (synkRounds C) N) barAcc ?_ ?_ ?_ ?_ barInv_init
  · exact fun _ _ _ _ _ hi ht hs => hi.step hP (synkRounds_pos C) (le_two_pow_synkRounds C) ht hs
  · exact fun _ _ _ hi ht => hi.not_bad hP ht
  · rintro ls g hi ⟨t, ht, hnf⟩
    apply Classical.byContradiction
    intro hno
    apply hnf
    refine hi.progress hP ?_ t ht
    intro u hu
    cases hx : barNext C P (synkRounds C) N (ls u) g with
    | none => rfl
    | some x => exact absurd ⟨u, x.1, x.2, hu, hx⟩ hno
  · intro ls g hi hfin t ht
    have h1 := hi.calls t ht
    obtain ⟨h2, h3⟩ := hfin t ht
    rw [h2, if_pos rfl] at h1
    exact ⟨h3, by omega⟩

/-- Read off: a reachable state in which some thread has not returned from all its waits is not stuck. -/
theorem C41_not_stuck {C P N : Nat} {ls : Nat → BarL} {g : BarG} (h : BarrierReach C P N ls g)
    {t : Nat} (ht : t < C * P) (hw : (ls t).rets < N) :
    ∃ u l' g', u < C * P ∧ barNext C P (synkRounds C) N (ls u) g = some (l', g') := by
  have hP : 0 < P := by rcases Nat.eq_zero_or_pos P with e | e; (subst e; simp at ht); exact e
  have hi := h.inv hP
  apply Classical.byContradiction
  intro hno
  have := hi.progress hP (by
    intro u hu
    cases hx : barNext C P (synkRounds C) N (ls u) g with
    | none => rfl
    | some x => exact absurd ⟨u, x.1, x.2, hu, hx⟩ hno) t ht
  have h1 := hi.calls t ht
  rw [this.1, if_pos rfl] at h1
  omega

/-- Under any fair schedule every thread eventually returns from all its waits. -/
theorem C41_fair_termination {C P N : Nat} {sch : Nat → Nat} {ls : Nat → Nat → BarL} {g : Nat → BarG}
    (hrun : IsRun (barMachine C P (synkRounds C) N) (C * P) sch ls g)
    (hfair : ∀ t, t < C * P → ∀ k, ∃ k', k ≤ k' ∧ sch k' = t) (h0 : ls 0 = barL0) (h1 : g 0 = barG0) :
    ∃ k, ∀ t, t < C * P → (ls k t).calls = N ∧ (ls k t).rets = N := by
  obtain ⟨k, -, -, h⟩ := (C41_no_deadlock C P N).fair_terminates hrun hfair 0 h0 h1
  exact ⟨k, h⟩

/-! ### Executing a given schedule -/

/-- Run threads in the given order; a thread that cannot step is an error. -/
def execSched {L G : Type} (next : L → G → Option (L × G)) : List Nat → (Nat → L) → G → Option ((Nat → L) × G)
  | [], ls, g => some (ls, g)
  | t :: ts, ls, g =>
    match next (ls t) g with
    | none => none
    | some (l', g') => execSched next ts (updT ls t l') g'

theorem execSched_reach {L G : Type} (next : L → G → Option (L × G)) (M : Machine L G) (n : Nat)
    (hM : ∀ l g l' g', next l g = some (l', g') → M.step l g l' g') :
    ∀ (ts : List Nat) (ls0 : Nat → L) (g0 : G) (ls : Nat → L) (g : G), (∀ t ∈ ts, t < n) →
      ∀ r, execSched next ts ls g = some r → TeamReach M n ls0 g0 ls g → TeamReach M n ls0 g0 r.1 r.2 := by
  intro ts
  induction ts with
  | nil => intro ls0 g0 ls g _ r hr h; simp only [execSched, Option.some.injEq] at hr; subst hr; exact h
  | cons t ts ih =>
    intro ls0 g0 ls g hts r hr h
    simp only [execSched] at hr
    split at hr
    · simp at hr
    · next l' g' e =>
      exact ih ls0 g0 _ _ (fun u hu => hts u (by simp [hu])) r hr
        (h.step ⟨t, hts t (by simp), l', hM _ _ _ _ e, rfl⟩)

/-- C40 example: 3 cores with 2 threads; a reachable state in which thread 0 has returned from its first wait
(so the hypotheses of `C40_barrier_separates` are met with `k = 0`) while thread 5 is still inside its own. -/
def exBarSched : List Nat := [0, 1, 2, 3, 4, 5, 0, 0, 2, 2, 4, 4, 0, 2, 4, 0, 2, 4, 0, 2, 4, 0, 0, 0]

example : (execSched (barNext 3 2 (synkRounds 3) 2) exBarSched barL0 barG0).map
    (fun r => ((r.1 0).rets, (r.1 5).rets, (r.1 5).calls)) = some (1, 0, 1) := by
  have : synkRounds 3 = 2 := by
    have h : Nat.clog 2 3 = 2 := by
      rw [Nat.clog_of_two_le (by omega) (by omega)]; rfl
    simp [synkRounds, h]
  rw [this]; decide

/-- The schedule that breaks the USE_MCRT variant. -/
def mcrtSched : List Nat := [0, 0, 0, 2, 2, 2, 0, 0, 0]

/-- With USE_MCRT defined the "ceil_log2" of synk.cpp:42-51 rounds down, and the barrier property C40 fails: with 3
single-threaded cores, thread 0 can return from its first wait although thread 1 has never called wait. -/
theorem C40_mcrt_false : ∃ ls g, TeamReach (barMachine 3 1 (synkRoundsMcrt 3) 1) 3 barL0 barG0 ls g ∧
    (ls 0).rets = 1 ∧ (ls 1).calls = 0 := by
  have hlg : synkRoundsMcrt 3 = 1 := by decide
  rw [hlg]
  have hx : (execSched (barNext 3 1 1 1) mcrtSched barL0 barG0).map
      (fun r => ((r.1 0).rets, (r.1 1).calls)) = some (1, 0) := by decide
  cases hr : execSched (barNext 3 1 1 1) mcrtSched barL0 barG0 with
  | none => rw [hr] at hx; simp at hx
  | some r =>
    rw [hr] at hx
    simp only [Option.map_some, Option.some.injEq, Prod.mk.injEq] at hx
    exact ⟨r.1, r.2, execSched_reach (barNext 3 1 1 1) (barMachine 3 1 1 1) 3 (fun _ _ _ _ h => h) mcrtSched
      barL0 barG0 barL0 barG0 (by decide) r hr TeamReach.init, hx.1, hx.2⟩

end SpMP.Props
