import Verif.ReduceStep
import Verif.Props.Barrier
/-
C42: the reducing barrier.
-/

namespace SpMP
open Finset Props

section
variable {V : Type} [AddCommMonoid V] {C P n2 lg k : Nat} {inp : Nat → Nat → V}

/-- No thread is inside `wait`, and all have made exactly `k` calls. The value slots are arbitrary. -/
structure RedQuiet (C P n2 lg k : Nat) (ls : Nat → RedL V) (g : RedG V) : Prop where
  tid : ∀ t, t < C * P → (ls t).tid = t
  idle : ∀ t, t < C * P → (ls t).pc = .idle
  calls : ∀ t, t < C * P → (ls t).calls = k ∧ (ls t).rets = k
  senses : ∀ t, t < C * P → g.threadSenses t = decide (k % 2 = 0)
  cs : ∀ c, c < C → g.coreSense c = decide (k % 2 = 0)
  par : ∀ x, x < n2 → g.parity x = k % 2
  sen : ∀ x, x < n2 → g.sense x = decide ((k / 2) % 2 = 0)
  flag : ∀ x p i, x < n2 → p < 2 → i < lg → g.flags x p i = flagVal k p

theorem RedQuiet.inv {ls : Nat → RedL V} {g : RedG V} (h : RedQuiet C P n2 lg k ls g) (hP : 0 < P) (hn : 0 < n2)
    (hC : n2 ≤ C + C) : RedInv C P n2 lg k inp (fun t => (ls t).out) ls g := by
  have hst : ∀ t, t < C * P → (ls t).st k = .idle := by
    intro t ht
    unfold RedL.st
    rw [if_neg (by have := (h.calls t ht).1; omega)]; exact h.idle t ht
  have hlead : ∀ c, c < C → c * P < C * P := fun c hc => by have := core_lt hc hP; omega
  have hhd : ∀ x, x < n2 → redHd C P x < C * P := fun x hx => (redHd_spec hP hx hC).1
  constructor
  · exact h.tid
  · intro t ht; rw [hst t ht]; simpa using (h.calls t ht).1
  · intro t ht; rw [hst t ht]; simpa using (h.calls t ht).2
  · intro t _ j _; rfl
  · intro t ht _ h1; rw [hst t ht] at h1; simp at h1
  · intro t ht; rw [hst t ht]; trivial
  · intro t ht; rw [hst t ht]; exact h.senses t ht
  · intro t ht h1; exact absurd (hst t ht) h1
  · intro t ht h1; rw [hst t ht] at h1; simp at h1
  · intro t i ht h1; rw [hst t ht] at h1; simp at h1
  · intro t ht h1; exact absurd (hst t ht) h1
  · intro t i ht h1; rw [hst t ht] at h1; simp at h1
  · intro t i ht h1; rw [hst t ht] at h1; simp at h1
  · intro x hx h1; rw [hst _ (hhd x hx)] at h1; simp [RedPc.past] at h1
  · intro c hc; rw [hst _ (hlead c hc)]; simpa [b01] using h.cs c hc
  · intro c hc h1; rw [hst _ (hlead c hc)] at h1; simp at h1
  · intro c hc h1; rw [hst _ (hlead c hc)] at h1; simp at h1
  · intro t ht _ h1; rw [hst t ht] at h1; simp at h1
  · intro x hx; rw [hst _ (hhd x hx)]; exact h.par x hx
  · intro x hx; rw [hst _ (hhd x hx)]; exact h.sen x hx
  · intro x p i hx hp hi; rw [hst _ (hhd x hx)]; exact h.flag _ p i (Nat.mod_lt _ hn) hp hi
  · intro x i hx _ h1; rw [hst _ (hhd x hx)] at h1; exact h1.elim
  · intro x i hx _ h1; rw [hst _ (hhd x hx)] at h1; simp [RedPc.ws] at h1

theorem RedInv.quiet {o0 : Nat → Nat → V} {ls : Nat → RedL V} {g : RedG V} (h : RedInv C P n2 lg k inp o0 ls g)
    (hP : 0 < P) (hn : RedSize C n2 lg) (hC2 : n2 ≤ C + C)
    (hfin : ∀ t, t < C * P → (ls t).pc = .idle ∧ (ls t).calls = k + 1) : RedQuiet C P n2 lg (k + 1) ls g := by
  have hst : ∀ t, t < C * P → (ls t).st k = .ret := by
    intro t ht
    obtain ⟨h1, h2⟩ := hfin t ht
    unfold RedL.st; rw [if_pos ⟨h1, by omega⟩]
  have hlead : ∀ c, c < C → c * P < C * P := fun c hc => by have := core_lt hc hP; omega
  have hhd : ∀ x, x < n2 → redHd C P x < C * P := fun x hx => (redHd_spec hP hx hC2).1
  have hpow : ∀ i, i < lg → 2 ^ i ≤ n2 := hn.pow_le
  constructor
  · exact h.tid
  · exact fun t ht => (hfin t ht).1
  · intro t ht
    refine ⟨(hfin t ht).2, ?_⟩
    have := h.rets t ht
    rwa [if_pos ⟨(hfin t ht).1, hst t ht⟩] at this
  · intro t ht; have := h.senses t ht; rw [hst t ht] at this; exact this
  · intro c hc; have := h.cs c hc; rw [hst _ (hlead c hc)] at this; exact this
  · intro x hx; have := h.par x hx; rw [hst _ (hhd x hx)] at this; exact this
  · intro x hx; have := h.sen x hx; rw [hst _ (hhd x hx)] at this; exact this
  · intro x p i hx hp hi
    have hpr : redPred n2 i x < n2 := Nat.mod_lt _ (by omega)
    have := h.flag (redPred n2 i x) p i hpr hp hi
    rw [redPred_succ (hpow i hi) hx, hst _ (hhd _ hpr)] at this; exact this

theorem RedInv.not_bad {o0 : Nat → Nat → V} {ls : Nat → RedL V} {g : RedG V} (h : RedInv C P n2 lg k inp o0 ls g)
    (hP : 0 < P) (hn : 0 < n2) (hC2 : n2 ≤ C + C) {t : Nat} (ht : t < C * P) : ¬ redBad C P n2 lg (ls t) g := by
  intro hb
  have hok := h.ok t ht
  have hc0 : t / P < C := Nat.div_lt_of_lt_mul (by rw [Nat.mul_comm]; exact ht)
  have htid := h.tid t ht
  unfold redBad at hb
  rw [htid] at hb
  have hmod : ∀ y, y % n2 < n2 := fun y => Nat.mod_lt _ hn
  have hlead : t % P = 0 → ∀ i, i < P → t + i < C * P := by
    intro hm i hi
    obtain ⟨et, -⟩ := leader_of ht hm
    have := core_lt (C := C) hc0 hi; omega
  have hne : ∀ s, (ls t).pc = s → s ≠ .idle → redOk C P n2 lg t s := by
    intro s hs hs'
    rw [RedL.st_of_ne (by rw [hs]; exact hs'), hs] at hok; exact hok
  split at hb
  · next i e => have := hne _ e (by simp); exact hb.2 (hlead this.1 i hb.1)
  · next i e => have := hne _ e (by simp); exact hb (hlead this.1 i this.2.2)
  · next i j e =>
    obtain ⟨h1, h2⟩ := hne _ e (by simp)
    have := hmod (redH C P n2 t j + 2 ^ i)
    rcases hb with hb | hb | hb
    · exact hb h1
    · exact hb h2
    · exact hb (Or.inr ⟨this, by omega⟩)
  · next i j e =>
    obtain ⟨h1, h2⟩ := hne _ e (by simp)
    have := hmod (redH C P n2 t j + 2 ^ i)
    rcases hb with hb | hb | hb
    · exact hb h1
    · exact hb h2
    · exact hb (Or.inr ⟨this, by omega⟩)
  · next i j e =>
    obtain ⟨h1, h2⟩ := hne _ e (by simp)
    rcases hb with hb | hb
    · exact hb h1
    · exact hb h2
  · next i j e =>
    obtain ⟨h1, h2⟩ := hne _ e (by simp)
    rcases hb with hb | hb
    · exact hb h1
    · exact hb h2
  · next j e => exact hb (hne _ e (by simp))
  · exact hb

theorem RedInv.progress {o0 : Nat → Nat → V} {ls : Nat → RedL V} {g : RedG V} (h : RedInv C P n2 lg k inp o0 ls g)
    (hP : 0 < P) (hn : RedSize C n2 lg) (hC : C ≤ n2) (hC2 : n2 ≤ C + C)
    (hstuck : ∀ t, t < C * P → redNext C P n2 lg (· + ·) 0 inp (k + 1) (ls t) g = none) :
    ∀ t, t < C * P → (ls t).pc = .idle ∧ (ls t).calls = k + 1 := by
  have hpow : ∀ i, i < lg → 2 ^ i ≤ n2 := hn.pow_le
  have hcore : ∀ t, t < C * P → t / P < C := fun t ht => Nat.div_lt_of_lt_mul (by rw [Nat.mul_comm]; exact ht)
  -- only these stages can be stuck
  have hst : ∀ t, t < C * P → (ls t).st k = .ret ∧ (ls t).pc = .idle ∨ (∃ i, i < P ∧ (ls t).st k = .gather i) ∨
      (∃ i j, (ls t).st k = .wt i j) ∨ (ls t).st k = .spin := by
    intro t ht
    have hs := hstuck t ht
    have hcl := h.calls t ht
    unfold redNext at hs
    cases hpc : (ls t).pc with
    | idle =>
      left
      rw [hpc] at hs
      simp only at hs
      split at hs
      · simp at hs
      · next hc => exact ⟨by unfold RedL.st; rw [if_pos ⟨hpc, by omega⟩], rfl⟩
    | gather i =>
      right; left
      rw [hpc] at hs
      simp only at hs
      split at hs
      · next hi => exact ⟨i, hi, by rw [RedL.st_of_ne (by simp [hpc]), hpc]⟩
      · simp at hs
    | wt i j => right; right; left; exact ⟨i, j, by rw [RedL.st_of_ne (by simp [hpc]), hpc]⟩
    | spin => right; right; right; rw [RedL.st_of_ne (by simp [hpc]), hpc]
    | _ => rw [hpc] at hs; simp at hs
  have hfl : ∀ t, t < C * P → ((ls t).st k).fl = true := by
    intro t ht
    rcases hst t ht with ⟨e, -⟩ | ⟨i, -, e⟩ | ⟨i, j, e⟩ | e <;> rw [e] <;> rfl
  have hng : ∀ t, t < C * P → ∀ i, i < P → (ls t).st k ≠ .gather i := by
    intro t ht i hi e
    have hs := hstuck t ht
    have hpc : (ls t).pc = .gather i := by
      unfold RedL.st at e; split at e
      · simp at e
      · exact e
    unfold redNext at hs
    rw [hpc] at hs
    simp only [if_pos hi] at hs
    have hok := h.ok t ht
    rw [e] at hok
    obtain ⟨et, hc⟩ := leader_of ht hok.1
    have hti : t + i < C * P := by have := core_lt (C := C) hc hi; omega
    rw [h.tid t ht, h.senses _ hti, h.cs _ hc, hfl _ hti, ← et, e] at hs
    split at hs
    · next hh => rw [decide_eq_decide] at hh; simp [b01] at hh; omega
    · simp at hs
  have hnw : ¬ ∃ t, t < C * P ∧ ∃ i j, (ls t).st k = .wt i j := by
    intro hex
    obtain ⟨t, ⟨ht, i, j, e⟩, hmin⟩ := exists_min_below (fun t => t < C * P ∧ ∃ i j, (ls t).st k = .wt i j)
      (fun t => match (ls t).st k with | .wt i _ => i | _ => 0) hex
    have hok := h.ok t ht
    rw [e] at hok
    obtain ⟨hi, hj⟩ := hok
    obtain ⟨hx0, hd0, hk0⟩ := redH_spec (C := C) (n2 := n2) hP ht hj hC
    have hpc : (ls t).pc = .wt i j := by
      unfold RedL.st at e; split at e
      · simp at e
      · exact e
    have hs := hstuck t ht
    unfold redNext at hs
    rw [hpc] at hs
    simp only [h.tid t ht] at hs
    generalize redH C P n2 t j = x0 at *
    have T := h.toT ht e
    have hpar : g.parity x0 = k % 2 := by rw [T.par x0 hx0 hd0]; rfl
    have hsn : g.sense x0 = decide ((k / 2) % 2 = 0) := by rw [T.sen x0 hx0 hd0]; rfl
    have hpr : redPred n2 i x0 < n2 := Nat.mod_lt _ (by omega)
    have hhd := (redHd_spec (C := C) hP hpr hC2).1
    have hfs : ((ls (redHd C P (redPred n2 i x0))).st k).fs (redKx C P (redPred n2 i x0)) i = true := by
      rcases hst _ hhd with ⟨e1, -⟩ | ⟨i1, h1, e1⟩ | ⟨i1, j1, e1⟩ | e1
      · rw [e1]; rfl
      · exact absurd e1 (hng _ hhd i1 h1)
      · have := hmin _ ⟨hhd, i1, j1, e1⟩
        rw [e, e1] at this
        rw [e1]; exact decide_eq_true this
      · rw [e1]; rfl
    have hf := h.flag (redPred n2 i x0) (k % 2) i hpr (by omega) hi
    rw [redPred_succ (hpow i hi) hx0, hfs] at hf
    rw [hpar, hsn, hf, show k + b01 true = k + 1 from rfl, flag_cur] at hs
    simp at hs
  have hns : ∀ t, t < C * P → (ls t).st k ≠ .spin := by
    intro t ht e
    have hpc : (ls t).pc = .spin := by
      unfold RedL.st at e; split at e
      · simp at e
      · exact e
    have hs := hstuck t ht
    unfold redNext at hs
    rw [hpc] at hs
    have hc := hcore t ht
    have hlt : t / P * P < C * P := by have := core_lt hc hP; omega
    have hld : (ls (t / P * P)).st k = .ret := by
      rcases hst _ hlt with ⟨e1, -⟩ | ⟨i1, h1, e1⟩ | ⟨i1, j1, e1⟩ | e1
      · exact e1
      · exact absurd e1 (hng _ hlt i1 h1)
      · exact absurd ⟨_, hlt, i1, j1, e1⟩ hnw
      · have := h.ok _ hlt
        rw [e1] at this
        exact absurd (Nat.mul_mod_left _ _) this
    simp only [h.tid t ht] at hs
    rw [h.cs _ hc, hld, h.senses t ht, e] at hs
    simp [RedPc.fl] at hs
    exact hs rfl
  intro t ht
  rcases hst t ht with ⟨e1, e2⟩ | ⟨i1, h1, e1⟩ | ⟨i1, j1, e1⟩ | e1
  · refine ⟨e2, ?_⟩
    have := h.calls t ht
    rw [e1] at this; simpa using this
  · exact absurd e1 (hng _ ht i1 h1)
  · exact absurd ⟨_, ht, i1, j1, e1⟩ hnw
  · exact absurd e1 (hns t ht)

end

theorem pow2Loop_eq (n : Nat) : ∀ f a, n ≤ 2 ^ (a + f) → (a = 0 ∨ 2 ^ a < n + n) →
    ∃ b, pow2Loop f n (2 ^ a) = 2 ^ b ∧ n ≤ 2 ^ b ∧ (b = 0 ∨ 2 ^ b < n + n) := by
  intro f
  induction f with
  | zero => intro a h1 h2; exact ⟨a, rfl, h1, h2⟩
  | succ f ih =>
    intro a h1 h2
    unfold pow2Loop
    split
    · next hlt =>
      rw [show 2 * 2 ^ a = 2 ^ (a + 1) by rw [Nat.pow_succ]; omega]
      exact ih (a + 1) (by rw [show a + 1 + f = a + (f + 1) by omega]; exact h1) (Or.inr (by rw [Nat.pow_succ]; omega))
    · exact ⟨a, rfl, by omega, h2⟩

/-- nearestPow2Cores is 2 to the number of rounds when there are at least two cores. -/
theorem nearestPow2_eq {C : Nat} (hC : 2 ≤ C) : nearestPow2 C = 2 ^ synkRounds C ∧ C ≤ nearestPow2 C ∧
    nearestPow2 C ≤ C + C := by
  obtain ⟨b, h1, h2, h3⟩ := pow2Loop_eq C C 0 (by rw [Nat.zero_add]; exact Nat.le_of_lt Nat.lt_two_pow_self) (Or.inl rfl)
  have hb : b ≠ 0 := by rintro rfl; simp at h2; omega
  have h4 : 2 ^ b < C + C := by rcases h3 with h3 | h3 <;> [exact absurd h3 hb; exact h3]
  have hclog : Nat.clog 2 C = b := by
    refine Nat.le_antisymm (Nat.clog_le_of_le_pow h2) ?_
    by_contra hlt
    have h5 := Nat.le_pow_clog (b := 2) (by omega) C
    have h6 : 2 ^ Nat.clog 2 C ≤ 2 ^ (b - 1) := Nat.pow_le_pow_right (by omega) (by omega)
    have h7 : 2 ^ b = 2 ^ (b - 1) * 2 := by rw [← Nat.pow_succ]; congr 1; omega
    omega
  have : nearestPow2 C = 2 ^ b := h1
  rw [this]
  refine ⟨?_, h2, by omega⟩
  unfold synkRounds; rw [if_neg (by omega), hclog]

namespace Props
open Finset

variable {V : Type}

/-- The barrier object after `init`: senses and flags as set by reduce.hpp:118-250. Values are arbitrary. -/
structure ReduceFresh (g : RedG V) : Prop where
  threadSenses : ∀ t, g.threadSenses t = true
  coreSense : ∀ c, g.coreSense c = true
  flags : ∀ x p i, g.flags x p i = false
  parity : ∀ x, g.parity x = 0
  sense : ∀ x, g.sense x = true

/-- Threads before their first call. -/
def reduceStart (v : V) : Nat → RedL V := fun t => ⟨t, 0, 0, .idle, v, v, fun _ => v⟩

/-- The machine of `ReduceBarrier(C, P)` whose threads call `wait` up to their `N`-th call, passing `inp t e` in episode
`e`, with reduction operation `op` and zero `z`. -/
def reduceMachine (C P : Nat) (op : V → V → V) (z : V) (inp : Nat → Nat → V) (N : Nat) : Machine (RedL V) (RedG V) :=
  redMachine C P (nearestPow2 C) (synkRounds C) op z inp N

/-- Histories in which all threads have returned from episode `k` before any thread starts episode `k + 1` (for
instance: one call per parallel region, or another barrier between two calls). -/
inductive ReduceHist (C P : Nat) (op : V → V → V) (z : V) (inp : Nat → Nat → V) : Nat → (Nat → RedL V) → RedG V → Prop
  | init {v g} : ReduceFresh g → ReduceHist C P op z inp 0 (reduceStart v) g
  | episode {k ls g ls' g'} : ReduceHist C P op z inp k ls g →
      TeamReach (reduceMachine C P op z inp (k + 1)) (C * P) ls g ls' g' →
      (∀ t, t < C * P → (reduceMachine C P op z inp (k + 1)).final (ls' t)) → ReduceHist C P op z inp (k + 1) ls' g'

section
variable [AddCommMonoid V] {C P k : Nat} {inp : Nat → Nat → V} {ls : Nat → RedL V} {g : RedG V}

theorem redSize {C : Nat} (hC : 0 < C) : RedSize C (nearestPow2 C) (synkRounds C) ∧ C ≤ nearestPow2 C ∧
    nearestPow2 C ≤ C + C := by
  by_cases h : C = 1
  · subst h
    exact ⟨.inr ⟨rfl, by decide, by simp [synkRounds]⟩, by decide, by decide⟩
  · obtain ⟨h1, h2, h3⟩ := nearestPow2_eq (C := C) (by omega)
    exact ⟨.inl ⟨by omega, h1⟩, h2, h3⟩

theorem ReduceHist.inv_step {ls0 : Nat → RedL V} {g0 : RedG V} (hC : 0 < C) (hP : 0 < P)
    (hq : RedQuiet C P (nearestPow2 C) (synkRounds C) k ls0 g0)
    (hr : TeamReach (reduceMachine C P (· + ·) 0 inp (k + 1)) (C * P) ls0 g0 ls g) :
    RedInv C P (nearestPow2 C) (synkRounds C) k inp (fun t => (ls0 t).out) ls g := by
  obtain ⟨h1, h2, h3⟩ := redSize hC
  exact reach_inv _ (fun _ _ _ _ _ hi ht hs => hi.step hP (synkRounds_pos C) h1 h2 h3 ht hs)
    (hq.inv hP (by omega) h3) hr

theorem ReduceHist.quiet (hC : 0 < C) (hP : 0 < P) (h : ReduceHist C P (· + ·) 0 inp k ls g) :
    RedQuiet C P (nearestPow2 C) (synkRounds C) k ls g ∧
    ∀ t, t < C * P → ∀ e, e < k → (ls t).out e = redTot C P inp e := by
  obtain ⟨h1, h2, h3⟩ := redSize hC
  induction h with
  | init hf =>
    refine ⟨⟨fun _ _ => rfl, fun _ _ => rfl, fun _ _ => ⟨rfl, rfl⟩, ?_, ?_, ?_, ?_, ?_⟩, fun _ _ _ he => by omega⟩
    · intro t _; rw [hf.threadSenses]; rfl
    · intro t _; rw [hf.coreSense]; rfl
    · intro t _; rw [hf.parity]
    · intro t _; rw [hf.sense]; rfl
    · intro x p i _ hp _; rw [hf.flags]; unfold flagVal; symm; rw [decide_eq_false_iff_not]; omega
  | @episode k ls0 g0 ls' g' _ hr hfin ih =>
    obtain ⟨hq, hout⟩ := ih
    have hi := ReduceHist.inv_step hC hP hq hr
    refine ⟨hi.quiet hP h1 h3 hfin, ?_⟩
    intro t ht e he
    by_cases hek : e = k
    · subst hek
      refine hi.res t ht (hfin t ht).1 ?_
      unfold RedL.st; rw [if_pos ⟨(hfin t ht).1, by have := (hfin t ht).2; omega⟩]
    · rw [hi.out t ht e hek]; exact hout t ht e (by omega)

/-- One episode: no access out of bounds, no deadlock, finitely many steps, and the result. -/
theorem redTeam (hC : 0 < C) (hP : 0 < P) (h : ReduceHist C P (· + ·) 0 inp k ls g) :
    TeamOk (reduceMachine C P (· + ·) 0 inp (k + 1)) (C * P)
      (fun ls' _ => ∀ t, t < C * P → (ls' t).rets = k + 1 ∧
        ∀ e, e ≤ k → (ls' t).out e = redTot C P inp e) ls g := by
  obtain ⟨h1, h2, h3⟩ := redSize hC
  obtain ⟨hq, hout⟩ := h.quiet hC hP
  refine teamOk_of_inv (RedInv C P (nearestPow2 C) (synkRounds C) k inp (fun t => (ls t).out)) redAcc ?_ ?_ ?_ ?_
    (hq.inv hP (by omega) h3)
  · exact fun _ _ _ _ _ hi ht hs => hi.step hP (synkRounds_pos C) h1 h2 h3 ht hs
  · exact fun _ _ _ hi ht => hi.not_bad hP (by omega) h3 ht
  · rintro ls' g' hi ⟨t, ht, hnf⟩
    apply Classical.byContradiction
    intro hno
    apply hnf
    refine hi.progress hP h1 h2 h3 ?_ t ht
    intro u hu
    cases hx : redNext C P (nearestPow2 C) (synkRounds C) (· + ·) 0 inp (k + 1) (ls' u) g' with
    | none => rfl
    | some x => exact absurd ⟨u, x.1, x.2, hu, hx⟩ hno
  · intro ls' g' hi hfin t ht
    have hst : (ls' t).st k = .ret := by
      unfold RedL.st; rw [if_pos ⟨(hfin t ht).1, by have := (hfin t ht).2; omega⟩]
    refine ⟨((hi.quiet hP h1 h3 hfin).calls t ht).2, ?_⟩
    intro e he
    by_cases hek : e = k
    · subst hek; exact hi.res t ht (hfin t ht).1 hst
    · rw [hi.out t ht e hek]; exact hout t ht e (by omega)

/-- C42, partial: at least two cores, and no thread starts an episode before all have returned from the previous one.
From every state such a history reaches, one more episode, under every interleaving: makes no access out of bounds, does
not deadlock, takes finitely many steps, and gives every thread the reduction of exactly the values all threads passed
in that episode (as in all earlier ones). Any commutative monoid, any value slots left by `init`.
Missing: the full claim also covers one core and episodes that overlap; both are false of the code, see
`C42_one_core_false` and `C42_overlapping_episodes_false`. What one core gives is `C42_one_core_partial`; it is right
for idempotent operations (`C42_idempotent_partial`). -/
theorem C42_reduction_partial (hC : 2 ≤ C) (hP : 0 < P) (h : ReduceHist C P (· + ·) 0 inp k ls g) :
    TeamOk (reduceMachine C P (· + ·) 0 inp (k + 1)) (C * P)
      (fun ls' _ => ∀ t, t < C * P → (ls' t).rets = k + 1 ∧
        ∀ e, e ≤ k → (ls' t).out e = ∑ u ∈ range (C * P), inp u e) ls g := by
  have h1 := redTeam (by omega) hP h
  have h2 : ∀ e, redTot C P inp e = ∑ u ∈ range (C * P), inp u e := fun e => if_neg (by omega)
  simp only [h2] at h1
  exact h1

/-- A single core: the episode is as safe, and as sure to end, but the partner of the core is the core itself, and every
thread gets the reduction of all values combined with itself. -/
theorem C42_one_core_partial (hP : 0 < P) (h : ReduceHist 1 P (· + ·) 0 inp k ls g) :
    TeamOk (reduceMachine 1 P (· + ·) 0 inp (k + 1)) P
      (fun ls' _ => ∀ t, t < P → (ls' t).rets = k + 1 ∧
        ∀ e, e ≤ k → (ls' t).out e = ∑ u ∈ range P, inp u e + ∑ u ∈ range P, inp u e) ls g := by
  have h1 := redTeam (by omega) hP h
  have h2 : ∀ e, redTot 1 P inp e = ∑ u ∈ range P, inp u e + ∑ u ∈ range P, inp u e := fun e => by
    unfold redTot; rw [if_pos rfl, Nat.one_mul]
  simp only [h2, Nat.one_mul] at h1
  exact h1

/-- With an operation that gives `v` back when `v` is combined with itself, such as the maximum of the load imbalance
measurements, every number of cores gives the reduction. -/
theorem C42_idempotent_partial (hidem : ∀ v : V, v + v = v) (hC : 0 < C) (hP : 0 < P)
    (h : ReduceHist C P (· + ·) 0 inp k ls g) :
    TeamOk (reduceMachine C P (· + ·) 0 inp (k + 1)) (C * P)
      (fun ls' _ => ∀ t, t < C * P → (ls' t).rets = k + 1 ∧
        ∀ e, e ≤ k → (ls' t).out e = ∑ u ∈ range (C * P), inp u e) ls g := by
  have h1 := redTeam hC hP h
  have h2 : ∀ e, redTot C P inp e = ∑ u ∈ range (C * P), inp u e := fun e => by
    unfold redTot; rw [hidem]; exact ite_self _
  simp only [h2] at h1
  exact h1

/-- The reducing barrier is a barrier: within an episode, when some thread has returned, every thread has called. -/
theorem C42_separates_partial (hC : 0 < C) (hP : 0 < P) (h : ReduceHist C P (· + ·) 0 inp k ls g)
    {ls' : Nat → RedL V} {g' : RedG V} (hr : TeamReach (reduceMachine C P (· + ·) 0 inp (k + 1)) (C * P) ls g ls' g')
    {t u : Nat} (ht : t < C * P) (hu : u < C * P) (hret : (ls' t).rets = k + 1) : (ls' u).calls = k + 1 := by
  have hi := ReduceHist.inv_step hC hP (h.quiet hC hP).1 hr
  have hst : (ls' t).st k = .ret := by
    have := hi.rets t ht
    by_contra hne
    rw [if_neg (fun hh => hne hh.2)] at this; omega
  have hc : t / P < C := Nat.div_lt_of_lt_mul (by rw [Nat.mul_comm]; exact ht)
  have hlead : (ls' (t / P * P)).st k = .ret := by
    by_cases hm : t % P = 0
    · obtain ⟨et, -⟩ := leader_of ht hm
      rw [← et]; exact hst
    · exact hi.slave t ht hm hst
  have hfl := hi.all _ hc (Or.inr (Or.inr hlead)) u hu
  have := hi.calls u hu
  rw [if_neg] at this
  · exact this
  · intro e; rw [e] at hfl; simp [RedPc.fl] at hfl

/-- Every fair execution of the episode gives every thread the reduction. -/
theorem C42_fair_partial (hC : 2 ≤ C) (hP : 0 < P) (h : ReduceHist C P (· + ·) 0 inp k ls g)
    {sch : Nat → Nat} {L : Nat → Nat → RedL V} {G : Nat → RedG V}
    (hrun : IsRun (reduceMachine C P (· + ·) 0 inp (k + 1)) (C * P) sch L G)
    (hfair : ∀ t, t < C * P → ∀ n, ∃ n', n ≤ n' ∧ sch n' = t) (h0 : L 0 = ls) (h1 : G 0 = g) :
    ∃ n, ∀ t, t < C * P → (L n t).rets = k + 1 ∧ (L n t).out k = ∑ u ∈ range (C * P), inp u k := by
  obtain ⟨n, -, -, hn⟩ := (C42_reduction_partial hC hP h).fair_terminates hrun hfair 0 h0 h1
  exact ⟨n, fun t ht => ⟨(hn t ht).1, (hn t ht).2 k (Nat.le_refl _)⟩⟩

end

/-! ### Witnesses -/

/-- A fresh barrier object. -/
def reduceFresh0 (v : V) : RedG V :=
  ⟨fun _ => v, fun _ => true, fun _ => true, fun _ => v, fun _ _ _ => false, fun _ _ => v, fun _ => 0, fun _ => true⟩

theorem reduceFresh0_fresh (v : V) : ReduceFresh (reduceFresh0 v) :=
  ⟨fun _ => rfl, fun _ => rfl, fun _ _ _ => rfl, fun _ => rfl, fun _ => rfl⟩

theorem synkRounds_one : synkRounds 1 = 1 := by simp [synkRounds]
theorem synkRounds_two : synkRounds 2 = 1 := by
  have h : Nat.clog 2 2 = 1 := by rw [Nat.clog_of_two_le (by omega) (by omega)]; rfl
  simp [synkRounds, h]
theorem synkRounds_three : synkRounds 3 = 2 := by
  have h : Nat.clog 2 3 = 2 := by rw [Nat.clog_of_two_le (by omega) (by omega)]; rfl
  simp [synkRounds, h]

/-- 3 cores of 1 thread (so that core 0 also handles a pseudo core) and of 2 threads meet the hypotheses. -/
example : ReduceHist 3 1 (· + ·) (0 : Int) (fun t e => (10 * t + e : Int)) 0 (reduceStart 7) (reduceFresh0 7) :=
  .init (reduceFresh0_fresh 7)
/-- One core of 3 threads meets those of `C42_one_core_partial`. -/
example : ReduceHist 1 3 (· + ·) (0 : Int) (fun t e => (10 * t + e : Int)) 0 (reduceStart 7) (reduceFresh0 7) :=
  .init (reduceFresh0_fresh 7)
example : redHs 3 1 (nearestPow2 3) 0 = [0, 3] ∧ redHs 3 2 (nearestPow2 3) 1 = [3] := by decide

/-- One complete episode on 3 single-threaded cores: all threads get 1 + 20 + 300. -/
def reduceSched3 : List Nat :=
  [0, 0, 0, 0, 0, 0, 0, 1, 1, 1, 1, 1, 2, 2, 2, 2, 2, 0, 0, 0, 0, 0, 0, 0, 0, 1, 1, 1, 1, 2, 2, 2, 2, 0, 0, 0, 0, 0, 0, 0, 0, 0,
   1, 1, 1, 1, 1, 1, 2, 2, 2, 2, 2, 2]

example : (execSched (redNext 3 1 4 2 (· + ·) (0 : Int) (fun t _ => if t = 0 then 1 else if t = 1 then 20 else 300) 1)
    reduceSched3 (reduceStart 7) (reduceFresh0 7)).map
    (fun r => ((r.1 0).out 0, (r.1 1).out 0, (r.1 2).out 0, (r.1 0).rets, (r.1 1).rets, (r.1 2).rets)) =
      some (321, 321, 321, 1, 1, 1) := by decide +kernel

/-- With a single core the number of rounds is still 1 and the core's partner is the core itself, so its value is
combined with itself: with one thread passing 1 and addition, the result is 2. -/
theorem C42_one_core_false : ∃ ls g, ReduceHist 1 1 (· + ·) (0 : Int) (fun _ _ => 1) 1 ls g ∧ (ls 0).out 0 = 2 := by
  have hx : (execSched (redNext 1 1 (nearestPow2 1) (synkRounds 1) (· + ·) (0 : Int) (fun _ _ => 1) 1)
      [0, 0, 0, 0, 0, 0, 0, 0, 0, 0, 0] (reduceStart 0) (reduceFresh0 0)).map
      (fun r => ((r.1 0).out 0, (r.1 0).pc, (r.1 0).calls)) = some (2, .idle, 1) := by
    rw [synkRounds_one]; decide +kernel
  cases hr : execSched (redNext 1 1 (nearestPow2 1) (synkRounds 1) (· + ·) (0 : Int) (fun _ _ => 1) 1)
      [0, 0, 0, 0, 0, 0, 0, 0, 0, 0, 0] (reduceStart 0) (reduceFresh0 0) with
  | none => rw [hr] at hx; simp at hx
  | some r =>
    rw [hr] at hx
    simp only [Option.map_some, Option.some.injEq, Prod.mk.injEq] at hx
    refine ⟨r.1, r.2, .episode (.init (v := 0) (reduceFresh0_fresh 0))
      (execSched_reach (redNext 1 1 (nearestPow2 1) (synkRounds 1) (· + ·) (0 : Int) (fun _ _ => 1) 1)
        (reduceMachine 1 1 (· + ·) (0 : Int) (fun _ _ => 1) 1) 1 (fun _ _ _ _ h => h) _ _ _ _ _ (by simp) r hr
        TeamReach.init) ?_, hx.1⟩
    intro t ht
    have : t = 0 := by omega
    subst this; exact ⟨hx.2.1, hx.2.2⟩

/-- Values passed in the next witness. -/
def overlapInp : Nat → Nat → Int := fun t e => if t = 0 then 1 else if e = 0 then 100 else 1000

/-- The value slots are not doubled as the flags are: with two single-threaded cores that call `wait` twice without
anything in between, core 1 can overwrite its value of the first episode before core 0 has read it, and thread 0 gets
1 + 1000 from its first wait instead of 1 + 100. -/
theorem C42_overlapping_episodes_false : ∃ ls g,
    TeamReach (reduceMachine 2 1 (· + ·) 0 overlapInp 2) 2 (reduceStart 0) (reduceFresh0 0) ls g ∧
    (ls 0).rets = 1 ∧ (ls 0).out 0 = 1001 ∧ ∑ u ∈ range 2, overlapInp u 0 = 101 := by
  have hx : (execSched (redNext 2 1 (nearestPow2 2) (synkRounds 2) (· + ·) (0 : Int) overlapInp 2)
      [0, 0, 0, 0, 0, 1, 1, 1, 1, 1, 1, 1, 1, 1, 1, 1, 1, 1, 1, 1, 0, 0, 0, 0, 0, 0] (reduceStart 0) (reduceFresh0 0)).map
      (fun r => ((r.1 0).rets, (r.1 0).out 0)) = some (1, 1001) := by
    rw [synkRounds_two]; decide +kernel
  cases hr : execSched (redNext 2 1 (nearestPow2 2) (synkRounds 2) (· + ·) (0 : Int) overlapInp 2)
      [0, 0, 0, 0, 0, 1, 1, 1, 1, 1, 1, 1, 1, 1, 1, 1, 1, 1, 1, 1, 0, 0, 0, 0, 0, 0] (reduceStart 0) (reduceFresh0 0) with
  | none => rw [hr] at hx; simp at hx
  | some r =>
    rw [hr] at hx
    simp only [Option.map_some, Option.some.injEq, Prod.mk.injEq] at hx
    exact ⟨r.1, r.2, execSched_reach _ (reduceMachine 2 1 (· + ·) 0 overlapInp 2) 2 (fun _ _ _ _ h => h) _ _ _ _ _
      (by simp) r hr TeamReach.init, hx.1, hx.2, by decide⟩

end Props

end SpMP
