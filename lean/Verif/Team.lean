/-
Teams of threads that synchronise by spinning: a generic interleaving machine, used for the
point-to-point schedules, the barriers and the lock-free algorithms.

A spin loop `while (!cond) ;` is modelled by a step that is enabled when `cond` holds; while it does not hold the
thread re-reads the flag without changing the state. `fair_terminates` accounts for those idle iterations
explicitly.
-/

namespace SpMP

/-- A thread automaton over local states `L` and shared memory `G`. -/
structure Machine (L G : Type) where
  /-- one (non-idle) atomic step -/
  step : L → G → L → G → Prop
  /-- undefined behaviour (access outside an array, uninitialised read, failed assert) -/
  bad : L → G → Prop
  /-- the thread has returned -/
  final : L → Prop

variable {L G : Type}

/-- Replace the local state of thread `t`. -/
def updT (ls : Nat → L) (t : Nat) (l : L) : Nat → L := fun u => if u = t then l else ls u

@[simp] theorem updT_same (ls : Nat → L) (t : Nat) (l : L) : updT ls t l t = l := by simp [updT]
theorem updT_other (ls : Nat → L) {t u : Nat} (l : L) (h : u ≠ t) : updT ls t l u = ls u := by simp [updT, h]
theorem updT_self (ls : Nat → L) (t : Nat) : updT ls t (ls t) = ls := by
  funext u; by_cases h : u = t <;> simp [updT, h]

/-- One step of a team of `n` threads. -/
def TeamStep (M : Machine L G) (n : Nat) (ls : Nat → L) (g : G) (ls' : Nat → L) (g' : G) : Prop :=
  ∃ t, t < n ∧ ∃ l', M.step (ls t) g l' g' ∧ ls' = updT ls t l'

/-- States reachable by the team. -/
inductive TeamReach (M : Machine L G) (n : Nat) (ls0 : Nat → L) (g0 : G) : (Nat → L) → G → Prop
  | init : TeamReach M n ls0 g0 ls0 g0
  | step {ls g ls' g'} : TeamReach M n ls0 g0 ls g → TeamStep M n ls g ls' g' → TeamReach M n ls0 g0 ls' g'

/-- Every interleaving is free of undefined behaviour and of deadlock, makes only finitely many non-idle steps,
and ends (all threads returned) in a state satisfying `Post`. -/
inductive TeamOk (M : Machine L G) (n : Nat) (Post : (Nat → L) → G → Prop) : (Nat → L) → G → Prop
  | mk {ls g} :
      (∀ t, t < n → ¬ M.bad (ls t) g) →
      ((∀ t, t < n → M.final (ls t)) → Post ls g) →
      ((∃ t, t < n ∧ ¬ M.final (ls t)) → ∃ ls' g', TeamStep M n ls g ls' g') →
      (∀ ls' g', TeamStep M n ls g ls' g' → TeamOk M n Post ls' g') →
      TeamOk M n Post ls g

theorem TeamOk.mono {M : Machine L G} {n : Nat} {P P' : (Nat → L) → G → Prop} {ls : Nat → L} {g : G}
    (h : TeamOk M n P ls g) (hp : ∀ ls g, P ls g → P' ls g) : TeamOk M n P' ls g := by
  induction h with
  | mk h1 h2 h3 _ ih => exact TeamOk.mk h1 (fun h => hp _ _ (h2 h)) h3 ih

/-- A team whose members descend along a well-founded relation, one at a time, descends. -/
theorem acc_team {S : Type} (child : S → S → Prop) (hacc : ∀ s, Acc child s) (n : Nat) :
    ∀ ts : Nat → S, Acc (fun ts' ts => ∃ t, t < n ∧ ∃ p', child p' (ts t) ∧ ts' = updT ts t p') ts := by
  induction n with
  | zero => intro ts; constructor; rintro y ⟨t, h, _⟩; omega
  | succ d ihd =>
    intro ts
    have key : ∀ p, Acc child p → ∀ ts : Nat → S, ts d = p →
        Acc (fun ts' ts => ∃ t, t < d + 1 ∧ ∃ p', child p' (ts t) ∧ ts' = updT ts t p') ts := by
      intro p hp
      induction hp with
      | intro p _ ihp =>
        intro ts hts
        have hacc := ihd ts
        induction hacc with
        | intro ts _ iht =>
          constructor
          rintro ts' ⟨t, ht, p', hc, rfl⟩
          by_cases htd : t = d
          · subst htd
            exact ihp p' (by rw [← hts]; exact hc) _ (by simp)
          · refine iht _ ⟨t, by omega, p', hc, rfl⟩ ?_
            rw [updT_other _ _ (fun h => htd h.symm)]; exact hts
    exact key (ts d) (hacc _) ts rfl

/-- Invariant rule for teams. -/
theorem teamOk_of_inv {M : Machine L G} {n : Nat} {Post : (Nat → L) → G → Prop}
    (Inv : (Nat → L) → G → Prop)
    (hacc : ∀ l, Acc (fun l' l => ∃ g g', M.step l g l' g') l)
    (hstep : ∀ ls g t l' g', Inv ls g → t < n → M.step (ls t) g l' g' → Inv (updT ls t l') g')
    (hbad : ∀ ls g t, Inv ls g → t < n → ¬ M.bad (ls t) g)
    (hprog : ∀ ls g, Inv ls g → (∃ t, t < n ∧ ¬ M.final (ls t)) →
      ∃ t l' g', t < n ∧ M.step (ls t) g l' g')
    (hpost : ∀ ls g, Inv ls g → (∀ t, t < n → M.final (ls t)) → Post ls g)
    {ls : Nat → L} {g : G} (h : Inv ls g) : TeamOk M n Post ls g := by
  have ha := acc_team _ hacc n ls
  induction ha generalizing g with
  | intro ls _ ih =>
    refine TeamOk.mk (fun t ht => hbad ls g t h ht) (hpost ls g h) ?_ ?_
    · intro hx
      obtain ⟨t, l', g', ht, hs⟩ := hprog ls g h hx
      exact ⟨_, g', t, ht, l', hs, rfl⟩
    · rintro ls' g' ⟨t, ht, l', hs, rfl⟩
      exact ih _ ⟨t, ht, l', ⟨g, g', hs⟩, rfl⟩ (hstep ls g t l' g' h ht hs)

/-- An invariant holds in every reachable state. -/
theorem reach_inv {M : Machine L G} {n : Nat} (Inv : (Nat → L) → G → Prop)
    (hstep : ∀ ls g t l' g', Inv ls g → t < n → M.step (ls t) g l' g' → Inv (updT ls t l') g')
    {ls0 : Nat → L} {g0 : G} (h0 : Inv ls0 g0) {ls : Nat → L} {g : G}
    (hr : TeamReach M n ls0 g0 ls g) : Inv ls g := by
  induction hr with
  | init => exact h0
  | step _ hs ih => obtain ⟨t, ht, l', hst, rfl⟩ := hs; exact hstep _ _ t l' _ ih ht hst

/-- Reachable states of a correct team are never undefined behaviour, and all-returned ones satisfy `Post`. -/
theorem TeamOk.reach {M : Machine L G} {n : Nat} {Post : (Nat → L) → G → Prop} {ls0 : Nat → L} {g0 : G}
    (h : TeamOk M n Post ls0 g0) {ls : Nat → L} {g : G} (hr : TeamReach M n ls0 g0 ls g) :
    TeamOk M n Post ls g := by
  induction hr with
  | init => exact h
  | step _ hs ih => cases ih with | mk _ _ _ h4 => exact h4 _ _ hs

/-- An infinite execution: at time `k` thread `sch k` is scheduled; if it can take a step it takes one, otherwise
(it spins on an unset flag, or has returned) nothing changes. -/
def IsRun (M : Machine L G) (n : Nat) (sch : Nat → Nat) (ls : Nat → Nat → L) (g : Nat → G) : Prop :=
  ∀ k, sch k < n ∧
    ((∃ l', M.step (ls k (sch k)) (g k) l' (g (k + 1)) ∧ ls (k + 1) = updT (ls k) (sch k) l') ∨
     ((¬ ∃ l' g', M.step (ls k (sch k)) (g k) l' g') ∧ ls (k + 1) = ls k ∧ g (k + 1) = g k))

/-- Every fair execution of a correct team finishes, in a state satisfying `Post`. -/
theorem TeamOk.fair_terminates {M : Machine L G} {n : Nat} {Post : (Nat → L) → G → Prop}
    {sch : Nat → Nat} {ls : Nat → Nat → L} {g : Nat → G}
    (hrun : IsRun M n sch ls g) (hfair : ∀ t, t < n → ∀ k, ∃ k', k ≤ k' ∧ sch k' = t) :
    ∀ {ls0 g0}, TeamOk M n Post ls0 g0 → ∀ k, ls k = ls0 → g k = g0 →
      ∃ k', k ≤ k' ∧ (∀ t, t < n → M.final (ls k' t)) ∧ Post (ls k') (g k') := by
  intro ls0 g0 h
  induction h with
  | @mk ls1 g1 h1 h2 h3 h4 ih =>
    intro k hls hg
    by_cases hfin : ∀ t, t < n → M.final (ls1 t)
    · exact ⟨k, Nat.le_refl _, by rw [hls]; exact hfin, by rw [hls, hg]; exact h2 hfin⟩
    · have hx : ∃ t, t < n ∧ ¬ M.final (ls1 t) := by
        apply Classical.byContradiction
        intro hc
        apply hfin
        intro t ht
        apply Classical.byContradiction
        intro hf; exact hc ⟨t, ht, hf⟩
      obtain ⟨ls', g', t, ht, l', hs, _⟩ := h3 hx
      -- follow the run until a non-idle step happens
      obtain ⟨k1, hk1, hsch⟩ := hfair t ht k
      have walk : ∀ d, (ls (k + d) = ls1 ∧ g (k + d) = g1) ∨
          ∃ e, e < d ∧ ls (k + e) = ls1 ∧ g (k + e) = g1 ∧
            ∃ l', M.step (ls (k + e) (sch (k + e))) (g (k + e)) l' (g (k + e + 1)) ∧
              ls (k + e + 1) = updT (ls (k + e)) (sch (k + e)) l' := by
        intro d
        induction d with
        | zero => exact Or.inl ⟨hls, hg⟩
        | succ d ihd =>
          rcases ihd with ⟨e1, e2⟩ | ⟨e, he, hh⟩
          · rcases (hrun (k + d)).2 with hst | ⟨_, e3, e4⟩
            · exact Or.inr ⟨d, by omega, e1, e2, hst⟩
            · refine Or.inl ⟨?_, ?_⟩
              · show ls (k + d + 1) = ls1; rw [e3, e1]
              · show g (k + d + 1) = g1; rw [e4, e2]
          · exact Or.inr ⟨e, by omega, hh⟩
      have fromStep : ∀ e, ls (k + e) = ls1 → g (k + e) = g1 →
          (∃ l', M.step (ls (k + e) (sch (k + e))) (g (k + e)) l' (g (k + e + 1)) ∧
              ls (k + e + 1) = updT (ls (k + e)) (sch (k + e)) l') →
          ∃ k', k ≤ k' ∧ (∀ t, t < n → M.final (ls k' t)) ∧ Post (ls k') (g k') := by
        intro e e1 e2 ⟨l2, hs2, hl2⟩
        rw [e1, e2] at hs2
        rw [e1] at hl2
        obtain ⟨k', hk', hf, hp⟩ :=
          ih _ (g (k + e + 1)) ⟨sch (k + e), (hrun (k + e)).1, l2, hs2, rfl⟩ (k + e + 1) hl2 rfl
        exact ⟨k', by omega, hf, hp⟩
      rcases walk (k1 - k) with ⟨e1, e2⟩ | ⟨e, _, e1, e2, hst⟩
      · have hk : k + (k1 - k) = k1 := by omega
        rw [hk] at e1 e2
        have hcase := (hrun k1).2
        rw [hsch] at hcase
        rcases hcase with hst | ⟨hno, _⟩
        · refine fromStep (k1 - k) (by rw [hk]; exact e1) (by rw [hk]; exact e2) ?_
          rw [hk, hsch]; exact hst
        · exact absurd ⟨l', g', by rw [e1, e2]; exact hs⟩ hno
      · exact fromStep e e1 e2 hst

end SpMP
