import Verif.Prog
import Verif.SpinCore
import Verif.P2P
/-
Functions as sequences of phases. An OpenMP parallel region is a list of phases separated by (explicit or
implicit) barriers; a sequential piece of code is a phase with one thread; a `#pragma omp parallel for` is a
phase with one thread per iteration (this covers every assignment of iterations to threads, since any such
assignment only removes interleavings).
-/

namespace SpMP

variable {A : Type} [DecidableEq A] [Races A] {ty : A → Type} {α β : Type}

/-- A function body: phases separated by barriers. `sz` gives the array sizes allocated during the phase,
`n` is the team size, `ts t` the code of thread `t`; the values returned by the threads (their live local
variables) are available to the following phases. A `spin` phase is a team of `n` threads that wait for each other inside the phase;
a `p2p` phase is a team of `n` threads that executes the tasks of a level schedule with point-to-point synchronisation. -/
inductive Script {A : Type} (ty : A → Type) (α : Type) : Type 1 where
  | done (a : α) : Script ty α
  | phase {β : Type} (sz : A → Int) (n : Nat) (ts : Nat → Prog ty β)
      (k : (Nat → β) → Script ty α) : Script ty α
  | spin {C : Type} (sz : A → Int) (n : Nat) (S : Spin ty C) (c0 : Nat → C) (k : Script ty α) : Script ty α
  | p2p (sz : A → Int) (n : Nat) (S : P2P ty) (k : Script ty α) : Script ty α

/-- Every execution of the script (all interleavings in every phase) is free of undefined behaviour and of deadlock,
terminates, and ends with a result and memory satisfying `Q`. -/
def Script.Ok : Script ty α → Mem ty → (α → Mem ty → Prop) → Prop
  | .done a, m, Q => Q a m
  | .phase sz n ts k, m, Q => ParOk sz n (fun r m' => (k r).Ok m' Q) ts m
  | .spin sz n S c0 k, m, Q => TeamOk (S.machine sz) n (fun _ m' => k.Ok m' Q) (fun t => .at (c0 t)) m
  | .p2p sz n S k, m, Q => P2POk sz S n (fun m' => k.Ok m' Q) m

theorem ParOk.mono {sz : A → Int} {n : Nat} {P P' : (Nat → α) → Mem ty → Prop}
    {ts : Nat → Prog ty α} {m : Mem ty} (h : ParOk sz n P ts m) (hp : ∀ r m, P r m → P' r m) :
    ParOk sz n P' ts m := by
  induction h with
  | mk h1 h2 h3 _ ih => exact ParOk.mk h1 (fun r hr => hp _ _ (h2 r hr)) h3 ih

theorem Script.Ok.mono {s : Script ty α} {m : Mem ty} {Q Q' : α → Mem ty → Prop}
    (h : s.Ok m Q) (hq : ∀ a m', Q a m' → Q' a m') : s.Ok m Q' := by
  induction s generalizing m with
  | done a => exact hq _ _ h
  | phase sz n ts k ih => exact ParOk.mono h (fun r m' h' => ih r h')
  | spin sz n S c0 k ih => exact TeamOk.mono h (fun _ m' h' => ih h')
  | p2p sz n S k ih => exact P2POk.mono h (fun m' h' => ih h')

/-- Sequencing of scripts (calling one function after another). -/
def Script.bind : Script ty α → (α → Script ty β) → Script ty β
  | .done a, f => f a
  | .phase sz n ts k, f => .phase sz n ts (fun r => (k r).bind f)
  | .spin sz n S c0 k, f => .spin sz n S c0 (k.bind f)
  | .p2p sz n S k, f => .p2p sz n S (k.bind f)

theorem Script.ok_bind {s : Script ty α} {f : α → Script ty β} {m : Mem ty}
    {Q : β → Mem ty → Prop} :
    (s.bind f).Ok m Q ↔ s.Ok m (fun a m' => (f a).Ok m' Q) := by
  induction s generalizing m with
  | done a => exact Iff.rfl
  | phase sz n ts k ih =>
    simp only [Script.bind, Script.Ok, ih]
  | spin sz n S c0 k ih =>
    simp only [Script.bind, Script.Ok, ih]
  | p2p sz n S k ih =>
    simp only [Script.bind, Script.Ok, ih]

/-- A sequential piece of code: a team of one. -/
def Script.seq (sz : A → Int) (p : Prog ty β) (k : β → Script ty α) : Script ty α :=
  .phase sz 1 (fun _ => p) (fun r => k (r 0))

/-- Rule for a one-thread phase: no access restrictions. -/
theorem seq_rule {sz : A → Int} {p : Prog ty β} {k : β → Script ty α} {m : Mem ty}
    {Q : α → Mem ty → Prop}
    (h : wp sz (fun _ _ => True) (fun _ _ => True) p m (fun r m' => (k r).Ok m' Q)) :
    (Script.seq sz p k).Ok m Q := by
  refine par_rule (W := fun _ _ _ => True) (R := fun _ _ _ => True)
    (Q := fun _ r m' => (k r).Ok m' Q) ?_ ?_ ?_
  · intro t u a i ht hu; omega
  · intro t _; exact h
  · intro r m' hq _
    obtain ⟨mt, h1, h2⟩ := hq 0 (by omega)
    have : m' = mt := by funext a i; exact h2 a i trivial
    rw [this]; exact h1

/-! ### One executable schedule (used for examples and for refuting false properties) -/

/-- Run one thread to the end. `none` = undefined behaviour. -/
def Prog.run (sz : A → Int) : Prog ty α → Mem ty → Option (α × Mem ty)
  | .ret a, m => some (a, m)
  | .rd a i k, m => match m a i with
    | some v => (k v).run sz m
    | none => none
  | .wr a i v k, m => if 0 ≤ i ∧ i < sz a then k.run sz (m.set a i v) else none
  | .rmw a i f k, m => match m a i with
    | some v => if 0 ≤ i ∧ i < sz a then (k v).run sz (m.set a i (f v)) else none
    | none => none
  | .fail, _ => none

/-- Run threads `0, 1, ..., n-1` one after the other. -/
def runTeam (sz : A → Int) (ts : Nat → Prog ty α) : Nat → Mem ty → Option (List α × Mem ty)
  | 0, m => some ([], m)
  | n + 1, m => match runTeam sz ts n m with
    | none => none
    | some (rs, m') => match (ts n).run sz m' with
      | none => none
      | some (r, m'') => some (rs ++ [r], m'')

theorem ParOk.run_aux {sz : A → Int} {n : Nat} {P : (Nat → α) → Mem ty → Prop} {t : Nat} (ht : t < n)
    (p : Prog ty α) :
    ∀ (ts : Nat → Prog ty α) (m : Mem ty), ts t = p → ParOk sz n P ts m →
      ∃ r m', p.run sz m = some (r, m') ∧
        ParOk sz n P (fun u => if u = t then .ret r else ts u) m' := by
  induction p with
  | ret a =>
    intro ts m hp h
    refine ⟨a, m, rfl, ?_⟩
    have : (fun u => if u = t then Prog.ret a else ts u) = ts := by
      funext u; split
      · next h => rw [h, hp]
      · rfl
    rw [this]; exact h
  | rd a i k ih =>
    intro ts m hp h
    cases h with
    | mk h1 _ _ h3 =>
      have hs := h1 t ht
      rw [hp] at hs
      simp only [Stuck] at hs
      cases hv : m a i with
      | none => exact absurd hv hs
      | some v =>
        have hst : Step sz (ts t) m (k v) m := by rw [hp]; exact Step.rd hv
        have := h3 _ m ⟨t, ht, k v, hst, rfl⟩
        obtain ⟨r, m', hr, hok⟩ := ih v _ m (by simp) this
        refine ⟨r, m', by simp [Prog.run, hv, hr], ?_⟩
        have e : (fun u => if u = t then Prog.ret r else
            (fun u => if u = t then k v else ts u) u) =
            (fun u => if u = t then Prog.ret r else ts u) := by
          funext u; by_cases hu : u = t <;> simp [hu]
        rw [e] at hok; exact hok
  | wr a i v k ih =>
    intro ts m hp h
    cases h with
    | mk h1 _ _ h3 =>
      have hs := h1 t ht
      rw [hp] at hs
      simp only [Stuck, Classical.not_not] at hs
      have hst : Step sz (ts t) m k (m.set a i v) := by rw [hp]; exact Step.wr hs.1 hs.2
      have := h3 _ _ ⟨t, ht, k, hst, rfl⟩
      obtain ⟨r, m', hr, hok⟩ := ih _ _ (by simp) this
      refine ⟨r, m', by simp [Prog.run, hs, hr], ?_⟩
      have e : (fun u => if u = t then Prog.ret r else
          (fun u => if u = t then k else ts u) u) =
          (fun u => if u = t then Prog.ret r else ts u) := by
        funext u; by_cases hu : u = t <;> simp [hu]
      rw [e] at hok; exact hok
  | rmw a i f k ih =>
    intro ts m hp h
    cases h with
    | mk h1 _ _ h3 =>
      have hs := h1 t ht
      rw [hp] at hs
      simp only [Stuck, not_or, Classical.not_not] at hs
      cases hv : m a i with
      | none => exact absurd hv hs.1
      | some v =>
        have hst : Step sz (ts t) m (k v) (m.set a i (f v)) := by
          rw [hp]; exact Step.rmw hv hs.2.1 hs.2.2
        have := h3 _ _ ⟨t, ht, k v, hst, rfl⟩
        obtain ⟨r, m', hr, hok⟩ := ih v _ _ (by simp) this
        refine ⟨r, m', by simp [Prog.run, hv, hr, hs.2], ?_⟩
        have e : (fun u => if u = t then Prog.ret r else
            (fun u => if u = t then k v else ts u) u) =
            (fun u => if u = t then Prog.ret r else ts u) := by
          funext u; by_cases hu : u = t <;> simp [hu]
        rw [e] at hok; exact hok
  | fail =>
    intro ts m hp h
    cases h with
    | mk h1 _ _ _ => have := h1 t ht; rw [hp] at this; exact absurd trivial this

/-- The sequential schedule is one of the interleavings `ParOk` quantifies over. -/
theorem ParOk.run {sz : A → Int} {n : Nat} {P : (Nat → α) → Mem ty → Prop}
    {ts : Nat → Prog ty α} {m : Mem ty} (h : ParOk sz n P ts m) :
    ∃ rs m', runTeam sz ts n m = some (rs, m') ∧ rs.length = n ∧
      ∀ r : Nat → α, (∀ t, t < n → rs[t]? = some (r t)) → P r m' := by
  suffices H : ∀ d, d ≤ n → ∃ rs m', runTeam sz ts d m = some (rs, m') ∧ rs.length = d ∧
      ParOk sz n P (fun u => match rs[u]? with | some r => .ret r | none => ts u) m' by
    obtain ⟨rs, m', h1, h2, h3⟩ := H n (Nat.le_refl _)
    refine ⟨rs, m', h1, h2, ?_⟩
    intro r hr
    cases h3 with
    | mk _ h4 _ _ =>
      refine h4 r ?_
      intro t ht; simp [hr t ht]
  intro d
  induction d with
  | zero => intro _; exact ⟨[], m, rfl, rfl, by simpa using h⟩
  | succ d ih =>
    intro hd
    obtain ⟨rs, m', h1, h2, h3⟩ := ih (by omega)
    have hnone : rs[d]? = none := by simp [h2]
    obtain ⟨r, m'', h4, h5⟩ := ParOk.run_aux (t := d) (by omega) (ts d) _ m' (by simp [hnone]) h3
    refine ⟨rs ++ [r], m'', by simp [runTeam, h1, h4], by simp [h2], ?_⟩
    have e : (fun u => match (rs ++ [r])[u]? with | some r => Prog.ret r | none => ts u) =
        (fun u => if u = d then Prog.ret r else
          (fun u => match rs[u]? with | some r => Prog.ret r | none => ts u) u) := by
      funext u
      by_cases hu : u = d
      · subst hu; simp [← h2]
      · simp only [hu, if_false]
        by_cases hlt : u < d
        · rw [List.getElem?_append_left (by omega)]
        · have : (rs ++ [r])[u]? = none := by simp; omega
          have h' : rs[u]? = none := by simp; omega
          rw [this, h']
    rw [e]; exact h5

/-- Run the phases with the sequential schedule; `d` is the value used for `r t` with `t` outside the team. Gives up at a spin or p2p phase. -/
def Script.run : Script ty α → Mem ty → Option (α × Mem ty)
  | .done a, m => some (a, m)
  | .phase sz n ts k, m => match runTeam sz ts n m with
    | none => none
    | some (rs, m') => match rs with
      | [] => none
      | r0 :: _ => (k (fun t => rs[t]?.getD r0)).run m'
  | .spin .., _ => none
  | .p2p .., _ => none

/-- If all executions are fine, then so is the sequential one (teams are non-empty). -/
theorem Script.Ok.run {s : Script ty α} {m : Mem ty} {Q : α → Mem ty → Prop} (h : s.Ok m Q) :
    (∀ r m', s.run m = some (r, m') → Q r m') := by
  induction s generalizing m with
  | done a => intro r m' e; simp only [Script.run, Option.some.injEq, Prod.mk.injEq] at e
              obtain ⟨rfl, rfl⟩ := e; exact h
  | spin => intro r m' e; simp [Script.run] at e
  | p2p => intro r m' e; simp [Script.run] at e
  | phase sz n ts k ih =>
    intro r m' e
    obtain ⟨rs, m1, h1, h2, h3⟩ := ParOk.run h
    simp only [Script.run, h1] at e
    cases rs with
    | nil => simp at e
    | cons r0 rs' =>
      refine ih _ ?_ r m' e
      refine h3 _ ?_
      intro t ht
      have : t < (r0 :: rs').length := by omega
      simp [List.getElem?_eq_getElem this]

/-- The sequential schedule of a script with non-empty teams has no undefined behaviour if `Ok` holds. -/
def Script.runUB : Script ty α → Mem ty → Bool
  | .done _, _ => false
  | .phase sz n ts k, m => match runTeam sz ts n m with
    | none => true
    | some (rs, m') => match rs with
      | [] => false
      | r0 :: _ => (k (fun t => rs[t]?.getD r0)).runUB m'
  | .spin .., _ => false
  | .p2p .., _ => false

/-- A one-thread phase whose code has undefined behaviour. -/
theorem runUB_of_run {sz : A → Int} {ts : Nat → Prog ty β} {k : (Nat → β) → Script ty α} {m : Mem ty}
    (h : (ts 0).run sz m = none) : (Script.phase sz 1 ts k).runUB m = true := by
  simp only [Script.runUB, runTeam, h]

theorem Script.Ok.not_runUB {s : Script ty α} {m : Mem ty} {Q : α → Mem ty → Prop} (h : s.Ok m Q) :
    s.runUB m = false := by
  induction s generalizing m with
  | done a => rfl
  | spin => rfl
  | p2p => rfl
  | phase sz n ts k ih =>
    obtain ⟨rs, m1, h1, h2, h3⟩ := ParOk.run h
    simp only [Script.runUB, h1]
    cases rs with
    | nil => rfl
    | cons r0 rs' =>
      refine ih _ ?_
      refine h3 _ ?_
      intro t ht
      have : t < (r0 :: rs').length := by omega
      simp [List.getElem?_eq_getElem this]

end SpMP
