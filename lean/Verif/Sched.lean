import Verif.Script
/-
Running a script under a given schedule. Used to exhibit executions (counterexamples); models no function of /repo.
-/

namespace SpMP

section
variable {A : Type} [DecidableEq A] {ty : A → Type} {α β : Type}

/-- One access of one thread. -/
def Prog.step1 (sz : A → Int) : Prog ty α → Mem ty → Option (Prog ty α × Mem ty)
  | .ret _, _ => none
  | .rd a i k, m => match m a i with
    | some v => some (k v, m)
    | none => none
  | .wr a i v k, m => if 0 ≤ i ∧ i < sz a then some (k, m.set a i v) else none
  | .rmw a i f k, m => match m a i with
    | some v => if 0 ≤ i ∧ i < sz a then some (k v, m.set a i (f v)) else none
    | none => none
  | .fail, _ => none

theorem Prog.step1_step {sz : A → Int} {p p' : Prog ty α} {m m' : Mem ty} (h : p.step1 sz m = some (p', m')) : Step sz p m p' m' := by
  cases p with
  | ret a => simp [Prog.step1] at h
  | rd a i k =>
    simp only [Prog.step1] at h
    split at h
    · rename_i v hv
      obtain ⟨rfl, rfl⟩ := Prod.mk.inj (Option.some.inj h)
      exact Step.rd hv
    · simp at h
  | wr a i v k =>
    simp only [Prog.step1] at h
    split at h
    · rename_i hb
      obtain ⟨rfl, rfl⟩ := Prod.mk.inj (Option.some.inj h)
      exact Step.wr hb.1 hb.2
    · simp at h
  | rmw a i f k =>
    simp only [Prog.step1] at h
    split at h
    · rename_i v hv
      split at h
      · rename_i hb
        obtain ⟨rfl, rfl⟩ := Prod.mk.inj (Option.some.inj h)
        exact Step.rmw hv hb.1 hb.2
      · simp at h
    · simp at h
  | fail => simp [Prog.step1] at h

/-- The threads of `sched` make one access each, in this order; a thread that cannot move is skipped. -/
def schedRun (sz : A → Int) (n : Nat) : List Nat → (Nat → Prog ty α) → Mem ty → (Nat → Prog ty α) × Mem ty
  | [], ts, m => (ts, m)
  | t :: s, ts, m =>
    if t < n then
      match (ts t).step1 sz m with
      | some (p, m') => schedRun sz n s (fun u => if u = t then p else ts u) m'
      | none => schedRun sz n s ts m
    else schedRun sz n s ts m

theorem ParOk.schedRun {sz : A → Int} {n : Nat} {P : (Nat → α) → Mem ty → Prop} (s : List Nat) :
    ∀ {ts : Nat → Prog ty α} {m : Mem ty}, ParOk sz n P ts m → ParOk sz n P (schedRun sz n s ts m).1 (schedRun sz n s ts m).2 := by
  induction s with
  | nil => intro ts m h; exact h
  | cons t s ih =>
    intro ts m h
    unfold SpMP.schedRun
    split
    · rename_i ht
      split
      · rename_i p m' hs
        cases h with
        | mk _ _ _ h3 => exact ih (h3 _ _ ⟨t, ht, p, Prog.step1_step hs, rfl⟩)
      · exact ih h
    · exact ih h

/-- Run the phases, phase number `j` under the `j`-th schedule; what a schedule leaves undone is run thread by thread. -/
def Script.runSched : List (List Nat) → Script ty α → Mem ty → Option (α × Mem ty)
  | _, .done a, m => some (a, m)
  | ss, .phase sz n ts k, m =>
    match runTeam sz (SpMP.schedRun sz n (ss.headD []) ts m).1 n (SpMP.schedRun sz n (ss.headD []) ts m).2 with
    | none => none
    | some (rs, m') => match rs with
      | [] => none
      | r0 :: _ => Script.runSched ss.tail (k (fun t => rs[t]?.getD r0)) m'
  | _, .spin .., _ => none
  | _, .p2p .., _ => none

/-- If all executions are fine, so is the one under the given schedules. -/
theorem Script.Ok.runSched {s : Script ty α} {Q : α → Mem ty → Prop} :
    ∀ {m : Mem ty} (_ : s.Ok m Q) (ss : List (List Nat)) (r : α) (m' : Mem ty), s.runSched ss m = some (r, m') → Q r m' := by
  induction s with
  | done a =>
    intro m h ss r m' e
    simp only [Script.runSched, Option.some.injEq, Prod.mk.injEq] at e
    obtain ⟨rfl, rfl⟩ := e; exact h
  | spin => intro m h ss r m' e; simp [Script.runSched] at e
  | p2p => intro m h ss r m' e; simp [Script.runSched] at e
  | phase sz n ts k ih =>
    intro m h ss r m' e
    obtain ⟨rs, m1, h1, h2, h3⟩ := ParOk.run (ParOk.schedRun (ss.headD []) h)
    simp only [Script.runSched, h1] at e
    cases rs with
    | nil => simp at e
    | cons r0 rs' =>
      refine ih _ ?_ _ _ _ e
      refine h3 _ ?_
      intro t ht
      have : t < (r0 :: rs').length := by omega
      simp [List.getElem?_eq_getElem this]

/-- The execution under the given schedules reaches undefined behaviour. -/
def Script.schedUB : List (List Nat) → Script ty α → Mem ty → Bool
  | _, .done _, _ => false
  | ss, .phase sz n ts k, m =>
    match runTeam sz (SpMP.schedRun sz n (ss.headD []) ts m).1 n (SpMP.schedRun sz n (ss.headD []) ts m).2 with
    | none => true
    | some (rs, m') => match rs with
      | [] => false
      | r0 :: _ => Script.schedUB ss.tail (k (fun t => rs[t]?.getD r0)) m'
  | _, .spin .., _ => false
  | _, .p2p .., _ => false

theorem Script.Ok.not_schedUB {s : Script ty α} {Q : α → Mem ty → Prop} :
    ∀ {m : Mem ty} (_ : s.Ok m Q) (ss : List (List Nat)), s.schedUB ss m = false := by
  induction s with
  | done a => intro m h ss; rfl
  | spin => intro m h ss; rfl
  | p2p => intro m h ss; rfl
  | phase sz n ts k ih =>
    intro m h ss
    obtain ⟨rs, m1, h1, h2, h3⟩ := ParOk.run (ParOk.schedRun (ss.headD []) h)
    simp only [Script.schedUB, h1]
    cases rs with
    | nil => rfl
    | cons r0 rs' =>
      refine ih _ (h3 _ ?_) _
      intro t ht
      have : t < (r0 :: rs').length := by omega
      simp [List.getElem?_eq_getElem this]

end
end SpMP
