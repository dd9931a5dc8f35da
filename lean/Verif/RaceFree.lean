import Verif.Spec.Race
import Verif.Sched
/-
From the proofs that all executions are fine under a race policy to the absence of data races; executable search for a race along a given
schedule. Models no function of /repo.
-/

namespace SpMP
variable {A : Type} [DecidableEq A] {ty : A → Type} {α : Type}

theorem ParOk.psteps [Races A] {sz : A → Int} {n : Nat} {P : (Nat → α) → Mem ty → Prop} {ts ts' : Nat → Prog ty α} {m m' : Mem ty}
    (hs : PSteps sz n ts m ts' m') (h : ParOk sz n P ts m) : ParOk sz n P ts' m' := by
  induction hs with
  | refl => exact h
  | step h1 _ ih => cases h with | mk _ _ _ h4 => exact ih (h4 _ _ h1)

/-- A script all of whose executions are fine under the policy `rc` has races on the cells tolerated by `rc` only. -/
theorem Script.Ok.not_racy [rc : Races A] {s : Script ty α} {Q : α → Mem ty → Prop} {m : Mem ty} (h : s.Ok m Q) :
    s.RaceFreeExcept rc.tol m := by
  intro hr
  induction hr with
  | here hs ht hu htu hrace hn =>
    cases ParOk.psteps hs h with
    | mk _ _ h3 _ => exact hn (h3 _ _ _ _ ht hu htu hrace)
  | later hs hret _ ih =>
    cases ParOk.psteps hs h with
    | mk _ h2 _ _ => exact ih (h2 _ hret)
  | spinLater hs hret _ ih =>
    cases TeamOk.reach h hs with
    | mk _ h2 _ _ => exact ih (h2 hret)
  | p2pHere hs hn => exact hn (h.2 _ _ hs)
  | p2pLater hs hret _ ih =>
    cases TeamOk.reach h.1 hs with
    | mk _ h2 _ _ => exact ih (h2 hret)

theorem Script.RaceFreeExcept.mono {tol tol' : A → Int → Prop} {s : Script ty α} {m : Mem ty} (h : s.RaceFreeExcept tol m)
    (ht : ∀ a i, tol a i → tol' a i) : s.RaceFreeExcept tol' m := by
  intro hr
  refine h ?_
  clear h
  induction hr with
  | here hs h1 h2 h3 h4 h5 => exact .here hs h1 h2 h3 h4 (fun h => h5 (ht _ _ h))
  | later hs hret _ ih => exact .later hs hret ih
  | spinLater hs hret _ ih => exact .spinLater hs hret ih
  | p2pHere hs hn => exact .p2pHere hs hn
  | p2pLater hs hret _ ih => exact .p2pLater hs hret ih

/-! ### Finding a race along a schedule -/

/-- The race, if any, between threads `t` and `u`. -/
def raceB (p q : Prog ty α) : Bool :=
  match p.next, q.next with
  | some (a, i, c), some (b, j, d) => decide (a = b) && decide (i = j) && decide (c.Conflict d)
  | _, _ => false

theorem race_of_raceB {p q : Prog ty α} (h : raceB p q = true) : ∃ a i, Race p q a i := by
  unfold raceB at h
  split at h
  · rename_i a i c b j d hp hq
    simp only [Bool.and_eq_true, decide_eq_true_eq] at h
    obtain ⟨⟨rfl, rfl⟩, h⟩ := h
    exact ⟨a, i, c, d, hp, hq, h⟩
  · simp at h

theorem psteps_schedRun {sz : A → Int} {n : Nat} (s : List Nat) : ∀ (ts : Nat → Prog ty α) (m : Mem ty),
    PSteps sz n ts m (schedRun sz n s ts m).1 (schedRun sz n s ts m).2 := by
  induction s with
  | nil => intro ts m; exact .refl
  | cons t s ih =>
    intro ts m
    unfold schedRun
    split
    · rename_i ht
      split
      · rename_i p m' hs
        exact .step ⟨t, ht, p, Prog.step1_step hs, rfl⟩ (ih _ _)
      · exact ih _ _
    · exact ih _ _

/-- All threads have returned: their results. -/
def retsOf : Nat → (Nat → Prog ty α) → Option (List α)
  | 0, _ => some []
  | n + 1, ts => match retsOf n ts, ts n with
    | some l, .ret r => some (l ++ [r])
    | _, _ => none

theorem retsOf_some {ts : Nat → Prog ty α} : ∀ {n : Nat} {l : List α}, retsOf n ts = some l →
    l.length = n ∧ ∀ (t : Nat) (h : t < l.length), ts t = .ret l[t] := by
  intro n
  induction n with
  | zero => intro l h; simp [retsOf] at h; subst h; exact ⟨rfl, fun t h => absurd h (by simp)⟩
  | succ n ih =>
    intro l h
    unfold retsOf at h
    split at h
    · rename_i l' r h1 h2
      obtain ⟨g1, g2⟩ := ih h1
      have e := Option.some.inj h
      subst e
      refine ⟨by simp [g1], fun t ht => ?_⟩
      rw [List.length_append, List.length_singleton] at ht
      rcases Nat.lt_or_ge t l'.length with h3 | h3
      · rw [g2 t h3, List.getElem_append_left h3]
      · have : t = n := by omega
        subst this
        rw [h2, List.getElem_append_right h3]; simp [g1]
    · simp at h

/-- Phases before the last schedule are run to the end under their schedules; then the last schedule leads to a race of threads `t`
and `u`. -/
def Script.raceAt (t u : Nat) : List (List Nat) → Script ty α → Mem ty → Bool
  | [], _, _ => false
  | [s], .phase sz n ts _, m => decide (t < n) && decide (u < n) && decide (t ≠ u) &&
      raceB ((schedRun sz n s ts m).1 t) ((schedRun sz n s ts m).1 u)
  | s :: ss, .phase sz n ts k, m => match retsOf n (schedRun sz n s ts m).1 with
    | none => false
    | some rs => match rs with
      | [] => false
      | r0 :: _ => Script.raceAt t u ss (k (fun v => rs[v]?.getD r0)) (schedRun sz n s ts m).2
  | _, _, _ => false

theorem Script.racy_of_raceAt {t u : Nat} {s : Script ty α} : ∀ {ss : List (List Nat)} {m : Mem ty}, s.raceAt t u ss m = true →
    s.Racy (fun _ _ => False) m := by
  induction s with
  | done a => intro ss m h; rcases ss with _ | ⟨s1, _ | ⟨s2, ss⟩⟩ <;> simp [Script.raceAt] at h
  | spin => intro ss m h; rcases ss with _ | ⟨s1, _ | ⟨s2, ss⟩⟩ <;> simp [Script.raceAt] at h
  | p2p => intro ss m h; rcases ss with _ | ⟨s1, _ | ⟨s2, ss⟩⟩ <;> simp [Script.raceAt] at h
  | phase sz n ts k ih =>
    intro ss m h
    rcases ss with _ | ⟨s1, _ | ⟨s2, ss⟩⟩
    · simp [Script.raceAt] at h
    · simp only [Script.raceAt, Bool.and_eq_true, decide_eq_true_eq] at h
      obtain ⟨⟨⟨h1, h2⟩, h3⟩, h4⟩ := h
      obtain ⟨a, i, hr⟩ := race_of_raceB h4
      exact .here (psteps_schedRun s1 ts m) h1 h2 h3 hr (fun h => h)
    · simp only [Script.raceAt] at h
      split at h
      · simp at h
      · rename_i rs hrs
        obtain ⟨g1, g2⟩ := retsOf_some hrs
        cases rs with
        | nil => simp at h
        | cons r0 rs' =>
          refine .later (psteps_schedRun s1 ts m) ?_ (ih _ h)
          intro v hv
          have : v < (r0 :: rs').length := by omega
          rw [g2 v this]
          simp [List.getElem?_eq_getElem this]

theorem Script.not_raceFree_of_raceAt {t u : Nat} {s : Script ty α} {m : Mem ty} (ss : List (List Nat)) (h : s.raceAt t u ss m = true) :
    ¬ s.RaceFree m := fun hf => hf (Script.racy_of_raceAt h)

end SpMP
