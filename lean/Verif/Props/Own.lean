import Verif.OwnMain

/-!
# C64: arrays are released exactly once, by their owner

Over every history of calls: nothing is released that the library did not allocate or has already
released, the caller's arrays are left to the caller, and once all objects are gone every array the
library allocated has been released.

The full property is false of the code: the histories in `C64_wrong_release_false` make it release
a foreign or an already released array, those in `C64_leak_false` lose arrays for good.  The
theorems below hold for the calls singled out by `Proper` and `Tidy` in `Verif/Spec/Own.lean`,
which exclude these, and nothing more.
-/

namespace SpMP.Props

open Own

/-- **C64, releases.**  After every history of proper calls, nothing has been released wrongly;
and every array that some object is going to release is live and is not going to be released by
any other object, nor twice by the same. -/
theorem C64_release_partial (cs : List Call) (hcs : Follows Proper St.init cs) :
    run St.init cs ≠ .wrong ∧
    ∀ s, run St.init cs = .ok s → ∀ h o σ b, s.objs h = some o → managed o.attr σ = true →
      o.ptr σ = some b → Live s b ∧
      ∀ h' o' σ', s.objs h' = some o' → managed o'.attr σ' = true → o'.ptr σ' = some b →
        h' = h ∧ σ' = σ := by
  obtain ⟨h1, h2⟩ := run_ok (strict := false) (fun _ _ h => h) (fun h => by cases h)
    (inv_init false) hcs
  refine ⟨h1, fun s hs h o σ b ho hm hb => ?_⟩
  have hi := (h2 s hs).1
  have hst := (hi.ok h o ho).good σ hm o b ho hb
  refine ⟨⟨h, σ, hst⟩, fun h' o' σ' ho' hm' hb' => ?_⟩
  have hst' := (hi.ok h' o' ho').good σ' hm' o' b ho' hb'
  rw [hst] at hst'
  injection hst' with h3 h4
  exact ⟨h3.symm, h4.symm⟩

/-- **C64, the caller's arrays.**  An array of the caller is still the caller's after every further
history of proper calls in which the caller does not release it: no object that borrowed it, and no
other call, has released it. -/
theorem C64_borrowed_partial (cs ds : List Call) (hcs : Follows Proper St.init (cs ++ ds))
    (s s' : St) (hs : run St.init cs = .ok s) (hs' : run St.init (cs ++ ds) = .ok s') (b : Nat)
    (hb : s.status b = .caller) (hne : Call.callerFree b ∉ ds) : s'.status b = .caller := by
  have key : ∀ (cs : List Call) (s0 : St), Inv false s0 → Follows Proper s0 (cs ++ ds) →
      run s0 cs = .ok s → run s0 (cs ++ ds) = .ok s' → s'.status b = .caller := by
    intro cs
    induction cs with
    | nil =>
      intro s0 hi hf h1 h2
      injection h1 with h1
      subst h1
      obtain ⟨_, h3⟩ := run_ok (strict := false) (fun _ _ h => h) (fun h => by cases h) hi hf
      refine (h3 s' h2).2 b hb (fun c hc heq => ?_)
      cases c with
      | callerFree b' =>
        injection heq with heq
        subst heq
        exact hne hc
      | _ => cases heq
    | cons c cs ih =>
      intro s0 hi hf h1 h2
      rcases step_ok hi hf.1 (fun h => by cases h) with h3 | ⟨s1, h3, hi1, _⟩
      · simp only [run, h3, Res.andThen] at h1
        cases h1
      · simp only [List.cons_append, run, h3, Res.andThen] at h1 h2
        exact ih s1 hi1 (hf.2 s1 h3) h1 h2
  exact key cs St.init (inv_init false) hcs hs hs'

/-- **C64, nothing is lost.**  After every history of tidy calls, nothing has been released
wrongly, every live array is reachable as the array of a living object that is going to release it,
and so, when no object is left, no live array is left. -/
theorem C64_no_leak_partial (cs : List Call) (hcs : Follows Tidy St.init cs) :
    run St.init cs ≠ .wrong ∧
    ∀ s, run St.init cs = .ok s →
      (∀ b, Live s b → ∃ h o σ, s.objs h = some o ∧ managed o.attr σ = true ∧
        o.ptr σ = some b) ∧
      ((∀ h, s.objs h = none) → ∀ b, ¬ Live s b) := by
  obtain ⟨h1, h2⟩ := run_ok (strict := true) (fun _ _ h => proper_of_tidy h) (fun _ _ _ h => h)
    (inv_init true) hcs
  refine ⟨h1, fun s hs => ?_⟩
  have hi := (h2 s hs).1
  have key : ∀ b, Live s b → ∃ h o σ, s.objs h = some o ∧ managed o.attr σ = true ∧
      o.ptr σ = some b := by
    rintro b ⟨h, σ, hb⟩
    obtain ⟨o, ho, hp⟩ := hi.tight rfl h σ b hb
    refine ⟨h, o, σ, ho, ?_, hp⟩
    cases hm : managed o.attr σ with
    | true => rfl
    | false => exact absurd hb ((hi.ok h o ho).empty rfl σ hm b)
  refine ⟨key, fun hno b hb => ?_⟩
  obtain ⟨h, o, σ, ho, _⟩ := key b hb
  rw [hno h] at ho
  cases ho

/-! ## A history that meets the hypotheses -/

/-- The caller allocates three arrays, wraps them in a matrix, describes external columns with the
third, builds its diagonal pointers and a schedule, reads a triplet file twice, reads another
matrix from a file, copies it, splits it, and lets everything go, the arrays last. -/
def tidyHistory : List Call :=
  [.callerAlloc, .callerAlloc, .callerAlloc, .csrBorrow 0 0 1 none, .setExt 0 2, .diagPtr 0,
   .sched 1 false, .build 1 true true, .coo 2, .loadCoo 2 true .good, .loadCoo 2 false .good,
   .csrFile 3 (.mtx true), .csrCopy 4 3, .csrSized 5, .splitLU 3 4 5, .loadBin 3 true,
   .inverseDiag 4, .explicitDtor 0, .destroy 0, .destroy 1, .destroy 2, .destroy 3, .destroy 4,
   .destroy 5, .callerFree 0, .callerFree 1, .callerFree 2]

/-- Test a property of object `h`. -/
def onB (s : St) (h : Nat) (k : Obj → Bool) : Bool :=
  match s.objs h with
  | some o => k o
  | none => true

theorem of_onB {s : St} {h : Nat} {k : Obj → Bool} (hb : onB s h k = true) (o : Obj)
    (ho : s.objs h = some o) : k o = true := by
  unfold onB at hb
  rw [ho] at hb
  exact hb

/-- `Tidy` as a test. -/
def tidyB (s : St) : Call → Bool
  | .csrBorrow _ r _ _ => s.status r = .caller
  | .alloc h _ => onB s h fun o => csrSlots.all fun σ => (o.ptr σ).isNone
  | .loadBin h _ => onB s h fun o => o.attr.own || (o.ptr .extptr).isNone
  | .laplacian h => onB s h fun o => o.attr.own
  | .transpose _ _ _ => false
  | .permute _ _ => false
  | .splitLU _ l u => l ≠ u && onB s l (fun o => o.attr.own) && onB s u (fun o => o.attr.own)
  | .setExt h _ => onB s h fun o => !o.attr.own
  | .setDiagptr _ _ => false
  | .assign _ _ => false
  | .loadCoo _ _ outcome => outcome ≠ .badBody
  | .cooCopy _ _ => false
  | .schedCopy _ _ => false
  | .build h reduction fuse => reduction && onB s h fun o =>
      (schedSlots.all fun σ => (o.ptr σ).isNone) && (!o.attr.pool || !fuse)
  | _ => true

theorem tidy_of_B {s : St} {c : Call} (hb : tidyB s c = true) : Tidy s c := by
  cases c with
  | csrBorrow h r c v => exact of_decide_eq_true (p := s.status r = .caller) hb
  | alloc h sep =>
    intro o ho σ hσ
    have := List.all_eq_true.1 (of_onB hb o ho) σ hσ
    simpa using this
  | loadBin h opened =>
    intro o ho
    have := of_onB hb o ho
    simpa using this
  | laplacian h => exact fun o ho => of_onB hb o ho
  | transpose h g x => cases hb
  | permute h g => cases hb
  | splitLU a l u =>
    simp only [tidyB, Bool.and_eq_true, decide_eq_true_eq] at hb
    exact ⟨hb.1.1, fun o ho => of_onB hb.1.2 o ho, fun o ho => of_onB hb.2 o ho⟩
  | setExt h b =>
    intro o ho
    have := of_onB hb o ho
    simpa using this
  | setDiagptr h b => cases hb
  | assign h g => cases hb
  | loadCoo h sym outcome => exact of_decide_eq_true (p := outcome ≠ .badBody) hb
  | cooCopy h g => cases hb
  | schedCopy h g => cases hb
  | build h reduction fuse =>
    simp only [tidyB, Bool.and_eq_true] at hb
    refine ⟨hb.1, fun o ho => ?_⟩
    have := of_onB hb.2 o ho
    simp only [Bool.and_eq_true, List.all_eq_true] at this
    refine ⟨fun σ hσ => by simpa using this.1 σ hσ, fun hp => ?_⟩
    have h2 := this.2
    rw [hp] at h2
    simpa using h2
  | _ => exact trivial

/-- Continue a test after a call. -/
def thenB : Res → (St → Bool) → Bool
  | .ok s, k => k s
  | _, _ => true

/-- `Follows Tidy` as a test. -/
def followsB (s : St) : List Call → Bool
  | [] => true
  | c :: cs => tidyB s c && thenB (step s c) fun s' => followsB s' cs

theorem follows_of_B {cs : List Call} : ∀ {s : St}, followsB s cs = true → Follows Tidy s cs := by
  induction cs with
  | nil => exact fun _ => trivial
  | cons c cs ih =>
    intro s hb
    simp only [followsB, Bool.and_eq_true] at hb
    refine ⟨tidy_of_B hb.1, fun s' hs' => ih ?_⟩
    have := hb.2
    rw [hs'] at this
    exact this

theorem follows_mono {P Q : St → Call → Prop} (hPQ : ∀ s c, P s c → Q s c) {cs : List Call} :
    ∀ {s : St}, Follows P s cs → Follows Q s cs := by
  induction cs with
  | nil => exact fun _ => trivial
  | cons c cs ih => exact fun h => ⟨hPQ _ _ h.1, fun s' hs' => ih (h.2 s' hs')⟩

set_option maxRecDepth 20000 in
/-- The history is tidy, hence proper; it runs to its end; and 76 arrays were allocated on the
way. -/
example : Follows Tidy St.init tidyHistory ∧ Follows Proper St.init tidyHistory ∧
    ∃ s, run St.init tidyHistory = .ok s ∧ (∀ h, s.objs h = none) ∧ s.next = 76 :=
  have h1 : Follows Tidy St.init tidyHistory := follows_of_B (by decide +kernel)
  ⟨h1, follows_mono (fun _ _ h => proper_of_tidy h) h1, _, rfl,
   fun h => match h with
     | 0 => rfl | 1 => rfl | 2 => rfl | 3 => rfl | 4 => rfl | 5 => rfl | _ + 6 => rfl, rfl⟩

set_option maxRecDepth 20000 in
/-- Before the last six calls of the history objects hold live arrays, and the caller's arrays are
the caller's. -/
example : ∃ s o b, run St.init (tidyHistory.take 20) = .ok s ∧ s.objs 4 = some o ∧
    managed o.attr .rowptr = true ∧ o.ptr .rowptr = some b ∧ Live s b ∧ s.status 2 = .caller :=
  ⟨_, _, _, rfl, rfl, rfl, rfl, ⟨4, .rowptr, rfl⟩, rfl⟩

/-! ## What the code does not do -/

/-- **C64 is false of the code (wrong release).**  Each of these histories makes the library give
`_mm_free` an array that it did not allocate, or has released already: a matrix that owns its data
and was given the caller's `extptr`; a matrix that borrows its data, was given the caller's
`extptr`, and is then filled from a file; a matrix given the caller's `diagptr`; a matrix assigned
from another; a triplet matrix copied; a schedule copied; a schedule constructed twice in the pool;
a schedule constructed in the pool without transitive reduction. -/
theorem C64_wrong_release_false :
    run St.init [.csrSized 0, .callerAlloc, .setExt 0 6, .destroy 0] = .wrong ∧
    run St.init [.callerAlloc, .callerAlloc, .callerAlloc, .csrBorrow 0 0 1 none, .setExt 0 2,
      .loadBin 0 true, .destroy 0] = .wrong ∧
    run St.init [.callerAlloc, .callerAlloc, .callerAlloc, .csrBorrow 0 0 1 none,
      .setDiagptr 0 2, .destroy 0] = .wrong ∧
    run St.init [.csrSized 0, .csr 1, .assign 1 0, .destroy 1, .destroy 0] = .wrong ∧
    run St.init [.coo 0, .loadCoo 0 false .good, .cooCopy 1 0, .destroy 1, .destroy 0] = .wrong ∧
    run St.init [.sched 0 false, .build 0 true false, .schedCopy 1 0, .destroy 1, .destroy 0] =
      .wrong ∧
    run St.init [.sched 0 true, .build 0 true false, .build 0 true false] = .wrong ∧
    run St.init [.sched 0 true, .build 0 false false] = .wrong :=
  ⟨rfl, rfl, rfl, rfl, rfl, rfl, rfl, rfl⟩

/-- The history ends with all objects gone, and an array that the library allocated is still not
released: nobody can release it any more. -/
def Leaks (cs : List Call) : Prop :=
  ∃ s, run St.init cs = .ok s ∧ (∀ h, s.objs h = none) ∧ ∃ b, Live s b

set_option maxRecDepth 20000 in
/-- **C64 is false of the code (lost arrays).**  Each of these histories loses arrays: the result of
a transposition; of a permutation; of a split into new matrices; a Laplacian generated into a new
matrix; a matrix allocated twice; a triplet file rejected half-way; a schedule constructed twice;
a schedule constructed without transitive reduction; a fused schedule in the pool; the diagonal
pointers of a matrix whose row pointers are in the pool. -/
theorem C64_leak_false :
    Leaks [.csrSized 0, .transpose 1 0 false, .destroy 0, .destroy 1] ∧
    Leaks [.csrSized 0, .permute 1 0, .destroy 0, .destroy 1] ∧
    Leaks [.csrSized 0, .csr 1, .csr 2, .splitLU 0 1 2, .destroy 0, .destroy 1, .destroy 2] ∧
    Leaks [.csr 0, .laplacian 0, .destroy 0] ∧
    Leaks [.csrSized 0, .alloc 0 true, .destroy 0] ∧
    Leaks [.coo 0, .loadCoo 0 false .badBody, .destroy 0] ∧
    Leaks [.sched 0 false, .build 0 true false, .build 0 true false, .destroy 0] ∧
    Leaks [.sched 0 false, .build 0 false false, .destroy 0] ∧
    Leaks [.sched 0 true, .build 0 true true, .destroy 0] ∧
    Leaks [.poolAlloc, .poolAlloc, .csrBorrow 0 0 1 none, .diagPtr 0, .destroy 0] :=
  ⟨⟨_, rfl, fun h => match h with | 0 => rfl | 1 => rfl | _ + 2 => rfl, 6, 1, .colidx, rfl⟩,
   ⟨_, rfl, fun h => match h with | 0 => rfl | 1 => rfl | _ + 2 => rfl, 6, 1, .rowptr, rfl⟩,
   ⟨_, rfl, fun h => match h with | 0 => rfl | 1 => rfl | 2 => rfl | _ + 3 => rfl,
    6, 1, .rowptr, rfl⟩,
   ⟨_, rfl, fun h => match h with | 0 => rfl | _ + 1 => rfl, 0, 0, .rowptr, rfl⟩,
   ⟨_, rfl, fun h => match h with | 0 => rfl | _ + 1 => rfl, 0, 0, .rowptr, rfl⟩,
   ⟨_, rfl, fun h => match h with | 0 => rfl | _ + 1 => rfl, 0, 0, .tVal, rfl⟩,
   ⟨_, rfl, fun h => match h with | 0 => rfl | _ + 1 => rfl, 7, 0, .npF, rfl⟩,
   ⟨_, rfl, fun h => match h with | 0 => rfl | _ + 1 => rfl, 12, 0, .adjRow, rfl⟩,
   ⟨_, rfl, fun h => match h with | 0 => rfl | _ + 1 => rfl, 17, 0, .fused, rfl⟩,
   ⟨_, rfl, fun h => match h with | 0 => rfl | _ + 1 => rfl, 2, 0, .diagptr, rfl⟩⟩

/-- The full statements fail: not every history is free of wrong releases, and not every history
that ends well is free of leaks. -/
theorem C64_full_false :
    (¬ ∀ cs, run St.init cs ≠ .wrong) ∧
    (¬ ∀ cs s, run St.init cs = .ok s → (∀ h, s.objs h = none) → ∀ b, ¬ Live s b) :=
  ⟨fun h => h _ C64_wrong_release_false.1, fun h =>
    let ⟨s, h1, h2, b, h3⟩ := C64_leak_false.1
    h _ s h1 h2 b h3⟩

end SpMP.Props
