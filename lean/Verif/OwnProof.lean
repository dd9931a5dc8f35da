import Verif.Own
import Mathlib.Tactic.SplitIfs

/-!
# Storage discipline: what the primitive effects preserve

Two facts about a field are followed through a sequence of effects.  `Good`: the field is null or
holds the array that the library allocated for it.  `Empty`: no unreleased array was allocated for
it.  The first rules out a wrong `FREE`, the second rules out a leak.
-/

namespace SpMP.Own

/-- Field `σ` of `h` is null or holds the live array that was allocated for it. -/
def Good (s : St) (h : Nat) (σ : Slot) : Prop :=
  ∀ o b, s.objs h = some o → o.ptr σ = some b → s.status b = .lib h σ

/-- No live array is attributed to field `σ` of `h`. -/
def Empty (s : St) (h : Nat) (σ : Slot) : Prop := ∀ b, s.status b ≠ .lib h σ

/-- A live array attributed to a field is the one the field points to. -/
def Tight (s : St) : Prop :=
  ∀ h σ b, s.status b = .lib h σ → ∃ o, s.objs h = some o ∧ o.ptr σ = some b

/-- Names not handed out yet are unused. -/
def Fresh (s : St) : Prop := ∀ b, s.next ≤ b → s.status b = .unused

theorem upd_same {α : Type} (f : Nat → α) (i : Nat) (v : α) : upd f i v i = v := by simp [upd]

theorem upd_other {α : Type} (f : Nat → α) {i j : Nat} (v : α) (hne : j ≠ i) :
    upd f i v j = f j := by simp [upd, hne]

theorem Empty.good {s : St} {h : Nat} {σ : Slot} {o : Obj} (ho : s.objs h = some o)
    (hn : o.ptr σ = none) : Good s h σ := by
  intro o' b ho' hb
  rw [ho] at ho'
  injection ho' with ho'
  subst ho'
  rw [hn] at hb
  cases hb

theorem Tight.empty {s : St} (ht : Tight s) {h : Nat} {σ : Slot} {o : Obj}
    (ho : s.objs h = some o) (hn : o.ptr σ = none) : Empty s h σ := by
  intro b hb
  obtain ⟨o', ho', hp⟩ := ht h σ b hb
  rw [ho] at ho'
  injection ho' with ho'
  subst ho'
  rw [hn] at hp
  cases hp

theorem Tight.empty_of_none {s : St} (ht : Tight s) {h : Nat} (ho : s.objs h = none) (σ : Slot) :
    Empty s h σ := by
  intro b hb
  obtain ⟨o', ho', _⟩ := ht h σ b hb
  rw [ho] at ho'
  cases ho'

/-! ## Tables for one object -/

/-- Update of a table. -/
def put (f : Slot → Bool) (σ : Slot) (v : Bool) : Slot → Bool :=
  fun τ => if τ = σ then v else f τ

/-- The fields known to be good after an effect. -/
def goodAfter (g : Slot → Bool) : Act → Slot → Bool
  | .malloc σ => put g σ true
  | .fromPool σ => put g σ false
  | .free σ => put g σ true
  | .null σ => put g σ true
  | .point σ _ => put g σ false
  | .move σ τ => put (put g τ (g σ)) σ true
  | .setOwn _ => g

/-- What an effect needs in order not to release a wrong pointer. -/
def goodNeed (g : Slot → Bool) : Act → Bool
  | .free σ => g σ
  | _ => true

/-- The fields known to be empty after an effect. -/
def emptyAfter (e : Slot → Bool) : Act → Slot → Bool
  | .malloc σ => put e σ false
  | .free σ => put e σ true
  | .move σ τ => put (put e τ (e σ)) σ true
  | _ => e

/-- What an effect needs in order not to lose an array. -/
def emptyNeed (e : Slot → Bool) : Act → Bool
  | .malloc σ => e σ
  | .fromPool σ => e σ
  | .null σ => e σ
  | .point σ _ => e σ
  | .move _ τ => e τ
  | _ => true

/-- The attributes after an effect. -/
def attrAfter (a : Attr) : Act → Attr
  | .setOwn b => { a with own := b }
  | _ => a

/-- The sequence releases no wrong pointer. -/
def goodAll (g : Slot → Bool) : List Act → Bool
  | [] => true
  | a :: as => goodNeed g a && goodAll (goodAfter g a) as

/-- The sequence loses no array. -/
def emptyAll (e : Slot → Bool) : List Act → Bool
  | [] => true
  | a :: as => emptyNeed e a && emptyAll (emptyAfter e a) as

/-- The fields known to be good after the sequence. -/
def goodEnd (g : Slot → Bool) : List Act → Slot → Bool
  | [] => g
  | a :: as => goodEnd (goodAfter g a) as

/-- The fields known to be empty after the sequence. -/
def emptyEnd (e : Slot → Bool) : List Act → Slot → Bool
  | [] => e
  | a :: as => emptyEnd (emptyAfter e a) as

/-- The attributes after the sequence. -/
def attrEnd (a : Attr) : List Act → Attr
  | [] => a
  | x :: as => attrEnd (attrAfter a x) as

theorem goodAll_append {as bs : List Act} : ∀ {g : Slot → Bool},
    goodAll g (as ++ bs) = (goodAll g as && goodAll (goodEnd g as) bs) := by
  induction as with
  | nil => intro g; rfl
  | cons a as ih => intro g; simp only [List.cons_append, goodAll, goodEnd, ih, Bool.and_assoc]

/-! ## One effect -/

theorem lib_ne {h : Nat} {σ : Slot} : Status.lib h σ ≠ .unused := by intro h; cases h

theorem upd_next_keep {s : St} (hf : Fresh s) {v : Status} {b : Nat} {x : Status}
    (hx : x ≠ .unused) (hb : s.status b = x) : upd s.status s.next v b = x := by
  rw [upd_other]
  · exact hb
  · intro he
    subst he
    exact hx (hb ▸ hf s.next (Nat.le_refl _))

theorem fresh_next {s : St} (hf : Fresh s) (v : Status) (o : Nat → Option Obj) :
    Fresh ⟨upd s.status s.next v, s.next + 1, o⟩ := by
  intro b hb
  simp only at hb ⊢
  rw [upd_other _ _ (by omega)]
  exact hf b (by omega)

/-- What one effect on `h` does to the rest of the world. -/
structure Frame (s s' : St) (h : Nat) : Prop where
  fresh : Fresh s'
  objs : ∀ h', h' ≠ h → s'.objs h' = s.objs h'
  good : ∀ h' σ, h' ≠ h → Good s h' σ → Good s' h' σ
  empty : ∀ h' σ, h' ≠ h → Empty s h' σ → Empty s' h' σ
  caller : ∀ b, s.status b = .caller → s'.status b = .caller
  old : ∀ b, s.status b ≠ .unused → s'.status b ≠ .unused
  unpooled : ∀ b, s.status b ≠ .unused → s.status b ≠ .pool → s'.status b ≠ .pool

/-- The library's blocks elsewhere are unchanged, as are the caller's. -/
theorem Frame.of {s s' : St} {h : Nat} (hfr : Fresh s')
    (hob : ∀ h', h' ≠ h → s'.objs h' = s.objs h')
    (hlib : ∀ b h' σ, h' ≠ h → (s'.status b = .lib h' σ ↔ s.status b = .lib h' σ))
    (hcal : ∀ b, s.status b = .caller → s'.status b = .caller)
    (hold : ∀ b, s.status b ≠ .unused → s'.status b ≠ .unused)
    (hunp : ∀ b, s.status b ≠ .unused → s.status b ≠ .pool → s'.status b ≠ .pool) :
    Frame s s' h :=
  ⟨hfr, hob,
   fun h' σ hne hg o b ho hb => (hlib b h' σ hne).2 (hg o b (hob h' hne ▸ ho) hb),
   fun h' σ hne he b hb => he b ((hlib b h' σ hne).1 hb), hcal, hold, hunp⟩

theorem Frame.refl {s : St} (hf : Fresh s) (h : Nat) : Frame s s h :=
  Frame.of hf (fun _ _ => rfl) (fun _ _ _ _ => Iff.rfl) (fun _ h => h) (fun _ h => h)
    (fun _ _ h => h)

theorem Frame.trans {s s' s'' : St} {h : Nat} (h1 : Frame s s' h) (h2 : Frame s' s'' h) :
    Frame s s'' h :=
  ⟨h2.fresh, fun h' hne => (h2.objs h' hne).trans (h1.objs h' hne),
   fun h' σ hne hg => h2.good h' σ hne (h1.good h' σ hne hg),
   fun h' σ hne hg => h2.empty h' σ hne (h1.empty h' σ hne hg),
   fun b hb => h2.caller b (h1.caller b hb),
   fun b hb => h2.old b (h1.old b hb),
   fun b hb hp => h2.unpooled b (h1.old b hb) (h1.unpooled b hb hp)⟩

theorem setPtr_objs {s : St} {h : Nat} {o : Obj} {σ : Slot} {p : Option Nat} {h' : Nat}
    (hne : h' ≠ h) : (s.setPtr h o σ p).objs h' = s.objs h' := upd_other _ _ hne

/-- The status table after an allocation. -/
theorem frame_alloc {s : St} (hf : Fresh s) {h : Nat} {σ : Slot} {v : Status}
    (hv : v = .lib h σ ∨ v = .pool) {f : Nat → Option Obj}
    (hob : ∀ h', h' ≠ h → f h' = s.objs h') :
    Frame s ⟨upd s.status s.next v, s.next + 1, f⟩ h := by
  refine Frame.of (fresh_next hf _ _) hob ?_ (fun b hb => upd_next_keep hf (by simp) hb) ?_ ?_
  · intro b h' τ hne
    simp only [upd]
    split_ifs with hb
    · subst hb
      rw [hf _ (Nat.le_refl _)]
      rcases hv with rfl | rfl
      · refine iff_of_false ?_ (by simp)
        intro h
        injection h with h1 h2
        exact hne h1.symm
      · simp
    · exact Iff.rfl
  · intro b hb
    simp only
    rw [upd_next_keep hf hb rfl]
    exact hb
  · intro b hb hp
    simp only
    rw [upd_next_keep hf hb rfl]
    exact hp

/-- The status table after the release of an array of `h`. -/
theorem frame_free {s : St} (hf : Fresh s) {h : Nat} {σ : Slot} {c : Nat}
    (hc : s.status c = .lib h σ) {f : Nat → Option Obj}
    (hob : ∀ h', h' ≠ h → f h' = s.objs h') :
    Frame s ⟨upd s.status c .freed, s.next, f⟩ h := by
  refine Frame.of ?_ hob ?_ ?_ ?_ ?_
  · intro b hb
    have hb : s.next ≤ b := hb
    show upd s.status c .freed b = .unused
    rw [upd_other]
    · exact hf b hb
    · rintro rfl
      rw [hf b hb] at hc
      cases hc
  · intro b h' τ hne
    simp only [upd]
    split_ifs with hb
    · subst hb
      rw [hc]
      refine iff_of_false (by simp) ?_
      intro h
      injection h with h1 h2
      exact hne h1.symm
    · exact Iff.rfl
  · intro b hb
    simp only [upd]
    split_ifs with h1
    · subst h1; rw [hc] at hb; cases hb
    · exact hb
  · intro b hb
    simp only [upd]
    split_ifs with h1
    · simp
    · exact hb
  · intro b hb hp
    simp only [upd]
    split_ifs with h1
    · simp
    · exact hp

theorem frame_same {s : St} (hf : Fresh s) {h : Nat} {f : Nat → Option Obj}
    (hob : ∀ h', h' ≠ h → f h' = s.objs h') : Frame s ⟨s.status, s.next, f⟩ h :=
  Frame.of hf hob (fun _ _ _ _ => Iff.rfl) (fun _ h => h) (fun _ h => h) (fun _ _ h => h)

theorem frame_move {s : St} (hf : Fresh s) {h : Nat} {σ τ : Slot} {p : Option Nat}
    {f : Nat → Option Obj} (hob : ∀ h', h' ≠ h → f h' = s.objs h') :
    Frame s ⟨reattribute s.status h σ τ p, s.next, f⟩ h := by
  have key : ∀ b, s.status b ≠ .lib h σ → reattribute s.status h σ τ p b = s.status b := by
    intro b hb
    simp only [reattribute]
    rw [if_neg (fun h => hb h.2)]
  refine Frame.of ?_ hob ?_ ?_ ?_ ?_
  · intro b hb
    have hb := hf b hb
    simp only
    rw [key b (by rw [hb]; simp)]
    exact hb
  · intro b h' ρ hne
    simp only
    by_cases hb : s.status b = .lib h σ
    · simp only [reattribute, hb, and_true]
      split_ifs with h1
      · refine iff_of_false ?_ ?_ <;>
        · intro h
          injection h with h1 h2
          exact hne h1.symm
      · exact Iff.rfl
    · rw [key b hb]
  · intro b hb
    simp only
    rw [key b (by rw [hb]; simp)]
    exact hb
  · intro b hb
    simp only [reattribute]
    split_ifs with h1
    · simp
    · exact hb
  · intro b hb hp
    simp only [reattribute]
    split_ifs with h1
    · simp
    · exact hp

/-- What is known about the fields of one object. -/
structure Holds (s : St) (h : Nat) (a : Attr) (g : Slot → Bool) : Prop where
  obj : ∃ p, s.objs h = some ⟨a, p⟩
  good : ∀ σ, g σ = true → Good s h σ

/-- A field of the changed object. -/
theorem good_put {s' : St} {h : Nat} {a : Attr} {q : Slot → Option Nat} {σ : Slot} {g : Slot → Bool}
    {v : Bool} (ho : s'.objs h = some ⟨a, q⟩)
    (hnew : v = true → ∀ b, q σ = some b → s'.status b = .lib h σ)
    (hother : ∀ τ, τ ≠ σ → g τ = true → ∀ b, q τ = some b → s'.status b = .lib h τ) :
    ∀ τ, put g σ v τ = true → Good s' h τ := by
  intro τ hg o b ho' hb
  rw [ho] at ho'
  injection ho' with ho'
  subst ho'
  simp only [put] at hg
  split_ifs at hg with h1
  · subst h1
    exact hnew hg b hb
  · exact hother τ h1 hg b hb

/-- **One effect**: it succeeds, and does what the tables say. -/
theorem exec_step {s : St} {h : Nat} {a : Attr} {g : Slot → Bool} (hf : Fresh s)
    (hh : Holds s h a g) (x : Act) (hn : goodNeed g x = true) :
    ∃ s', exec s h x = .ok s' ∧ Frame s s' h ∧ Holds s' h (attrAfter a x) (goodAfter g x) ∧
      (Tight s → ∀ e : Slot → Bool, (∀ σ, e σ = true → Empty s h σ) → emptyNeed e x = true →
        Tight s' ∧ ∀ σ, emptyAfter e x σ = true → Empty s' h σ) := by
  obtain ⟨⟨p, ho⟩, hg⟩ := hh
  have hob : ∀ (o : Obj) h', h' ≠ h → upd s.objs h (some o) h' = s.objs h' :=
    fun o h' hne => upd_other _ _ hne
  have hgood : ∀ τ, g τ = true → ∀ b, p τ = some b → s.status b = .lib h τ :=
    fun τ hτ b hb => hg τ hτ _ b ho hb
  -- a live array elsewhere stays where its field points
  have htight : ∀ (o : Obj) (f : Nat → Status) (n : Nat), Tight s →
      (∀ h' σ b, f b = .lib h' σ → h' ≠ h → s.status b = .lib h' σ) →
      (∀ σ b, f b = .lib h σ → o.ptr σ = some b) →
      Tight ⟨f, n, upd s.objs h (some o)⟩ := by
    intro o f n ht h1 h2 h' σ b hb
    by_cases hne : h' = h
    · subst hne
      exact ⟨o, upd_same _ _ _, h2 σ b hb⟩
    · obtain ⟨o', ho', hp'⟩ := ht h' σ b (h1 h' σ b hb hne)
      exact ⟨o', (hob o h' hne).trans ho', hp'⟩
  have hme : Tight s → ∀ σ b, s.status b = .lib h σ → p σ = some b := by
    intro ht σ b hb
    obtain ⟨o', ho', hp'⟩ := ht h σ b hb
    rw [ho] at ho'
    injection ho' with ho'
    subst ho'
    exact hp'
  cases x with
  | malloc σ =>
    refine ⟨⟨upd s.status s.next (.lib h σ), s.next + 1,
        upd s.objs h (some ((⟨a, p⟩ : Obj).set σ (some s.next)))⟩,
      by simp only [exec, onObj, ho, St.setPtr], frame_alloc hf (Or.inl rfl) (hob _),
      ⟨⟨_, upd_same _ _ _⟩, ?_⟩, ?_⟩
    · refine good_put (upd_same _ _ _) ?_ ?_
      · intro _ b hb
        simp only [if_pos] at hb
        injection hb with hb
        subst hb
        exact upd_same _ _ _
      · intro τ hτ hgt b hb
        simp only [if_neg hτ] at hb
        exact upd_next_keep hf lib_ne (hgood τ hgt b hb)
    · intro ht e he hn
      have hE := he σ hn
      refine ⟨htight _ _ _ ht ?_ ?_, ?_⟩
      · intro h' τ b hb hne
        simp only [upd] at hb
        split_ifs at hb with h1
        · injection hb with h2 h3
          exact absurd h2.symm hne
        · exact hb
      · intro τ b hb
        simp only [upd] at hb
        simp only [Obj.set]
        split_ifs at hb with h1
        · injection hb with h2 h3
          rw [if_pos h3.symm, h1]
        · by_cases h4 : τ = σ
          · subst h4; exact absurd hb (hE b)
          · rw [if_neg h4]; exact hme ht τ b hb
      · intro τ hτ b hb
        simp only [emptyAfter, put] at hτ
        split_ifs at hτ with h1
        simp only [upd] at hb
        split_ifs at hb with h2
        · injection hb with h3 h4
          exact h1 h4.symm
        · exact he τ hτ b hb
  | fromPool σ =>
    refine ⟨⟨upd s.status s.next .pool, s.next + 1,
        upd s.objs h (some ((⟨a, p⟩ : Obj).set σ (some s.next)))⟩,
      by simp only [exec, onObj, ho, St.setPtr], frame_alloc (σ := σ) hf (Or.inr rfl) (hob _),
      ⟨⟨_, upd_same _ _ _⟩, ?_⟩, ?_⟩
    · refine good_put (upd_same _ _ _) (by simp) ?_
      intro τ hτ hgt b hb
      simp only [if_neg hτ] at hb
      exact upd_next_keep hf lib_ne (hgood τ hgt b hb)
    · intro ht e he hn
      have hE := he σ hn
      have key : ∀ h' τ b, upd s.status s.next .pool b = .lib h' τ → s.status b = .lib h' τ := by
        intro h' τ b hb
        simp only [upd] at hb
        split_ifs at hb with h1
        exact hb
      refine ⟨htight _ _ _ ht (fun h' τ b hb _ => key h' τ b hb) ?_, ?_⟩
      · intro τ b hb
        have hb := key _ _ _ hb
        simp only [Obj.set]
        by_cases h4 : τ = σ
        · subst h4; exact absurd hb (hE b)
        · rw [if_neg h4]; exact hme ht τ b hb
      · intro τ hτ b hb
        exact he τ hτ b (key _ _ _ hb)
  | free σ =>
    cases hp : p σ with
    | none =>
      refine ⟨s, by simp only [exec, onObj, ho, hp, release], Frame.refl hf h,
        ⟨⟨p, ho⟩, good_put ho ?_ (fun τ _ => hgood τ)⟩, ?_⟩
      · intro _ b hb; rw [hp] at hb; cases hb
      · intro ht e he _
        refine ⟨ht, ?_⟩
        intro τ hτ
        simp only [emptyAfter, put] at hτ
        split_ifs at hτ with h1
        · subst h1; exact ht.empty ho hp
        · exact he τ hτ
    | some c =>
      have hc := hgood σ hn c hp
      refine ⟨⟨upd s.status c .freed, s.next,
          upd s.objs h (some ((⟨a, p⟩ : Obj).set σ none))⟩,
        by simp only [exec, onObj, ho, hp, release, hc, St.setPtr], frame_free hf hc (hob _),
        ⟨⟨_, upd_same _ _ _⟩, ?_⟩, ?_⟩
      · refine good_put (upd_same _ _ _) ?_ ?_
        · intro _ b hb
          simp only [if_pos] at hb
          cases hb
        · intro τ hτ hgt b hb
          simp only [if_neg hτ] at hb
          have := hgood τ hgt b hb
          simp only [upd]
          split_ifs with h1
          · subst h1
            rw [hc] at this
            injection this with _ h3
            exact absurd h3.symm hτ
          · exact this
      · intro ht e he _
        have key : ∀ h' τ b, upd s.status c .freed b = .lib h' τ →
            s.status b = .lib h' τ ∧ b ≠ c := by
          intro h' τ b hb
          simp only [upd] at hb
          split_ifs at hb with h1
          exact ⟨hb, h1⟩
        have hne : ∀ τ b, upd s.status c .freed b = .lib h τ → τ ≠ σ := by
          rintro τ b hb rfl
          have h1 := key _ _ _ hb
          have := hme ht τ b h1.1
          rw [hp] at this
          injection this with this
          exact h1.2 this.symm
        refine ⟨htight _ _ _ ht (fun h' τ b hb _ => (key h' τ b hb).1) ?_, ?_⟩
        · intro τ b hb
          simp only [Obj.set]
          rw [if_neg (hne τ b hb)]
          exact hme ht τ b (key _ _ _ hb).1
        · intro τ hτ b hb
          simp only [emptyAfter, put] at hτ
          rw [if_neg (hne τ b hb)] at hτ
          exact he τ hτ b (key _ _ _ hb).1
  | null σ =>
    refine ⟨⟨s.status, s.next, upd s.objs h (some ((⟨a, p⟩ : Obj).set σ none))⟩,
      by simp only [exec, onObj, ho, St.setPtr], frame_same hf (hob _),
      ⟨⟨_, upd_same _ _ _⟩, ?_⟩, ?_⟩
    · refine good_put (upd_same _ _ _) ?_ ?_
      · intro _ b hb
        simp only [if_pos] at hb
        cases hb
      · intro τ hτ hgt b hb
        simp only [if_neg hτ] at hb
        exact hgood τ hgt b hb
    · intro ht e he hn
      refine ⟨htight _ _ _ ht (fun h' τ b hb _ => hb) ?_, he⟩
      intro τ b hb
      simp only [Obj.set]
      by_cases h4 : τ = σ
      · subst h4; exact absurd hb (he τ hn b)
      · rw [if_neg h4]; exact hme ht τ b hb
  | point σ q =>
    refine ⟨⟨s.status, s.next, upd s.objs h (some ((⟨a, p⟩ : Obj).set σ q))⟩,
      by simp only [exec, onObj, ho, St.setPtr], frame_same hf (hob _),
      ⟨⟨_, upd_same _ _ _⟩, ?_⟩, ?_⟩
    · refine good_put (upd_same _ _ _) (by simp) ?_
      intro τ hτ hgt b hb
      simp only [if_neg hτ] at hb
      exact hgood τ hgt b hb
    · intro ht e he hn
      refine ⟨htight _ _ _ ht (fun h' τ b hb _ => hb) ?_, he⟩
      intro τ b hb
      simp only [Obj.set]
      by_cases h4 : τ = σ
      · subst h4; exact absurd hb (he τ hn b)
      · rw [if_neg h4]; exact hme ht τ b hb
  | move σ τ =>
    refine ⟨⟨reattribute s.status h σ τ (p σ), s.next,
        upd s.objs h (some (((⟨a, p⟩ : Obj).set τ (p σ)).set σ none))⟩,
      by simp only [exec, onObj, ho], frame_move hf (hob _),
      ⟨⟨_, upd_same _ _ _⟩, ?_⟩, ?_⟩
    · refine good_put (upd_same _ _ _) ?_ ?_
      · intro _ b hb
        simp only [if_pos] at hb
        cases hb
      · intro ρ hρ hgt b hb
        simp only [if_neg hρ, Obj.set] at hb
        simp only [put] at hgt
        split_ifs at hgt hb with h1
        · have := hgood σ hgt b hb
          simp only [reattribute, hb, this, h1]
          simp
        · have := hgood ρ hgt b hb
          simp only [reattribute]
          rw [if_neg]
          · exact this
          · rintro ⟨_, h3⟩
            rw [this] at h3
            injection h3 with _ h4
            exact hρ h4
    · intro ht e he hn
      have hE := he τ hn
      -- an array of `h` now belongs to `τ` if it was at `σ`, and otherwise is where it was
      have key : ∀ ρ b, reattribute s.status h σ τ (p σ) b = .lib h ρ →
          (ρ = τ ∧ s.status b = .lib h σ ∧ p σ = some b) ∨
          (ρ ≠ σ ∧ s.status b = .lib h ρ) := by
        intro ρ b hb
        simp only [reattribute] at hb
        split_ifs at hb with h1
        · injection hb with _ h3
          exact Or.inl ⟨h3.symm, h1.2, h1.1⟩
        · refine Or.inr ⟨?_, hb⟩
          rintro rfl
          exact h1 ⟨hme ht ρ b hb, hb⟩
      by_cases hst : σ = τ
      · subst hst
        have hno : ∀ ρ b, reattribute s.status h σ σ (p σ) b = .lib h ρ →
            ρ ≠ σ ∧ s.status b = .lib h ρ := by
          intro ρ b hb
          rcases key ρ b hb with ⟨_, h2, _⟩ | h2
          · exact absurd h2 (hE b)
          · exact h2
        refine ⟨htight _ _ _ ht ?_ ?_, ?_⟩
        · intro h' ρ b hb hne
          simp only [reattribute] at hb
          split_ifs at hb with h1
          · injection hb with h2 _
            exact absurd h2.symm hne
          · exact hb
        · intro ρ b hb
          obtain ⟨h1, h2⟩ := hno ρ b hb
          simp only [Obj.set]
          rw [if_neg h1, if_neg h1]
          exact hme ht ρ b h2
        · intro ρ hρ b hb
          obtain ⟨h1, h2⟩ := hno ρ b hb
          simp only [emptyAfter, put] at hρ
          rw [if_neg h1, if_neg h1] at hρ
          exact he ρ hρ b h2
      · refine ⟨htight _ _ _ ht ?_ ?_, ?_⟩
        · intro h' ρ b hb hne
          simp only [reattribute] at hb
          split_ifs at hb with h1
          · injection hb with h2 _
            exact absurd h2.symm hne
          · exact hb
        · intro ρ b hb
          simp only [Obj.set]
          rcases key ρ b hb with ⟨rfl, h2, h3⟩ | ⟨h1, h2⟩
          · rw [if_neg (Ne.symm hst), if_pos rfl]
            exact h3
          · rw [if_neg h1]
            by_cases h4 : ρ = τ
            · subst h4; exact absurd h2 (hE b)
            · rw [if_neg h4]; exact hme ht ρ b h2
        · intro ρ hρ b hb
          simp only [emptyAfter, put] at hρ
          rcases key ρ b hb with ⟨rfl, h2, h3⟩ | ⟨h1, h2⟩
          · rw [if_neg (Ne.symm hst), if_pos rfl] at hρ
            exact he σ hρ b h2
          · rw [if_neg h1] at hρ
            split_ifs at hρ with h4
            · subst h4; exact hE b h2
            · exact he ρ hρ b h2
  | setOwn v =>
    refine ⟨⟨s.status, s.next, upd s.objs h (some ⟨{ a with own := v }, p⟩)⟩,
      by simp only [exec, onObj, ho], frame_same hf (hob _), ⟨⟨_, upd_same _ _ _⟩, ?_⟩, ?_⟩
    · intro τ hgt o b ho' hb
      simp only [upd_same] at ho'
      injection ho' with ho'
      subst ho'
      exact hgood τ hgt b hb
    · intro ht e he _
      exact ⟨htight _ _ _ ht (fun h' τ b hb _ => hb) (fun τ b hb => hme ht τ b hb), he⟩

/-- **A sequence of effects**. -/
theorem execAll_step {as : List Act} : ∀ {s : St} {h : Nat} {a : Attr} {g : Slot → Bool},
    Fresh s → Holds s h a g → goodAll g as = true →
    ∃ s', execAll s h as = .ok s' ∧ Frame s s' h ∧ Holds s' h (attrEnd a as) (goodEnd g as) ∧
      (Tight s → ∀ e : Slot → Bool, (∀ σ, e σ = true → Empty s h σ) → emptyAll e as = true →
        Tight s' ∧ ∀ σ, emptyEnd e as σ = true → Empty s' h σ) := by
  induction as with
  | nil =>
    intro s h a g hf hh _
    exact ⟨s, rfl, Frame.refl hf h, hh, fun ht e he _ => ⟨ht, he⟩⟩
  | cons x as ih =>
    intro s h a g hf hh hs
    simp only [goodAll, Bool.and_eq_true] at hs
    obtain ⟨s1, he1, hfr1, hh1, hE1⟩ := exec_step hf hh x hs.1
    obtain ⟨s2, he2, hfr2, hh2, hE2⟩ := ih hfr1.fresh hh1 hs.2
    refine ⟨s2, ?_, hfr1.trans hfr2, hh2, ?_⟩
    · simp only [execAll, he1, Res.andThen, he2]
    · intro ht e he hn
      simp only [emptyAll, Bool.and_eq_true] at hn
      obtain ⟨ht1, hb⟩ := hE1 ht e he hn.1
      exact hE2 ht1 _ hb hn.2

/-! ## Fields that are not touched -/

/-- Does the effect leave field `σ` alone? -/
def keeps1 (σ : Slot) : Act → Bool
  | .malloc τ => τ ≠ σ
  | .fromPool τ => τ ≠ σ
  | .free τ => τ ≠ σ
  | .null τ => τ ≠ σ
  | .point τ _ => τ ≠ σ
  | .move τ ρ => τ ≠ σ && ρ ≠ σ
  | .setOwn _ => true

/-- Does the sequence leave field `σ` alone? -/
def keeps (σ : Slot) (as : List Act) : Bool := as.all (keeps1 σ)

theorem onObj_ok {s : St} {h : Nat} {k : Obj → Res} {s' : St} (he : onObj s h k = .ok s') :
    ∃ o, s.objs h = some o ∧ k o = .ok s' := by
  unfold onObj at he
  cases hq : s.objs h with
  | none => rw [hq] at he; cases he
  | some o => rw [hq] at he; exact ⟨o, rfl, he⟩

theorem exec_keeps {s s' : St} {h : Nat} {x : Act} {σ : Slot} {o : Obj}
    (he : exec s h x = .ok s') (hk : keeps1 σ x = true) (ho : s.objs h = some o) :
    ∃ o', s'.objs h = some o' ∧ o'.ptr σ = o.ptr σ := by
  have put1 : ∀ (τ : Slot) (p : Option Nat), τ ≠ σ → (o.set τ p).ptr σ = o.ptr σ := by
    intro τ p hne
    simp only [Obj.set]
    rw [if_neg (Ne.symm hne)]
  cases x with
  | malloc τ =>
    obtain ⟨o1, ho1, hx⟩ := onObj_ok he
    rw [ho] at ho1; injection ho1 with ho1; subst ho1
    injection hx with hx; subst hx
    exact ⟨_, upd_same _ _ _, put1 _ _ (of_decide_eq_true hk)⟩
  | fromPool τ =>
    obtain ⟨o1, ho1, hx⟩ := onObj_ok he
    rw [ho] at ho1; injection ho1 with ho1; subst ho1
    injection hx with hx; subst hx
    exact ⟨_, upd_same _ _ _, put1 _ _ (of_decide_eq_true hk)⟩
  | null τ =>
    obtain ⟨o1, ho1, hx⟩ := onObj_ok he
    rw [ho] at ho1; injection ho1 with ho1; subst ho1
    injection hx with hx; subst hx
    exact ⟨_, upd_same _ _ _, put1 _ _ (of_decide_eq_true hk)⟩
  | point τ q =>
    obtain ⟨o1, ho1, hx⟩ := onObj_ok he
    rw [ho] at ho1; injection ho1 with ho1; subst ho1
    injection hx with hx; subst hx
    exact ⟨_, upd_same _ _ _, put1 _ _ (of_decide_eq_true hk)⟩
  | free τ =>
    obtain ⟨o1, ho1, hx⟩ := onObj_ok he
    rw [ho] at ho1; injection ho1 with ho1; subst ho1
    cases hp : o.ptr τ with
    | none =>
      rw [hp] at hx
      injection hx with hx; subst hx
      exact ⟨o, ho, rfl⟩
    | some c =>
      rw [hp] at hx
      simp only [release] at hx
      split at hx
      · injection hx with hx; subst hx
        exact ⟨_, upd_same _ _ _, put1 _ _ (of_decide_eq_true hk)⟩
      · cases hx
  | move τ ρ =>
    obtain ⟨o1, ho1, hx⟩ := onObj_ok he
    rw [ho] at ho1; injection ho1 with ho1; subst ho1
    injection hx with hx; subst hx
    simp only [keeps1, Bool.and_eq_true, decide_eq_true_eq] at hk
    refine ⟨_, upd_same _ _ _, ?_⟩
    simp only [Obj.set]
    rw [if_neg (Ne.symm hk.1), if_neg (Ne.symm hk.2)]
  | setOwn v =>
    obtain ⟨o1, ho1, hx⟩ := onObj_ok he
    rw [ho] at ho1; injection ho1 with ho1; subst ho1
    injection hx with hx; subst hx
    exact ⟨_, upd_same _ _ _, rfl⟩

theorem execAll_keeps {as : List Act} : ∀ {s s' : St} {h : Nat} {σ : Slot} {o : Obj},
    execAll s h as = .ok s' → keeps σ as = true → s.objs h = some o →
    ∃ o', s'.objs h = some o' ∧ o'.ptr σ = o.ptr σ := by
  induction as with
  | nil =>
    intro s s' h σ o he _ ho
    injection he with he
    subst he
    exact ⟨o, ho, rfl⟩
  | cons x as ih =>
    intro s s' h σ o he hk ho
    simp only [keeps, List.all_cons, Bool.and_eq_true] at hk
    cases hq : exec s h x with
    | wrong => simp only [execAll, hq, Res.andThen] at he; cases he
    | misuse => simp only [execAll, hq, Res.andThen] at he; cases he
    | ok s1 =>
      simp only [execAll, hq, Res.andThen] at he
      obtain ⟨o1, ho1, hp1⟩ := exec_keeps hq hk.1 ho
      obtain ⟨o2, ho2, hp2⟩ := ih he hk.2 ho1
      exact ⟨o2, ho2, hp2.trans hp1⟩

theorem execAll_append {as bs : List Act} : ∀ {s : St} {h : Nat},
    execAll s h (as ++ bs) = (execAll s h as).andThen fun s' => execAll s' h bs := by
  induction as with
  | nil => intro s h; rfl
  | cons x as ih =>
    intro s h
    simp only [List.cons_append, execAll]
    cases exec s h x with
    | wrong => rfl
    | misuse => rfl
    | ok s1 => exact ih

end SpMP.Own
