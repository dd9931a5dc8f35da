import Verif.OwnProof
import Verif.Spec.Own

/-!
# Storage discipline: every call preserves the invariant

One invariant serves both claims.  With `strict = false` it says that the managed pointers of every
object are null or hold the live array allocated for them.  With `strict = true` it says, moreover,
that every live array is where its field points, that the fields that are not managed have none,
and that no matrix uses the pool.
-/

namespace SpMP.Own

/-- All fields. -/
def allSlots : List Slot :=
  [.rowptr, .colidx, .values, .idiag, .diag, .diagptr, .extptr, .cooRow, .cooCol, .cooVal,
   .npF, .npB, .pF, .pB, .fin, .o2t, .t2o, .buf0, .buf1, .fused, .fNp, .fP, .fBuf,
   .tRow, .tCol, .tVal, .tTmp, .tCnt, .lev, .buffer, .taskRows, .bBuf, .rowTask, .adjRow, .adjCol,
   .invRow, .invCol, .invLen, .chBuf, .ch, .nCh, .npTmp]

theorem mem_allSlots (σ : Slot) : σ ∈ allSlots := by cases σ <;> decide

/-- The invariant about one object. -/
structure ObjOk (strict : Bool) (s : St) (h : Nat) (a : Attr) : Prop where
  good : ∀ σ, managed a σ = true → Good s h σ
  empty : strict = true → ∀ σ, managed a σ = false → Empty s h σ
  plain : strict = true → a.cls = .csr → ∀ o b, s.objs h = some o → o.ptr .rowptr = some b →
    s.status b ≠ .unused ∧ s.status b ≠ .pool

/-- The invariant. -/
structure Inv (strict : Bool) (s : St) : Prop where
  fresh : Fresh s
  tight : strict = true → Tight s
  ok : ∀ h o, s.objs h = some o → ObjOk strict s h o.attr

/-- The check that a sequence releases nothing wrongly and leaves the managed fields good. -/
def chkG (g : Slot → Bool) (a : Attr) (as : List Act) : Bool :=
  goodAll g as && allSlots.all fun σ => !managed (attrEnd a as) σ || goodEnd g as σ

/-- The check that a sequence loses nothing and leaves the other fields empty. -/
def chkE (g e : Slot → Bool) (a : Attr) (as : List Act) : Bool :=
  emptyAll e as && (allSlots.all fun σ => managed (attrEnd a as) σ || emptyEnd e as σ) &&
  (a.cls ≠ .csr || goodEnd g as .rowptr || keeps .rowptr as)

theorem attrEnd_cls {as : List Act} : ∀ {a : Attr}, (attrEnd a as).cls = a.cls := by
  induction as with
  | nil => intro a; rfl
  | cons x as ih =>
    intro a
    show (attrEnd (attrAfter a x) as).cls = a.cls
    rw [ih]
    cases x <;> rfl

/-- Other objects are not affected. -/
theorem Frame.objOk {strict : Bool} {s s' : St} {h h' : Nat} {a : Attr} (hf : Frame s s' h)
    (hne : h' ≠ h) (hk : ObjOk strict s h' a) : ObjOk strict s' h' a :=
  ⟨fun σ hm => hf.good h' σ hne (hk.good σ hm),
   fun hs σ hm => hf.empty h' σ hne (hk.empty hs σ hm),
   fun hs hc o b ho hb => by
     rw [hf.objs h' hne] at ho
     have := hk.plain hs hc o b ho hb
     exact ⟨hf.old b this.1, hf.unpooled b this.1 this.2⟩⟩

/-- **A checked sequence of effects preserves the invariant.**  It is enough that the invariant
holds of the other objects and that the tables describe this one. -/
theorem local_ok {strict : Bool} {s : St} {h : Nat} {o : Obj} {as : List Act}
    {g e : Slot → Bool} (hf : Fresh s) (ht : strict = true → Tight s)
    (hoth : ∀ h' o', h' ≠ h → s.objs h' = some o' → ObjOk strict s h' o'.attr)
    (ho : s.objs h = some o) (hg : ∀ σ, g σ = true → Good s h σ) (hG : chkG g o.attr as = true)
    (hE : strict = true → (∀ σ, e σ = true → Empty s h σ) ∧ chkE g e o.attr as = true)
    (hp : strict = true → o.attr.cls = .csr → ∀ b, o.ptr .rowptr = some b →
      s.status b ≠ .unused ∧ s.status b ≠ .pool) :
    ∃ s', execAll s h as = .ok s' ∧ Inv strict s' ∧ Frame s s' h ∧
      Holds s' h (attrEnd o.attr as) (goodEnd g as) ∧
      (strict = true → ∀ σ, emptyEnd e as σ = true → Empty s' h σ) := by
  simp only [chkG, Bool.and_eq_true, List.all_eq_true] at hG
  obtain ⟨s', he, hfr, hh, hem⟩ := execAll_step (a := o.attr) hf ⟨⟨o.ptr, ho⟩, hg⟩ hG.1
  obtain ⟨p', ho'⟩ := hh.obj
  refine ⟨s', he, ⟨hfr.fresh, ?_, ?_⟩, hfr, hh, ?_⟩
  · intro hs
    have h1 := hE hs
    simp only [chkE, Bool.and_eq_true] at h1
    exact (hem (ht hs) e h1.1 h1.2.1.1).1
  · intro h' o1 ho1
    by_cases hne : h' = h
    · subst hne
      rw [ho'] at ho1
      injection ho1 with ho1
      subst ho1
      refine ⟨fun σ hm => hh.good σ ?_, ?_, ?_⟩
      · have := hG.2 σ (mem_allSlots σ)
        rw [hm] at this
        exact this
      · intro hs σ hm
        have h1 := hE hs
        simp only [chkE, Bool.and_eq_true, List.all_eq_true] at h1
        have h2 := (hem (ht hs) e h1.1 h1.2.1.1).2
        refine h2 σ ?_
        have := h1.2.1.2 σ (mem_allSlots σ)
        rw [hm] at this
        exact this
      · intro hs hc o2 b ho2 hb
        rw [attrEnd_cls] at hc
        have h1 := hE hs
        simp only [chkE, Bool.and_eq_true, Bool.or_eq_true] at h1
        rcases h1.2.2 with (h2 | h2) | h2
        · exact absurd hc (of_decide_eq_true h2)
        · have := hh.good _ h2 o2 b ho2 hb
          rw [this]
          exact ⟨by simp, by simp⟩
        · obtain ⟨o3, ho3, hp3⟩ := execAll_keeps he h2 ho
          rw [ho2] at ho3
          injection ho3 with ho3
          subst ho3
          rw [hp3] at hb
          have := hp hs hc b hb
          exact ⟨hfr.old b this.1, hfr.unpooled b this.1 this.2⟩
    · have ho2 := ho1
      rw [hfr.objs h' hne] at ho2
      exact hfr.objOk hne (hoth h' o1 hne ho2)
  · intro hs
    have h1 := hE hs
    simp only [chkE, Bool.and_eq_true] at h1
    exact (hem (ht hs) e h1.1 h1.2.1.1).2

/-- The same when the invariant holds of this object, too.  `e` may add fields that are null. -/
theorem Inv.local_ok {strict : Bool} {s : St} (hi : Inv strict s) {h : Nat} {o : Obj}
    (ho : s.objs h = some o) {as : List Act} (g e : Slot → Bool)
    (hg : ∀ σ, g σ = true → managed o.attr σ = true ∨ Good s h σ)
    (hG : chkG g o.attr as = true)
    (he : strict = true → ∀ σ, e σ = true → managed o.attr σ = false ∨ o.ptr σ = none)
    (hE : strict = true → chkE g e o.attr as = true) :
    ∃ s', execAll s h as = .ok s' ∧ Inv strict s' ∧ Frame s s' h ∧
      Holds s' h (attrEnd o.attr as) (goodEnd g as) ∧
      (strict = true → ∀ σ, emptyEnd e as σ = true → Empty s' h σ) := by
  have hk := hi.ok h o ho
  refine Own.local_ok hi.fresh hi.tight (fun h' o' _ ho' => hi.ok h' o' ho') ho
    (fun σ hσ => ?_) hG (fun hs => ⟨fun σ hσ => ?_, hE hs⟩)
    (fun hs hc b hb => hk.plain hs hc o b ho hb)
  · rcases hg σ hσ with h1 | h1
    · exact hk.good σ h1
    · exact h1
  · rcases he hs σ hσ with h1 | h1
    · exact hk.empty hs σ h1
    · exact (hi.tight hs).empty ho h1

/-- What a call may do: refuse to make sense, or keep the invariant and the caller's arrays. -/
def StepOk (strict : Bool) (s : St) (b0 : Option Nat) (r : Res) : Prop :=
  r = .misuse ∨ ∃ s', r = .ok s' ∧ Inv strict s' ∧
    ∀ b, s.status b = .caller → b0 ≠ some b → s'.status b = .caller

theorem stepOk_onCls {strict : Bool} {s : St} {b0 : Option Nat} {h : Nat} {c : Cls}
    {k : Obj → Res}
    (hk : ∀ o, s.objs h = some o → o.attr.cls = c → StepOk strict s b0 (k o)) :
    StepOk strict s b0 (onCls s h c k) := by
  unfold onCls onObj
  cases ho : s.objs h with
  | none => exact Or.inl rfl
  | some o =>
    simp only
    split_ifs with hc
    · exact hk o ho hc
    · exact Or.inl rfl

theorem stepOk_local {strict : Bool} {s : St} {b0 : Option Nat} {h : Nat} {as : List Act}
    {P Q : St → Prop}
    (hx : ∃ s', execAll s h as = .ok s' ∧ Inv strict s' ∧ Frame s s' h ∧ P s' ∧ Q s') :
    StepOk strict s b0 (execAll s h as) := by
  obtain ⟨s', he, hi, hf, _⟩ := hx
  exact Or.inr ⟨s', he, hi, fun b hb _ => hf.caller b hb⟩

/-- A constructor: the object is new, all its fields are null. -/
theorem stepOk_create {strict : Bool} {s : St} (hi : Inv strict s) {b0 : Option Nat} {h : Nat}
    {a : Attr} {as : List Act} (hG : chkG (fun _ => true) a as = true)
    (hE : strict = true → chkE (fun _ => true) (fun _ => true) a as = true) :
    StepOk strict s b0 (create s h a fun s => execAll s h as) := by
  unfold create
  split_ifs with hn
  · exact Or.inl rfl
  · have hno : s.objs h = none := by
      cases hq : s.objs h with
      | none => rfl
      | some o => rw [hq] at hn; exact absurd rfl hn
    have hlib : Frame s { s with objs := upd s.objs h (some ⟨a, fun _ => none⟩) } h :=
      frame_same hi.fresh (fun h' hne => upd_other _ _ hne)
    have ht : strict = true → Tight { s with objs := upd s.objs h (some ⟨a, fun _ => none⟩) } := by
      intro hs h' σ b hb
      obtain ⟨o', ho', hp'⟩ := hi.tight hs h' σ b hb
      refine ⟨o', ?_, hp'⟩
      simp only
      rw [upd_other _ _ ?_]
      · exact ho'
      · rintro rfl
        rw [hno] at ho'
        cases ho'
    obtain ⟨s', he, hi', hf, _⟩ := local_ok (strict := strict) (o := ⟨a, fun _ => none⟩)
      (g := fun _ => true) (e := fun _ => true) hlib.fresh ht
      (fun h' o' hne ho' => hlib.objOk hne (hi.ok h' o' (by rw [hlib.objs h' hne] at ho'; exact ho')))
      (upd_same _ _ _) (fun σ _ => Empty.good (upd_same _ _ _) rfl) hG
      (fun hs => ⟨fun σ _ => (ht hs).empty (upd_same _ _ _) rfl, hE hs⟩)
      (fun _ _ b hb => by cases hb)
    exact Or.inr ⟨s', he, hi', fun b hb _ => hf.caller b hb⟩

/-! ## The checks for each call -/

/-- `CSR::dealloc` as a function of the two conditions it tests. -/
def dList (pooled own : Bool) : List Act :=
  if pooled then
    [.null .rowptr, .null .extptr, .null .colidx, .null .values, .null .idiag,
     .null .diag, .null .diagptr]
  else
    (if own then [.free .rowptr, .free .extptr, .free .colidx, .free .values] else []) ++
    [.free .idiag, .free .diag, .free .diagptr]

theorem deallocActs_eq (s : St) (o : Obj) : deallocActs s o = dList (pooled s o) o.attr.own := rfl

theorem Inv.not_pooled {s : St} (hi : Inv true s) {h : Nat} {o : Obj} (ho : s.objs h = some o)
    (hc : o.attr.cls = .csr) : pooled s o = false := by
  unfold pooled
  cases hp : o.ptr .rowptr with
  | none => rfl
  | some b =>
    simp only
    exact decide_eq_false ((hi.ok h o ho).plain rfl hc o b ho hp).2

/-- `dealloc`, possibly followed by allocations. -/
theorem stepOk_dealloc {strict : Bool} {s : St} (hi : Inv strict s) {h : Nat} {o : Obj}
    (ho : s.objs h = some o) (hc : o.attr.cls = .csr) {bs : List Act} (g : Slot → Bool)
    (hg : ∀ σ, g σ = true → managed o.attr σ = true ∨ Good s h σ)
    (hG : ∀ p, chkG g o.attr (dList p o.attr.own ++ bs) = true)
    (hE : strict = true →
      chkE g (fun σ => !managed o.attr σ) o.attr (dList false o.attr.own ++ bs) = true) :
    ∃ s', execAll s h (deallocActs s o ++ bs) = .ok s' ∧ Inv strict s' ∧ Frame s s' h ∧
      Holds s' h (attrEnd o.attr (deallocActs s o ++ bs)) (goodEnd g (deallocActs s o ++ bs)) ∧
      (strict = true → ∀ σ,
        emptyEnd (fun σ => !managed o.attr σ) (deallocActs s o ++ bs) σ = true →
        Empty s' h σ) := by
  refine hi.local_ok ho g (fun σ => !managed o.attr σ) hg (hG _) ?_ ?_
  · intro _ σ hσ
    left
    simpa using hσ
  · intro hs
    subst hs
    rw [deallocActs_eq, hi.not_pooled ho hc]
    exact hE rfl

theorem dealloc_ok {strict : Bool} {s : St} (hi : Inv strict s) {h : Nat} {o : Obj}
    (ho : s.objs h = some o) (hc : o.attr.cls = .csr) :
    ∃ s', execAll s h (deallocActs s o) = .ok s' ∧ Inv strict s' ∧ Frame s s' h ∧
      Holds s' h o.attr (managed o.attr) ∧
      (strict = true → o.attr.own = true → ∀ σ, Empty s' h σ) := by
  have h1 := stepOk_dealloc hi ho hc (bs := []) (managed o.attr) (fun σ h => Or.inl h)
    (by
      obtain ⟨⟨cls, own, pool⟩, ptr⟩ := o
      simp only at hc
      subst hc
      intro p
      cases p <;> cases own <;> cases pool <;> rfl)
    (by
      obtain ⟨⟨cls, own, pool⟩, ptr⟩ := o
      simp only at hc
      subst hc
      intro _
      cases own <;> cases pool <;> rfl)
  rw [List.append_nil] at h1
  obtain ⟨s', he, hi', hf, hh, hem⟩ := h1
  obtain ⟨p', ho'⟩ := hh.obj
  have ha : attrEnd o.attr (deallocActs s o) = o.attr := by
    rw [deallocActs_eq]
    cases pooled s o <;> cases o.attr.own <;> rfl
  rw [ha] at ho'
  refine ⟨s', he, hi', hf, ⟨⟨p', ho'⟩, (hi'.ok h _ ho').good⟩, ?_⟩
  intro hs hown σ
  refine hem hs σ ?_
  subst hs
  rw [deallocActs_eq, hi.not_pooled ho hc, hown]
  obtain ⟨⟨cls, own, pool⟩, ptr⟩ := o
  simp only at hc hown
  subst hc hown
  cases pool <;> cases σ <;> rfl

theorem stepOk_deallocCall {strict : Bool} {s : St} (hi : Inv strict s) {b0 : Option Nat}
    {h : Nat} : StepOk strict s b0 (dealloc s h) :=
  stepOk_onCls fun _ ho hc => stepOk_local (dealloc_ok hi ho hc)

/-- The state after the caller, not the library, did something with a block. -/
theorem Inv.status {strict : Bool} {s : St} (hi : Inv strict s) {f : Nat → Status} {n : Nat}
    (hfr : Fresh ⟨f, n, s.objs⟩)
    (hlib : ∀ b h σ, f b = .lib h σ ↔ s.status b = .lib h σ)
    (hold : ∀ b, s.status b ≠ .unused → f b ≠ .unused)
    (hunp : ∀ b, s.status b ≠ .unused → s.status b ≠ .pool → f b ≠ .pool) :
    Inv strict ⟨f, n, s.objs⟩ := by
  refine ⟨hfr, fun hs h σ b hb => hi.tight hs h σ b ((hlib b h σ).1 hb), fun h o ho => ?_⟩
  have hk := hi.ok h o ho
  exact ⟨fun σ hm o' b ho' hb => (hlib b h σ).2 (hk.good σ hm o' b ho' hb),
    fun hs σ hm b hb => hk.empty hs σ hm b ((hlib b h σ).1 hb),
    fun hs hc o' b ho' hb => by
      have := hk.plain hs hc o' b ho' hb
      exact ⟨hold b this.1, hunp b this.1 this.2⟩⟩

theorem Inv.fresh_block {strict : Bool} {s : St} (hi : Inv strict s) {v : Status}
    (hv : v = .caller ∨ v = .pool) :
    Inv strict ⟨upd s.status s.next v, s.next + 1, s.objs⟩ := by
  refine hi.status (fresh_next hi.fresh _ _) ?_ ?_ ?_
  · intro b h σ
    simp only [upd]
    split_ifs with hb
    · subst hb
      rw [hi.fresh _ (Nat.le_refl _)]
      rcases hv with rfl | rfl <;> simp
    · exact Iff.rfl
  · intro b hb
    rw [upd_next_keep hi.fresh hb rfl]
    exact hb
  · intro b hb hp
    rw [upd_next_keep hi.fresh hb rfl]
    exact hp

/-- What the invariant leaves behind when an object disappears. -/
theorem Inv.remove {strict : Bool} {s : St} (hi : Inv strict s) {h : Nat}
    (he : strict = true → ∀ σ, Empty s h σ) :
    Inv strict { s with objs := upd s.objs h none } := by
  refine ⟨hi.fresh, fun hs h' σ b hb => ?_, fun h' o ho => ?_⟩
  · obtain ⟨o', ho', hp'⟩ := hi.tight hs h' σ b hb
    refine ⟨o', ?_, hp'⟩
    simp only
    rw [upd_other _ _ ?_]
    · exact ho'
    · rintro rfl
      exact he hs σ b hb
  · simp only [upd] at ho
    split_ifs at ho with h1
    have hk := hi.ok h' o ho
    have hob : ∀ o', upd s.objs h none h' = some o' → s.objs h' = some o' := by
      intro o' ho'
      rw [upd_other _ _ h1] at ho'
      exact ho'
    exact ⟨fun σ hm o' b ho' hb => hk.good σ hm o' b (hob o' ho') hb,
      fun hs σ hm => hk.empty hs σ hm,
      fun hs hc o' b ho' hb => hk.plain hs hc o' b (hob o' ho') hb⟩

end SpMP.Own
