import Verif.OwnStep

/-!
# Storage discipline: all calls together
-/

namespace SpMP.Own

/-- The array the caller releases in this call. -/
def releasedBy : Call → Option Nat
  | .callerFree b => some b
  | _ => none

theorem stepOk_create_nil {strict : Bool} {s : St} (hi : Inv strict s) {b0 : Option Nat}
    {h : Nat} {a : Attr} : StepOk strict s b0 (create s h a .ok) :=
  stepOk_create (as := []) hi
    (by obtain ⟨cls, own, pool⟩ := a; cases cls <;> cases own <;> cases pool <;> rfl)
    (fun _ => by obtain ⟨cls, own, pool⟩ := a; cases cls <;> cases own <;> cases pool <;> rfl)

theorem good_of_status {s : St} {h : Nat} {o : Obj} {σ : Slot} (ho : s.objs h = some o)
    (hb : ∀ b, o.ptr σ = some b → s.status b = .lib h σ) : Good s h σ := by
  intro o' b ho' hp
  rw [ho] at ho'
  injection ho' with ho'
  subst ho'
  exact hb b hp

/-- `managed`, plus the external pointers. -/
def managedExt (a : Attr) (σ : Slot) : Bool := managed a σ || decide (σ = .extptr)

theorem managedExt_ok {s : St} {h : Nat} {o : Obj} (ho : s.objs h = some o)
    (hc : o.attr.cls = .csr) (hx : ExtOk s h) (σ : Slot) (hσ : managedExt o.attr σ = true) :
    managed o.attr σ = true ∨ Good s h σ := by
  simp only [managedExt, Bool.or_eq_true, decide_eq_true_eq] at hσ
  rcases hσ with h1 | rfl
  · exact Or.inl h1
  · rcases hx o ho with h1 | h1
    · left
      simp [managed, hc, h1]
    · exact Or.inr (good_of_status ho h1)

/-- Fields that are not managed, or among those listed. -/
def unmanagedOr (a : Attr) (l : List Slot) (σ : Slot) : Bool := !managed a σ || decide (σ ∈ l)

theorem unmanagedOr_ok {o : Obj} {l : List Slot} (hl : ∀ σ ∈ l, o.ptr σ = none) (σ : Slot)
    (hσ : unmanagedOr o.attr l σ = true) : managed o.attr σ = false ∨ o.ptr σ = none := by
  simp only [unmanagedOr, Bool.or_eq_true, decide_eq_true_eq, Bool.not_eq_true'] at hσ
  rcases hσ with h1 | h1
  · exact Or.inl h1
  · exact Or.inr (hl σ h1)

theorem unmanaged_ok {a : Attr} (σ : Slot) (hσ : (!managed a σ) = true) :
    managed a σ = false := by simpa using hσ

theorem stepOk_local3 {strict : Bool} {s : St} {b0 : Option Nat} {h : Nat} {as : List Act}
    (hx : ∃ s', execAll s h as = .ok s' ∧ Inv strict s' ∧ Frame s s' h) :
    StepOk strict s b0 (execAll s h as) := by
  obtain ⟨s', he, hi, hf⟩ := hx
  exact Or.inr ⟨s', he, hi, fun b hb _ => hf.caller b hb⟩

theorem drop2 {α : Type} {A B C D E : α → Prop} (hx : ∃ s, A s ∧ B s ∧ C s ∧ D s ∧ E s) :
    ∃ s, A s ∧ B s ∧ C s :=
  let ⟨s, h1, h2, h3, _⟩ := hx
  ⟨s, h1, h2, h3⟩

theorem stepOk_build {strict : Bool} {s : St} (hi : Inv strict s) {h : Nat}
    {reduction fuse : Bool} (hp : Proper s (.build h reduction fuse))
    (ht : strict = true → Tidy s (.build h reduction fuse)) {b0 : Option Nat} :
    StepOk strict s b0 (step s (.build h reduction fuse)) := by
  refine stepOk_onCls fun o ho hc => stepOk_local3 ?_
  have hp := hp o ho
  have ht : strict = true → reduction = true ∧ (∀ σ ∈ schedSlots, o.ptr σ = none) ∧
      (o.attr.pool = true → fuse = false) := fun hs => ⟨(ht hs).1, (ht hs).2 o ho⟩
  obtain ⟨⟨cls, own, pool⟩, ptr⟩ := o
  simp only at hc hp ht
  subst hc
  cases pool with
  | false =>
    refine drop2 (hi.local_ok ho (managed _) (unmanagedOr ⟨.sched, own, false⟩ schedSlots)
      (fun σ h => Or.inl h) ?_ (fun hs => unmanagedOr_ok (o := ⟨⟨.sched, own, false⟩, ptr⟩) (ht hs).2.1) ?_)
    · cases reduction <;> cases fuse <;> cases own <;> rfl
    · intro hs
      have := (ht hs).1
      subst this
      cases fuse <;> cases own <;> rfl
  | true =>
    obtain ⟨hr, h1, h2⟩ := hp rfl
    subst hr
    refine drop2 (hi.local_ok ho (fun σ => decide (σ ∈ [Slot.o2t, Slot.t2o]))
      (fun σ => !managed ⟨.sched, own, true⟩ σ) ?_ ?_ (fun hs σ hσ => Or.inl (unmanaged_ok σ hσ)) ?_)
    · intro σ hσ
      right
      have hσ := of_decide_eq_true hσ
      simp only [List.mem_cons, List.not_mem_nil, or_false] at hσ
      rcases hσ with rfl | rfl
      · exact Empty.good ho h1
      · exact Empty.good ho h2
    · cases fuse <;> cases own <;> rfl
    · intro hs
      have := (ht hs).2.2 rfl
      subst this
      cases own <;> rfl

theorem stepOk_borrow {strict : Bool} {s : St} (hi : Inv strict s) {h r c : Nat} {v : Option Nat}
    (ht : strict = true → s.status r = .caller) {b0 : Option Nat} :
    StepOk strict s b0 (step s (.csrBorrow h r c v)) := by
  have h1 := stepOk_create (strict := false) (b0 := b0) (h := h) (a := ⟨.csr, false, false⟩)
    (as := [.point .rowptr (some r), .point .colidx (some c), .point .values v])
    ⟨hi.fresh, (fun h => by cases h), fun h' o' ho' => ⟨(hi.ok h' o' ho').good,
      (fun h => by cases h), (fun h => by cases h)⟩⟩ rfl (fun h => by cases h)
  cases strict with
  | false => exact h1
  | true =>
    rcases h1 with h1 | ⟨s', he, hi', hcal⟩
    · exact Or.inl h1
    · refine Or.inr ⟨s', he, ?_, hcal⟩
      have hno : s.objs h = none := by
        cases hq : s.objs h with
        | none => rfl
        | some o => rw [create, hq] at he; cases he
      have hs' : s' = ⟨s.status, s.next, upd s.objs h (some
          ((((⟨⟨.csr, false, false⟩, fun _ => none⟩ : Obj).set .rowptr (some r)).set .colidx
            (some c)).set .values v))⟩ := by
        simp only [create, hno, Option.isSome_none, Bool.false_eq_true, if_false, execAll, exec,
          onObj, upd_same, Res.andThen, St.setPtr] at he
        injection he with he
        rw [← he]
        congr 1
        funext j
        simp only [upd]
        split_ifs <;> rfl
      have hob : ∀ h', h' ≠ h → s'.objs h' = s.objs h' := by
        intro h' hne
        rw [hs']
        exact upd_other _ _ hne
      have hst : s'.status = s.status := by rw [hs']
      have hfr : Frame s s' h := by
        rw [hs']
        exact frame_same hi.fresh (fun h' hne => upd_other _ _ hne)
      refine ⟨hi'.fresh, ?_, ?_⟩
      · intro hs h' σ b hb
        rw [hst] at hb
        obtain ⟨o', ho', hp'⟩ := hi.tight hs h' σ b hb
        refine ⟨o', ?_, hp'⟩
        rw [hob h' ?_]
        · exact ho'
        · rintro rfl
          rw [hno] at ho'
          cases ho'
      · intro h' o' ho'
        by_cases hne : h' = h
        · subst hne
          refine ⟨(hi'.ok _ _ ho').good, ?_, ?_⟩
          · intro hs σ _ b hb
            rw [hst] at hb
            exact (hi.tight hs).empty_of_none hno σ b hb
          · intro hs hc o2 b ho2 hb
            rw [hs'] at ho2
            simp only [upd_same] at ho2
            injection ho2 with ho2
            subst ho2
            have hb : some r = some b := hb
            injection hb with hb
            subst hb
            rw [hst, ht rfl]
            exact ⟨by simp, by simp⟩
        · rw [hob h' hne] at ho'
          exact hfr.objOk hne (hi.ok h' o' ho')

theorem stepOk_split {strict : Bool} {s : St} (hi : Inv strict s) {a l u : Nat}
    (ht : strict = true → Tidy s (.splitLU a l u)) {b0 : Option Nat} :
    StepOk strict s b0 (step s (.splitLU a l u)) := by
  refine stepOk_onCls fun oa hoa _ => ?_
  -- first release the old contents of both
  unfold dealloc
  have two : ∀ {s0 : St} {k : Obj → Res} {f : St → Res} {h : Nat},
      (∀ o, s0.objs h = some o → o.attr.cls = .csr → StepOk strict s b0 ((k o).andThen f)) →
      StepOk strict s b0 ((onCls s0 h .csr k).andThen f) := by
    intro s0 k f h hk
    unfold onCls onObj
    cases ho : s0.objs h with
    | none => exact Or.inl rfl
    | some o =>
      simp only
      split_ifs with hc
      · exact hk o ho hc
      · exact Or.inl rfl
  refine two fun ol hol hcl => ?_
  obtain ⟨s1, he1, hi1, hf1, hh1, hE1⟩ := dealloc_ok hi hol hcl
  rw [he1]
  show StepOk strict s b0 ((onCls s1 u .csr fun o => execAll s1 u (deallocActs s1 o)).andThen _)
  refine two fun ou hou hcu => ?_
  obtain ⟨s2, he2, hi2, hf2, hh2, hE2⟩ := dealloc_ok hi1 hou hcu
  rw [he2]
  show StepOk strict s b0 ((execAll s2 l splitL).andThen _)
  -- `l` after both
  have hl2 : ∃ p, s2.objs l = some ⟨ol.attr, p⟩ := by
    obtain ⟨p1, hp1⟩ := hh1.obj
    by_cases hlu : l = u
    · subst hlu
      rw [hp1] at hou
      injection hou with hou
      subst hou
      exact hh2.obj
    · exact ⟨p1, by rw [hf2.objs l hlu]; exact hp1⟩
  obtain ⟨p2, hp2⟩ := hl2
  have hlocal : ∀ {s0 : St} {h : Nat} {o : Obj} {as : List Act}, Inv strict s0 →
      s0.objs h = some o → chkG (managed o.attr) o.attr as = true →
      (strict = true → (∀ σ, Empty s0 h σ) ∧ chkE (managed o.attr) (fun _ => true) o.attr as = true) →
      ∃ s', execAll s0 h as = .ok s' ∧ Inv strict s' ∧ Frame s0 s' h := by
    intro s0 h o as hi0 ho hG hE
    have hk := hi0.ok h o ho
    obtain ⟨s', h1, h2, h3, _⟩ := local_ok (e := fun _ => true) hi0.fresh hi0.tight
      (fun h' o' _ ho' => hi0.ok h' o' ho') ho (fun σ hσ => hk.good σ hσ) hG
      (fun hs => ⟨fun σ _ => (hE hs).1 σ, (hE hs).2⟩)
      (fun hs hc b hb => hk.plain hs hc o b ho hb)
    exact ⟨s', h1, h2, h3⟩
  have hEl : strict = true → ∀ σ, Empty s2 l σ := by
    intro hs σ
    have := ht hs
    exact hf2.empty l σ this.1 (hE1 hs (this.2.1 ol hol) σ)
  have hol1 : strict = true → ol.attr.own = true := fun hs => (ht hs).2.1 ol hol
  have hou1 : strict = true → ou.attr.own = true := by
    intro hs
    have := ht hs
    rw [hf1.objs u (Ne.symm this.1)] at hou
    exact this.2.2 ou hou
  obtain ⟨s3, he3, hi3, hf3⟩ := hlocal (as := splitL) hi2 hp2
    (by
      obtain ⟨⟨cls, own, pool⟩, ptr⟩ := ol
      simp only at hcl
      subst hcl
      cases own <;> cases pool <;> rfl)
    (fun hs => ⟨hEl hs, by
      have := hol1 hs
      obtain ⟨⟨cls, own, pool⟩, ptr⟩ := ol
      simp only at hcl this
      subst hcl this
      cases pool <;> rfl⟩)
  rw [he3]
  show StepOk strict s b0 (execAll s3 u (splitU oa))
  have hu3 : ∃ o, s3.objs u = some o ∧ o.attr = ou.attr := by
    obtain ⟨q2, hq2⟩ := hh2.obj
    by_cases hlu : l = u
    · subst hlu
      obtain ⟨s3', he3', _, hh3, _⟩ := execAll_step (as := splitL) (a := ou.attr)
        (g := managed ou.attr) hi2.fresh hh2 (by
          obtain ⟨⟨cls, own, pool⟩, ptr⟩ := ou
          simp only at hcu
          subst hcu
          cases own <;> cases pool <;> rfl)
      rw [he3] at he3'
      injection he3' with he3'
      subst he3'
      obtain ⟨p3, hp3⟩ := hh3.obj
      exact ⟨_, hp3, rfl⟩
    · exact ⟨⟨ou.attr, q2⟩, by rw [hf3.objs u (Ne.symm hlu)]; exact hq2, rfl⟩
  obtain ⟨ou3, hou3, hau3⟩ := hu3
  obtain ⟨s4, he4, hi4, hf4⟩ := hlocal (as := splitU oa) hi3 hou3
    (by
      rw [hau3]
      simp only [splitU, copyIf]
      generalize (oa.ptr .extptr).isSome = x
      obtain ⟨⟨cls, own, pool⟩, ptr⟩ := ou
      simp only at hcu
      subst hcu
      cases x <;> cases own <;> cases pool <;> rfl)
    (fun hs => ⟨fun σ => hf3.empty u σ (Ne.symm (ht hs).1) (hE2 hs (hou1 hs) σ), by
      rw [hau3]
      simp only [splitU, copyIf]
      generalize (oa.ptr .extptr).isSome = x
      have := hou1 hs
      obtain ⟨⟨cls, own, pool⟩, ptr⟩ := ou
      simp only at hcu this
      subst hcu this
      cases x <;> cases pool <;> rfl⟩)
  exact Or.inr ⟨s4, he4, hi4, fun b hb _ =>
    hf4.caller b (hf3.caller b (hf2.caller b (hf1.caller b hb)))⟩

theorem stepOk_destroy {strict : Bool} {s : St} (hi : Inv strict s) {h : Nat} {b0 : Option Nat} :
    StepOk strict s b0 (step s (.destroy h)) := by
  show StepOk strict s b0 (onObj s h fun o => _)
  unfold onObj
  cases ho : s.objs h with
  | none => exact Or.inl rfl
  | some o =>
    simp only
    have key : ∃ s', execAll s h (dtorActs s o) = .ok s' ∧ Inv strict s' ∧ Frame s s' h ∧
        (strict = true → ∀ σ, Empty s' h σ) := by
      obtain ⟨⟨cls, own, pool⟩, ptr⟩ := o
      cases cls with
      | csr =>
        obtain ⟨s', he, hi', hf, hh, hem⟩ := dealloc_ok hi ho rfl
        refine ⟨s', he, hi', hf, fun hs σ => ?_⟩
        cases own with
        | true => exact hem hs rfl σ
        | false =>
          obtain ⟨p', ho'⟩ := hh.obj
          have hk := hi'.ok h _ ho'
          by_cases hm : managed ⟨.csr, false, pool⟩ σ = true
          · obtain ⟨s'', he2, _, _, _, hE⟩ := stepOk_dealloc hi ho rfl (bs := []) (managed _)
              (fun σ h => Or.inl h) (by intro p; cases p <;> cases pool <;> rfl)
              (by intro _; cases pool <;> rfl)
            rw [List.append_nil] at he2 hE
            rw [he] at he2
            injection he2 with he2
            subst he2
            refine hE hs σ ?_
            subst hs
            rw [deallocActs_eq, hi.not_pooled ho rfl]
            revert hm
            cases pool <;> cases σ <;> intro hm <;> rfl
          · exact hk.empty hs σ (by simpa using hm)
      | coo =>
        obtain ⟨s', he, hi', hf, hh, hem⟩ := hi.local_ok ho
          (as := [.free .cooRow, .free .cooCol, .free .cooVal]) (managed _)
          (fun σ => !managed ⟨.coo, own, pool⟩ σ) (fun σ h => Or.inl h)
          (by cases own <;> cases pool <;> rfl) (fun _ σ hσ => Or.inl (unmanaged_ok σ hσ))
          (by intro _; cases own <;> cases pool <;> rfl)
        refine ⟨s', he, hi', hf, fun hs σ => hem hs σ ?_⟩
        cases own <;> cases pool <;> cases σ <;> rfl
      | sched =>
        obtain ⟨s', he, hi', hf, hh, hem⟩ := hi.local_ok ho
          (as := schedDtor pool) (managed _)
          (fun σ => !managed ⟨.sched, own, pool⟩ σ) (fun σ h => Or.inl h)
          (by cases own <;> cases pool <;> rfl) (fun _ σ hσ => Or.inl (unmanaged_ok σ hσ))
          (by intro _; cases own <;> cases pool <;> rfl)
        refine ⟨s', he, hi', hf, fun hs σ => hem hs σ ?_⟩
        cases own <;> cases pool <;> cases σ <;> rfl
    obtain ⟨s', he, hi', hf, hem⟩ := key
    rw [he]
    exact Or.inr ⟨_, rfl, hi'.remove hem, fun b hb _ => hf.caller b hb⟩

/-- **Every allowed call preserves the invariant.** -/
theorem step_ok {strict : Bool} {s : St} (hi : Inv strict s) {c : Call} (hp : Proper s c)
    (ht : strict = true → Tidy s c) : StepOk strict s (releasedBy c) (step s c) := by
  cases c with
  | csr h => exact stepOk_create_nil hi
  | csrSized h => exact stepOk_create hi rfl (fun _ => rfl)
  | csrCopy h g =>
    refine stepOk_onCls fun o ho hc => ?_
    simp only [copyIf]
    generalize (o.ptr .values).isSome = x1
    generalize (o.ptr .diagptr).isSome = x2
    generalize (o.ptr .idiag).isSome = x3
    generalize (o.ptr .diag).isSome = x4
    refine stepOk_create hi ?_ (fun _ => ?_) <;>
      cases x1 <;> cases x2 <;> cases x3 <;> cases x4 <;> rfl
  | csrFile h src =>
    refine stepOk_create hi ?_ (fun _ => ?_) <;>
    · cases src with
      | laplacian => rfl
      | bin x => cases x <;> rfl
      | mtx x => cases x <;> rfl
  | csrBorrow h r c v => exact stepOk_borrow hi ht
  | alloc h sep =>
    refine stepOk_onCls fun o ho hc => stepOk_local (hi.local_ok ho (managedExt o.attr)
      (unmanagedOr o.attr csrSlots) (managedExt_ok ho hc hp) ?_
      (fun hs => unmanagedOr_ok (ht hs o ho)) ?_)
    · obtain ⟨⟨cls, own, pool⟩, ptr⟩ := o
      simp only at hc
      subst hc
      cases sep <;> cases own <;> cases pool <;> rfl
    · intro _
      obtain ⟨⟨cls, own, pool⟩, ptr⟩ := o
      simp only at hc
      subst hc
      cases sep <;> cases own <;> cases pool <;> rfl
  | dealloc h => exact stepOk_deallocCall hi
  | loadBin h opened =>
    show StepOk strict s none ((dealloc s h).andThen _)
    have heq : ((dealloc s h).andThen fun s => execAll s h (if opened then allocActs true else [])) =
        onCls s h .csr fun o =>
          execAll s h (deallocActs s o ++ (if opened then allocActs true else [])) := by
      unfold dealloc onCls onObj
      cases ho : s.objs h with
      | none => rfl
      | some o =>
        simp only
        by_cases hc : o.attr.cls = .csr
        · rw [if_pos hc, if_pos hc, execAll_append]
        · rw [if_neg hc, if_neg hc]
          rfl
    rw [heq]
    refine stepOk_onCls fun o ho hc => stepOk_local (stepOk_dealloc hi ho hc (managedExt o.attr)
      (managedExt_ok ho hc hp) ?_ ?_)
    · intro p
      obtain ⟨⟨cls, own, pool⟩, ptr⟩ := o
      simp only at hc
      subst hc
      cases p <;> cases opened <;> cases own <;> cases pool <;> rfl
    · intro _
      obtain ⟨⟨cls, own, pool⟩, ptr⟩ := o
      simp only at hc
      subst hc
      cases opened <;> cases own <;> cases pool <;> rfl
  | laplacian h =>
    show StepOk strict s none ((dealloc s h).andThen _)
    have heq : ((dealloc s h).andThen fun s => execAll s h laplaceActs) =
        onCls s h .csr fun o => execAll s h (deallocActs s o ++ laplaceActs) := by
      unfold dealloc onCls onObj
      cases ho : s.objs h with
      | none => rfl
      | some o =>
        simp only
        by_cases hc : o.attr.cls = .csr
        · rw [if_pos hc, if_pos hc, execAll_append]
        · rw [if_neg hc, if_neg hc]
          rfl
    rw [heq]
    refine stepOk_onCls fun o ho hc => stepOk_local (stepOk_dealloc hi ho hc (managed o.attr)
      (fun σ h => Or.inl h) ?_ ?_)
    · intro p
      obtain ⟨⟨cls, own, pool⟩, ptr⟩ := o
      simp only at hc
      subst hc
      cases p <;> cases own <;> cases pool <;> rfl
    · intro hs
      have := ht hs o ho
      obtain ⟨⟨cls, own, pool⟩, ptr⟩ := o
      simp only at hc this
      subst hc this
      cases pool <;> rfl
  | diagPtr h =>
    refine stepOk_onCls fun o ho hc => ?_
    show StepOk strict s none (execAll s h (diagPtrActs o))
    unfold diagPtrActs
    cases hd : o.ptr .diagptr with
    | some b => exact Or.inr ⟨s, rfl, hi, fun b hb _ => hb⟩
    | none =>
      refine stepOk_local (hi.local_ok ho (managed o.attr) (unmanagedOr o.attr [.diagptr])
        (fun σ h => Or.inl h) ?_ (fun hs => unmanagedOr_ok (by simpa using hd)) ?_)
      · obtain ⟨⟨cls, own, pool⟩, ptr⟩ := o
        simp only at hc
        subst hc
        cases own <;> cases pool <;> rfl
      · intro _
        obtain ⟨⟨cls, own, pool⟩, ptr⟩ := o
        simp only at hc
        subst hc
        cases own <;> cases pool <;> rfl
  | inverseDiag h =>
    refine stepOk_onCls fun o ho hc => ?_
    show StepOk strict s none (execAll s h (inverseDiagActs o))
    unfold inverseDiagActs diagPtrActs
    cases hi2 : o.ptr .idiag with
    | some b => exact Or.inr ⟨s, rfl, hi, fun b hb _ => hb⟩
    | none =>
      cases hd : o.ptr .diagptr with
      | none =>
        refine stepOk_local (hi.local_ok ho (managed o.attr)
          (unmanagedOr o.attr [.diagptr, .idiag]) (fun σ h => Or.inl h) ?_
          (fun hs => unmanagedOr_ok (by simp [hd, hi2])) ?_)
        · obtain ⟨⟨cls, own, pool⟩, ptr⟩ := o
          simp only at hc
          subst hc
          cases own <;> cases pool <;> rfl
        · intro _
          obtain ⟨⟨cls, own, pool⟩, ptr⟩ := o
          simp only at hc
          subst hc
          cases own <;> cases pool <;> rfl
      | some b =>
        refine stepOk_local (hi.local_ok ho (managed o.attr)
          (unmanagedOr o.attr [.idiag]) (fun σ h => Or.inl h) ?_
          (fun hs => unmanagedOr_ok (by simp [hi2])) ?_)
        · obtain ⟨⟨cls, own, pool⟩, ptr⟩ := o
          simp only at hc
          subst hc
          cases own <;> cases pool <;> rfl
        · intro _
          obtain ⟨⟨cls, own, pool⟩, ptr⟩ := o
          simp only at hc
          subst hc
          cases own <;> cases pool <;> rfl
  | transpose h g noCols =>
    refine stepOk_onCls fun o ho hc => ?_
    simp only [transposeActs, copyIf]
    generalize (o.ptr .values).isSome = x1
    generalize (o.ptr .diagptr).isSome = x2
    refine stepOk_create hi ?_ (fun hs => absurd (ht hs) id)
    cases x1 <;> cases x2 <;> cases noCols <;> rfl
  | permute h g =>
    refine stepOk_onCls fun o ho hc => ?_
    simp only [permuteActs, copyIf]
    generalize (o.ptr .values).isSome = x1
    generalize (o.ptr .diagptr).isSome = x2
    generalize (o.ptr .idiag).isSome = x3
    generalize (o.ptr .extptr).isSome = x4
    refine stepOk_create hi ?_ (fun hs => absurd (ht hs) id)
    cases x1 <;> cases x2 <;> cases x3 <;> cases x4 <;> rfl
  | splitLU a l u => exact stepOk_split hi ht
  | setExt h b =>
    refine stepOk_onCls fun o ho hc => stepOk_local (hi.local_ok ho (managed o.attr)
      (fun σ => !managed o.attr σ) (fun σ h => Or.inl h) ?_
      (fun _ σ hσ => Or.inl (unmanaged_ok σ hσ)) ?_)
    · have := hp o ho
      obtain ⟨⟨cls, own, pool⟩, ptr⟩ := o
      simp only at hc this
      subst hc this
      cases pool <;> rfl
    · intro _
      have := hp o ho
      obtain ⟨⟨cls, own, pool⟩, ptr⟩ := o
      simp only at hc this
      subst hc this
      cases pool <;> rfl
  | setDiagptr h b => exact absurd hp id
  | assign h g => exact absurd hp id
  | coo h => exact stepOk_create_nil hi
  | loadCoo h sym outcome =>
    refine stepOk_onCls fun o ho hc => stepOk_local (hi.local_ok ho (managed o.attr)
      (fun σ => !managed o.attr σ) (fun σ h => Or.inl h) ?_
      (fun _ σ hσ => Or.inl (unmanaged_ok σ hσ)) ?_)
    · obtain ⟨⟨cls, own, pool⟩, ptr⟩ := o
      simp only at hc
      subst hc
      cases outcome <;> cases sym <;> cases own <;> cases pool <;> rfl
    · intro hs
      have hne : outcome ≠ .badBody := ht hs
      obtain ⟨⟨cls, own, pool⟩, ptr⟩ := o
      simp only at hc
      subst hc
      cases outcome with
      | badBody => exact absurd rfl hne
      | _ => cases sym <;> cases own <;> cases pool <;> rfl
  | cooCopy h g => exact absurd hp id
  | sched h pool => exact stepOk_create_nil hi
  | build h reduction fuse => exact stepOk_build hi hp ht
  | schedCopy h g => exact absurd hp id
  | destroy h => exact stepOk_destroy hi
  | explicitDtor h => exact stepOk_deallocCall hi
  | callerAlloc =>
    exact Or.inr ⟨_, rfl, hi.fresh_block (Or.inl rfl),
      fun b hb _ => upd_next_keep hi.fresh (by simp) hb⟩
  | callerFree b =>
    simp only [step]
    split_ifs with hb
    · refine Or.inr ⟨_, rfl, hi.status ?_ ?_ ?_ ?_, ?_⟩
      · intro c hc
        have hc : s.next ≤ c := hc
        show upd s.status b .freed c = .unused
        rw [upd_other]
        · exact hi.fresh c hc
        · rintro rfl
          rw [hi.fresh c hc] at hb
          cases hb
      · intro c h σ
        simp only [upd]
        split_ifs with h1
        · subst h1; rw [hb]; simp
        · exact Iff.rfl
      · intro c hc
        simp only [upd]
        split_ifs with h1
        · simp
        · exact hc
      · intro c hc hp
        simp only [upd]
        split_ifs with h1
        · simp
        · exact hp
      · intro c hc hne
        simp only [upd]
        rw [if_neg]
        · exact hc
        · rintro rfl
          exact hne rfl
    · exact Or.inl rfl
  | poolAlloc =>
    exact Or.inr ⟨_, rfl, hi.fresh_block (Or.inr rfl),
      fun b hb _ => upd_next_keep hi.fresh (by simp) hb⟩
  | poolReset =>
    have key : ∀ b, s.status b ≠ .pool → drainPool s.status b = s.status b := by
      intro b hb
      simp only [drainPool]
      rw [if_neg hb]
    refine Or.inr ⟨_, rfl, hi.status ?_ ?_ ?_ ?_, ?_⟩
    · intro b hb
      have := hi.fresh b hb
      show drainPool s.status b = .unused
      rw [key b (by rw [this]; simp)]
      exact this
    · intro b h σ
      simp only [drainPool]
      split_ifs with h1
      · rw [h1]; simp
      · exact Iff.rfl
    · intro b hb
      simp only [drainPool]
      split_ifs with h1
      · simp
      · exact hb
    · intro b _ hb
      rw [key b hb]
      exact hb
    · intro b hb _
      show drainPool s.status b = .caller
      rw [key b (by rw [hb]; simp)]
      exact hb

theorem inv_init (strict : Bool) : Inv strict St.init :=
  ⟨fun _ _ => rfl, (fun _ _ _ _ h => by cases h), (fun _ _ h => by cases h)⟩

/-- Tidy calls are proper. -/
theorem proper_of_tidy {s : St} {c : Call} (ht : Tidy s c) : Proper s c := by
  cases c with
  | alloc h sep =>
    intro o ho
    right
    intro b hb
    rw [ht o ho .extptr (by decide)] at hb
    cases hb
  | loadBin h opened =>
    intro o ho
    rcases ht o ho with h1 | h1
    · exact Or.inl h1
    · right
      intro b hb
      rw [h1] at hb
      cases hb
  | build h reduction fuse =>
    intro o ho _
    exact ⟨ht.1, (ht.2 o ho).1 .o2t (by decide), (ht.2 o ho).1 .t2o (by decide)⟩
  | setExt h b => exact ht
  | setDiagptr h b => exact ht
  | assign h g => exact ht
  | cooCopy h g => exact ht
  | schedCopy h g => exact ht
  | _ => exact trivial

/-- **Histories.** -/
theorem run_ok {strict : Bool} {P : St → Call → Prop} (hP : ∀ s c, P s c → Proper s c)
    (hT : strict = true → ∀ s c, P s c → Tidy s c) {cs : List Call} : ∀ {s : St},
    Inv strict s → Follows P s cs →
    run s cs ≠ .wrong ∧ ∀ s', run s cs = .ok s' → Inv strict s' ∧
      ∀ b, s.status b = .caller → (∀ c ∈ cs, releasedBy c ≠ some b) → s'.status b = .caller := by
  induction cs with
  | nil =>
    intro s hi _
    refine ⟨by simp [run], fun s' he => ?_⟩
    injection he with he
    subst he
    exact ⟨hi, fun b hb _ => hb⟩
  | cons c cs ih =>
    intro s hi hf
    rcases step_ok hi (hP s c hf.1) (fun hs => hT hs s c hf.1) with h1 | ⟨s1, h1, hi1, hc1⟩
    · simp only [run, h1, Res.andThen]
      exact ⟨by simp, by simp⟩
    · simp only [run, h1, Res.andThen]
      obtain ⟨h2, h3⟩ := ih hi1 (hf.2 s1 h1)
      refine ⟨h2, fun s' he => ?_⟩
      obtain ⟨h4, h5⟩ := h3 s' he
      refine ⟨h4, fun b hb hne => h5 b (hc1 b hb (hne c (by simp))) (fun c' hc' => hne c' ?_)⟩
      exact List.mem_cons_of_mem _ hc'

end SpMP.Own
