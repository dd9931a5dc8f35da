import Verif.PipeNode
/-
The pipelined placing of a large component: the loop of a thread, progress, and the whole team.
-/

namespace SpMP
open Spec

variable {R : Type}

namespace PipeEnv

variable {E : PipeEnv R}

/-- A thread's own cells when it has expanded the positions below `f l` of its level `l`. -/
def OwnSt (E : PipeEnv R) (t : Nat) (f : Nat → Nat) (m : Mem (CTy R)) : Prop :=
  ∀ l, l < E.nl → l % E.T = t → m rcmWo (16 * ((l : Int) + 1)) = some ((E.off + (E.outs (f l)).length : Nat) : Int) ∧ E.LevSt l (E.outs (f l)) [] m

/-- Progress of a thread that is at position `q` of level `l`. -/
def prog (E : PipeEnv R) (l q l' : Nat) : Nat := if l' < l then E.pf (l' + 1) else if l' = l then q else E.pf l'

section
variable (h : E.Start) {t l : Nat} (ht : t < E.T) (hl : l % E.T = t)
include h ht hl

/-- Expanding the node at position `q`. -/
theorem LB_node (hnl : l < E.nl) {q : Nat} (hq1 : E.pf l ≤ q) (hq2 : q < E.pf (l + 1)) {m1 : Mem (CTy R)} (hc : ∀ a i, E.env.Const a i → m1 a i = E.m0 a i)
    (ho : E.OwnSt t (E.prog l q) m1) :
    E.env.LB t (pipeNode E.k E.A.m E.srt ((t : Int) * E.md) l ((E.off + q : Nat) : Int)) m1 (l, q + 1)
      (fun _ m x => x = (l, q + 1) ∧ E.OwnSt t (E.prog l (q + 1)) m) := by
  have hqN : q < E.N.length := Nat.lt_of_lt_of_le hq2 cmPf_le
  obtain ⟨u, hu⟩ : ∃ u, E.L[q]? = some u := ⟨_, List.getElem?_eq_getElem (by rw [h.len]; exact hqN)⟩
  have hur := h.reach hu
  have hD : E.D u = l := (h.cm.level_iff hu).2 ⟨hq1, hq2⟩
  have hum := h.cm.lt hur
  obtain ⟨hcl, hql⟩ := h.cm.outs q (by omega)
  have hou : (E.outs q)[q]? = some u := by
    have := h.cm.outs_get (r := q) (j := q) (by omega) (hql hqN)
    exact this.trans hu
  have hsucc : E.outs (q + 1) = E.outs q ++ cmKids E.A E.D E.srt (E.outs q) u := by
    show cmOuts E.A E.s E.D E.srt (q + 1) = _
    rw [cmOuts]
    have e : (cmOuts E.A E.s E.D E.srt q)[q]? = some u := hou
    rw [e]; rfl
  have hpq : E.prog l q l = q := by unfold prog; rw [if_neg (by omega), if_pos rfl]
  have hpq' : E.prog l (q + 1) l = q + 1 := by unfold prog; rw [if_neg (by omega), if_pos rfl]
  obtain ⟨ho1, ho2⟩ := ho l hnl hl
  rw [hpq] at ho1 ho2
  unfold pipeNode
  have eix : (E.A.m : Int) - ((E.off + q : Nat) : Int) - 1 = E.ix q := rfl
  rw [eix]
  refine OwnEnv.LB_rdx eok ht ?_
  intro g m hI hk _
  have hI' : E.Inv m := hI
  obtain ⟨w, hw⟩ := hI'.pub l (by omega)
  obtain ⟨w', k1, k2⟩ := hk
  have k3 : ((E.off + w : Nat) : Int) = ((E.off + w' : Nat) : Int) := by have := hw.wo.symm.trans k1; injection this
  refine ⟨(u : Int), hw.inv q u hq1 (by have : q + 1 ≤ w' := k2; omega) hu, (l, q + 1), ⟨w', k1, k2⟩, ?_⟩
  refine OwnEnv.LB_bind eok (LB_children h ht hl hur hD hc ho2 ?_)
  intro m2 hq2' hlv2 hf2
  generalize hG : cmCol E.A E.D (E.outs q) u (degree E.A u) = G at *
  have hGl : G.length ≤ E.md := by
    rw [← hG]; exact Nat.le_trans (cmCol_length _) (h.deg u hum)
  have hGm : ∀ x ∈ G, Reaches E.A E.s x ∧ E.D x = l + 1 := by
    intro x hx
    rw [← hG, cmCol_mem] at hx
    obtain ⟨i, h1, h2, h3, _⟩ := hx
    refine ⟨?_, by omega⟩
    have hpm := h.cm.wf.ptr_mono (show u ≤ u + 1 by omega) (show u + 1 ≤ E.A.m by omega)
    unfold degree at h1
    exact Stores.reaches ⟨_, ⟨hum, by omega, by omega⟩, h2⟩ hur
  have hkids : cmKids E.A E.D E.srt (E.outs q) u = cmSorted E.A E.srt G := by unfold cmKids; rw [hG]
  have hperm := (cmSorted_spec h.cm.sorts E.A G).1
  rw [hkids] at hsucc
  have hc2 : ∀ a i, E.env.Const a i → m2 a i = E.m0 a i := by
    intro a i hci
    rw [hf2 a i ?_]
    · exact hc a i hci
    · rintro (⟨rfl, x, r1, r2, rfl⟩ | ⟨rfl, r1, r2⟩)
      · obtain ⟨j, hj⟩ := h.at_pos r1
        exact hci t ht (.lev j x l hj r2 hl)
      · have := Own.chd (E := E) (t := t) (i - (t : Int) * E.md).toNat (by omega)
        rw [show (t : Int) * E.md + ((i - (t : Int) * E.md).toNat : Int) = i by omega] at this
        exact hci t ht this
  have hpat : HoldsPat m2 E.k 0 E.A := by
    refine ⟨fun i hi => ?_, fun j hj => ?_⟩
    · rw [hc2 _ _ (const_of _ _ (by simp))]; exact h.pat.rowptr i hi
    · rw [hc2 _ _ (const_of _ _ (by simp))]; exact h.pat.colidx j hj
  have hb : 0 ≤ (t : Int) * E.md := by positivity
  have hb2 : (t : Int) * E.md + E.md ≤ E.sz rcmChd := by
    have : ((t + 1) * E.md : Nat) ≤ E.T * E.md := Nat.mul_le_mul_right _ ht
    have h3 := h.sz_chd
    rw [Nat.add_mul, Nat.one_mul] at this
    have h4 : ((t * E.md + E.md : Nat) : Int) ≤ ((E.T * E.md : Nat) : Int) := by exact_mod_cast this
    push_cast at h4
    omega
  have hoc : ∀ i : Int, (t : Int) * E.md ≤ i → i < (t : Int) * E.md + G.length → E.Own t rcmChd i := by
    intro i i1 i2
    have := Own.chd (E := E) (t := t) (i - (t : Int) * E.md).toNat (by omega)
    rwa [show (t : Int) * E.md + ((i - (t : Int) * E.md).toNat : Int) = i by omega] at this
  refine OwnEnv.LB_seq eok ht (wp_cmSort h.cm.wf hpat (fun i => Or.inr (const_of _ _ (by simp))) h.cm.sorts (fun x hx => h.cm.lt (hGm x hx).1) hq2'
    (fun i i1 i2 => ⟨⟨rfl, hoc i i1 i2⟩, Or.inl (hoc i i1 i2), by omega, by show _ < E.sz rcmChd; omega⟩) ⟨hb, by show _ ≤ E.sz rcmChd; omega⟩ ?_)
  intro m3 hq3 hf3
  have hwo3 : m3 rcmWo (16 * ((l : Int) + 1)) = some ((E.off + (E.outs q).length : Nat) : Int) := by
    rw [hf3 _ _ (by simp), hf2 _ _ (by rintro (⟨e, _⟩ | ⟨e, _⟩) <;> simp at e)]; exact ho1
  refine OwnEnv.LB_rd eok ht ((E.off + (E.outs q).length : Nat) : Int) (Or.inl (.wo l hl)) hwo3 ?_
  rw [← hperm.length_eq]
  refine LB_put h ht hl (by omega) ?_ hwo3 hq3 (by rw [hperm.length_eq]; exact hGl) ?_
  · intro i x hx
    have hxl := (List.getElem?_eq_some_iff.1 hx).1
    have e : (E.outs (q + 1))[(E.outs q).length + i]? = some x := by
      rw [hsucc, List.getElem?_append_right (by omega), Nat.add_sub_cancel_left]; exact hx
    refine ⟨?_, (hGm x (hperm.mem_iff.1 (List.mem_of_getElem? hx))).2⟩
    have := h.cm.outs_get (r := q + 1) (j := (E.outs q).length + i) (by omega) (by have := (List.getElem?_eq_some_iff.1 e).1; exact this)
    exact this.symm.trans e
  · intro m4 hwo4 hf4
    refine ⟨rfl, ?_⟩
    intro l' hl' hm'
    by_cases el : l' = l
    · subst el
      rw [hpq', hsucc]
      refine ⟨by rw [List.length_append]; exact hwo4, ?_⟩
      intro x hx hDx
      rw [hf4 _ _ (by simp) (by simp) (by simp), hf3 _ _ (by simp), hlv2 x hx hDx]
      simp [List.mem_append, hperm.mem_iff]
    · have e : E.prog l (q + 1) l' = E.prog l q l' := by unfold prog; split <;> simp [el]
      rw [e]
      obtain ⟨g1, g2⟩ := ho l' hl' hm'
      refine ⟨?_, ?_⟩
      · rw [hf4 _ _ (by simp) (by simp) (by rintro ⟨_, e⟩; omega), hf3 _ _ (by simp), hf2 _ _ (by rintro (⟨e, _⟩ | ⟨e, _⟩) <;> simp at e)]
        exact g1
      · intro x hx hDx
        rw [hf4 _ _ (by simp) (by simp) (by simp), hf3 _ _ (by simp), hf2 _ _ ?_]
        · exact g2 x hx hDx
        · rintro (⟨_, y, _, hy, ey⟩ | ⟨e, _⟩)
          · have : x = y := by omega
            subst this; omega
          · simp at e

end

/-- What thread `t` knows at a control point. -/
def P (E : PipeEnv R) (t : Nat) : PipeCtl → Mem (CTy R) → Prop
  | .lvl t' l, m => t' = t ∧ l % E.T = t ∧ E.OwnSt t (E.prog l (E.pf l)) m
  | .pos t' l r e, m => t' = t ∧ l % E.T = t ∧ l < E.nl ∧ ∃ q : Nat, r = ((E.off + q : Nat) : Int) ∧ e = ((E.off + E.pf (l + 1) : Nat) : Int) ∧
      E.pf l ≤ q ∧ q ≤ E.pf (l + 1) ∧ E.OwnSt t (E.prog l q) m ∧ E.Know l q m

theorem ownSt_agree (h : E.Start) {t : Nat} {f : Nat → Nat} {m m1 : Mem (CTy R)} (ha : ∀ a i, E.Own t a i → m a i = m1 a i) (ho : E.OwnSt t f m1) : E.OwnSt t f m := by
  intro l hl hm
  obtain ⟨g1, g2⟩ := ho l hl hm
  refine ⟨by rw [ha _ _ (.wo l hm)]; exact g1, fun x hx hDx => ?_⟩
  obtain ⟨j, hj⟩ := h.at_pos hx
  rw [ha _ _ (.lev j x l hj hDx hm)]
  exact g2 x hx hDx

/-- Level of a control point. -/
def lvlOf : PipeCtl → Nat
  | .lvl _ l => l
  | .pos _ l _ _ => l

theorem P.done (h : E.Start) {t : Nat} {c : PipeCtl} {m : Mem (CTy R)} (hP : E.P t c m) {l : Nat} (hl : l < E.nl) (hm : l % E.T = t) (hlt : l < lvlOf c) :
    m rcmWo (16 * ((l : Int) + 1)) = some ((E.off + E.pf (l + 2) : Nat) : Int) := by
  have key : ∀ l' q, E.OwnSt t (E.prog l' q) m → l < l' → m rcmWo (16 * ((l : Int) + 1)) = some ((E.off + E.pf (l + 2) : Nat) : Int) := by
    intro l' q ho hlt
    have := (ho l hl hm).1
    unfold prog at this
    rw [if_pos hlt] at this
    rw [this]
    have e := h.cm.outs_start (l + 1)
    show some ((E.off + (cmOuts E.A E.s E.D E.srt (cmPf E.D E.N (l + 1))).length : Nat) : Int) = _
    rw [e]; rfl
  cases c with
  | lvl t' l' => exact key l' _ hP.2.2 hlt
  | pos t' l' r e => obtain ⟨_, _, _, q, _, _, _, _, ho, _⟩ := hP; exact key l' q ho hlt

/-- The loop over levels places the component, for every team and interleaving: no undefined behaviour, no deadlock, and every run ends with
`L` placed from `off` on. -/
theorem Start.team_ok (h : E.Start) :
    TeamOk ((pipe (R := R) E.k E.A.m E.T E.nl E.md E.srt (E.off : Int)).machine E.sz) E.T (fun _ m => RcmOut E.A E.off E.L m ∧ E.Inv m)
      (fun t => .at (.lvl t t)) E.m0 := by
  refine spin_rule (Γ := Unit) (fun _ m => E.Inv m) E.env.Rely E.env.Guar (fun t c _ m => E.P t c m)
    (pipe_wf E.nl) (pipe_desc h.team) (fun t g m => eok.rely_refl g m) (fun _ _ _ _ _ _ _ => eok.rely_trans)
    (fun t u _ _ _ _ _ hu hne _ _ hG => hG u hu (Ne.symm hne)) ?_ ?_ ?_ ?_ ?_ (g0 := ()) h.start_inv ?_
  · -- stability
    intro t c g m g' m' ht hI hI' hP hr
    cases c with
    | lvl t' l => exact ⟨hP.1, hP.2.1, ownSt_agree h (fun a i ho => hr.1 a i ho) hP.2.2⟩
    | pos t' l r e =>
      obtain ⟨a1, a2, a3, q, a4, a5, a6, a7, a8, a9⟩ := hP
      exact ⟨a1, a2, a3, q, a4, a5, a6, a7, ownSt_agree h (fun a i ho => hr.1 a i ho) a8, hr.2 l q a9⟩
  · -- the cell spun on has been written
    intro t c g m x ht hI hP hs hg
    cases c with
    | lvl t' l => cases hg
    | pos t' l r e =>
      change (if r = e then none else some _) = some x at hg
      split at hg
      · cases hg
      · cases hg
        obtain ⟨_, _, hnl, q, _, _, _, _, _, w, hw, _⟩ := hP
        exact ⟨_, hw⟩
  · -- the code
    intro t c g m ht hI hP hs hopen
    have hc : ∀ a i, E.env.Const a i → m a i = E.m0 a i := fun a i => hI.const a i
    cases c with
    | lvl t' l =>
      obtain ⟨rfl, hl, ho⟩ := hP
      have hnl : l < E.nl := by simpa [pipe] using hs
      have e1 : m rcmPfx (l : Int) = some (E.pf l : Int) := by rw [hc _ _ (const_of _ _ (by simp))]; exact h.pfx l (by omega)
      have e2 : m rcmPfx ((l : Int) + 1) = some (E.pf (l + 1) : Int) := by
        rw [hc _ _ (const_of _ _ (by simp))]; have := h.pfx (l + 1) (by omega); push_cast at this; exact this
      have LB : E.env.LB t' ((pipe (R := R) E.k E.A.m E.T E.nl E.md E.srt (E.off : Int)).code (.lvl t' l)) m (0, 0)
          (fun c m' x => x = (0, 0) ∧ m' = m ∧ c = .pos t' l ((E.pf l : Int) + E.off) ((E.pf (l + 1) : Int) + E.off)) :=
        OwnEnv.LB_rd eok ht _ (Or.inr (const_of _ _ (by simp))) e1
          (OwnEnv.LB_rd eok ht _ (Or.inr (const_of _ _ (by simp))) e2 (OwnEnv.LB_pure eok ht ⟨rfl, rfl, rfl⟩))
      obtain ⟨w0, hw0⟩ := hI.pub 0 (by omega)
      refine wpRG_mono (LB g m hI (hw0.know (Nat.zero_le _)) (fun _ _ _ => rfl)) ?_
      rintro c g' m' hI' ⟨m1', x', ha, _, rfl, rfl, rfl⟩
      have hI2 : E.Inv m' := hI'
      obtain ⟨w, hw⟩ := hI2.pub l (by omega)
      exact ⟨rfl, hl, hnl, E.pf l, by push_cast; ring, by push_cast; ring, Nat.le_refl _, cmPf_mono (by omega),
        ownSt_agree h (fun a i ho => ha a i (Or.inl ho)) ho, hw.know hw.lo⟩
    | pos t' l r e =>
      obtain ⟨rfl, hl, hnl, q, rfl, rfl, hq1, hq2, ho, hk⟩ := hP
      by_cases hre : ((E.off + q : Nat) : Int) = ((E.off + E.pf (l + 1) : Nat) : Int)
      · have hqe : q = E.pf (l + 1) := by omega
        have LB : E.env.LB t' ((pipe (R := R) E.k E.A.m E.T E.nl E.md E.srt (E.off : Int)).code (.pos t' l ((E.off + q : Nat) : Int) ((E.off + E.pf (l + 1) : Nat) : Int))) m (l, q)
            (fun c m' x => m' = m ∧ c = .lvl t' (l + E.T)) := by
          show E.env.LB t' (if _ then _ else _) m (l, q) _
          rw [if_pos hre]
          exact OwnEnv.LB_pure eok ht ⟨rfl, rfl⟩
        refine wpRG_mono (LB g m hI hk (fun _ _ _ => rfl)) ?_
        rintro c g' m' hI' ⟨m1', x', ha, _, rfl, rfl⟩
        refine ⟨rfl, by rw [Nat.add_mod_right]; exact hl, ?_⟩
        have ho' := ownSt_agree h (fun a i ho => ha a i (Or.inl ho)) ho
        intro l' hl' hm'
        have := ho' l' hl' hm'
        have ep : E.prog (l + E.T) (E.pf (l + E.T)) l' = E.prog l q l' := by
          unfold prog
          by_cases c1 : l' < l
          · rw [if_pos (by omega), if_pos c1]
          · by_cases c2 : l' = l
            · subst c2; rw [if_pos (by omega), if_neg (by omega), if_pos rfl, hqe]
            · have c3 : l + E.T ≤ l' := by
                by_contra c3
                have e1 := Nat.div_add_mod l E.T
                have e2 := Nat.div_add_mod l' E.T
                rw [hl] at e1
                rw [hm'] at e2
                rcases Nat.lt_trichotomy (l / E.T) (l' / E.T) with d | d | d
                · have := Nat.mul_le_mul_left E.T (show l / E.T + 1 ≤ l' / E.T by omega)
                  rw [Nat.mul_add, Nat.mul_one] at this
                  omega
                · rw [d] at e1; omega
                · have := Nat.mul_le_mul_left E.T (show l' / E.T ≤ l / E.T by omega)
                  omega
              rw [if_neg (by omega), if_neg c1, if_neg c2]
              split
              · rename_i e; rw [e]
              · rfl
        rw [ep]; exact this
      · have hqlt : q < E.pf (l + 1) := by omega
        have hk2 : E.Know l (q + 1) m := by
          obtain ⟨w, k1, k2⟩ := hk
          obtain ⟨v, v1, v2⟩ := hopen ⟨rcmWo, 16 * (l : Int), fun v => decide ((v : Int) ≠ ((E.off + q : Nat) : Int))⟩ (by
            show (if _ then _ else _) = _
            rw [if_neg hre])
          have v3 : v = ((E.off + w : Nat) : Int) := by have := v1.symm.trans k1; injection this
          subst v3
          have v4 : ((E.off + w : Nat) : Int) ≠ ((E.off + q : Nat) : Int) := of_decide_eq_true v2
          exact ⟨w, k1, by omega⟩
        have LB : E.env.LB t' ((pipe (R := R) E.k E.A.m E.T E.nl E.md E.srt (E.off : Int)).code (.pos t' l ((E.off + q : Nat) : Int) ((E.off + E.pf (l + 1) : Nat) : Int))) m (l, q + 1)
            (fun c m' x => (x = (l, q + 1) ∧ E.OwnSt t' (E.prog l (q + 1)) m') ∧ c = .pos t' l (((E.off + q : Nat) : Int) + 1) ((E.off + E.pf (l + 1) : Nat) : Int)) := by
          show E.env.LB t' (if _ then _ else _) m (l, q + 1) _
          rw [if_neg hre]
          refine OwnEnv.LB_assert eok ht (by omega) ?_
          refine OwnEnv.LB_bind eok (OwnEnv.LB_mono (LB_node h ht hl hnl hq1 hqlt hc ho) ?_)
          intro _ m' x hx
          exact OwnEnv.LB_pure eok ht ⟨hx, rfl⟩
        refine wpRG_mono (LB g m hI hk2 (fun _ _ _ => rfl)) ?_
        rintro c g' m' hI' ⟨m1', x', ha, hkk, ⟨rfl, ho'⟩, rfl⟩
        exact ⟨rfl, hl, hnl, q + 1, by push_cast; ring, rfl, by omega, by omega, ownSt_agree h (fun a i ho => ha a i (Or.inl ho)) ho', hkk⟩
  · -- progress
    intro g m cs hI hP hex
    classical
    have hex' : ∃ n, ∃ t, t < E.T ∧ (pipe (R := R) E.k E.A.m E.T E.nl E.md E.srt (E.off : Int)).stop (cs t) = false ∧ lvlOf (cs t) = n := by
      obtain ⟨t, h1, h2⟩ := hex
      exact ⟨_, t, h1, h2, rfl⟩
    obtain ⟨t, ht, hs, hn⟩ := Nat.find_spec hex'
    have hmin : ∀ u, u < E.T → (pipe (R := R) E.k E.A.m E.T E.nl E.md E.srt (E.off : Int)).stop (cs u) = false → lvlOf (cs t) ≤ lvlOf (cs u) := by
      intro u hu hus
      rw [hn]
      exact Nat.find_min' hex' ⟨u, hu, hus, rfl⟩
    refine ⟨t, ht, hs, ?_⟩
    have hPt := hP t ht
    generalize hct : cs t = c at *
    cases c with
    | lvl t' l => intro x hx; cases hx
    | pos t' l r e =>
      obtain ⟨rfl, hl, hnl, q, rfl, rfl, hq1, hq2, ho, hk⟩ := hPt
      intro x hx
      change (if _ then none else some _) = some x at hx
      split at hx
      · cases hx
      rename_i hre
      cases hx
      rcases Nat.eq_zero_or_pos l with rfl | hpos
      · refine ⟨((E.off + 1 : Nat) : Int), ?_, ?_⟩
        · show m rcmWo (16 * ((0 : Nat) : Int)) = _
          rw [show (16 * ((0 : Nat) : Int)) = 0 by omega, hI.const _ _ (fun t _ => Start.no_own_zero t)]
          exact h.wo_zero
        · have := h.pf_one
          rw [this] at hre
          exact decide_eq_true (by show ((E.off + 1 : Nat) : Int) ≠ ((E.off + q : Nat) : Int); omega)
      · obtain ⟨l0, rfl⟩ : ∃ l0, l = l0 + 1 := ⟨l - 1, by omega⟩
        have hu : l0 % E.T < E.T := Nat.mod_lt _ h.team
        have hd : l0 < lvlOf (cs (l0 % E.T)) := by
          by_cases hst : (pipe (R := R) E.k E.A.m E.T E.nl E.md E.srt (E.off : Int)).stop (cs (l0 % E.T)) = true
          · generalize cs (l0 % E.T) = c at hst
            cases c with
            | lvl _ l2 => have : E.nl ≤ l2 := by simpa [pipe] using hst
                          show l0 < l2; omega
            | pos => cases hst
          · have := hmin _ hu (by simpa using hst)
            exact this
        have hw := P.done h (hP _ hu) (show l0 < E.nl by omega) rfl hd
        refine ⟨((E.off + E.pf (l0 + 2) : Nat) : Int), ?_, ?_⟩
        · show m rcmWo (16 * ((l0 + 1 : Nat) : Int)) = _
          rw [show (16 * ((l0 + 1 : Nat) : Int)) = 16 * ((l0 : Int) + 1) by push_cast; ring]; exact hw
        · exact decide_eq_true (by show ((E.off + E.pf (l0 + 2) : Nat) : Int) ≠ ((E.off + q : Nat) : Int); intro e; exact hre e.symm)
  · -- the end
    intro g m cs hI hP
    have hI' : E.Inv m := hI
    have key : ∀ j x : Nat, E.L[j]? = some x → m bfsInv (E.ix j) = some (x : Int) ∧ m bfsPrm (x : Int) = some (E.ix j) := by
      intro j x hj
      obtain ⟨p1, p2⟩ := (h.cm.level_iff hj (l := E.D x)).1 rfl
      have hDx := h.levels x (h.reach hj)
      obtain ⟨w, hw⟩ := hI'.pub (E.D x) (by omega)
      have hjw : j < w := by
        rcases Nat.eq_zero_or_pos (E.D x) with e0 | hpos
        · have h1 := hw.wo
          rw [e0, show (16 * ((0 : Nat) : Int)) = 0 by omega, hI'.const _ _ (fun t _ => Start.no_own_zero t), h.wo_zero] at h1
          have h2 : ((E.off + 1 : Nat) : Int) = ((E.off + w : Nat) : Int) := by injection h1
          have h3 := h.pf_one
          have p2' : j < E.pf (E.D x + 1) := p2
          rw [e0] at p2'
          rw [h3] at p2'
          omega
        · obtain ⟨l0, hl0⟩ : ∃ l0, E.D x = l0 + 1 := ⟨E.D x - 1, by omega⟩
          have hu : l0 % E.T < E.T := Nat.mod_lt _ h.team
          obtain ⟨hPu, hst⟩ := hP _ hu
          have hd : l0 < lvlOf (cs (l0 % E.T)) := by
            generalize cs (l0 % E.T) = c at hst
            cases c with
            | lvl _ l2 => have : E.nl ≤ l2 := by simpa [pipe] using hst
                          show l0 < l2; omega
            | pos => cases hst
          have h1 := P.done h hPu (show l0 < E.nl by omega) rfl hd
          have h2 := hw.wo
          rw [hl0, show (16 * ((l0 + 1 : Nat) : Int)) = 16 * ((l0 : Int) + 1) by push_cast; ring, h1] at h2
          have h3 : ((E.off + E.pf (l0 + 2) : Nat) : Int) = ((E.off + w : Nat) : Int) := by injection h2
          have p2' : j < E.pf (E.D x + 1) := p2
          rw [hl0] at p2'
          have : E.pf (l0 + 1 + 1) = E.pf (l0 + 2) := rfl
          omega
      exact ⟨hw.inv j x p1 hjw hj, hw.prm j x p1 hjw hj⟩
    exact ⟨⟨fun j x hj => (key j x hj).1, fun j x hj => (key j x hj).2⟩, hI'⟩
  · -- the start
    intro t ht
    refine ⟨rfl, Nat.mod_eq_of_lt ht, ?_⟩
    intro l hl hm
    have hp : E.prog t (E.pf t) l = E.pf l := by
      unfold prog
      have : t ≤ l := by rw [← hm]; exact Nat.mod_le _ _
      rw [if_neg (by omega)]
      split
      · rename_i e; rw [e]
      · rfl
    rw [hp]
    have e : (E.outs (E.pf l)).length = E.pf (l + 1) := h.cm.outs_start l
    refine ⟨by rw [e]; exact h.wo l hl, ?_⟩
    intro x hx hDx
    obtain ⟨j, hj⟩ := h.at_pos hx
    have hlv := (h.cm.level_iff hj).1 hDx
    have hle : E.pf l ≤ E.N.length := cmPf_le
    have : x ∉ E.outs (E.pf l) := by
      intro hc
      have h1 := (h.cm.outs_mem hle hj).1 hc
      have h2 : j < (E.outs (E.pf l)).length := h1
      have h3 : E.pf (l + 1) ≤ j := hlv.1
      omega
    rw [if_neg (by simpa using this), h.lev x hx, hDx]
    push_cast; rfl

end PipeEnv

end SpMP
