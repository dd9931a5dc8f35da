import Verif.RcmLargeComp
/-
getRCMPermutation: the loop over large components and the whole function.
-/

namespace SpMP
open Spec

variable {R : Type} {sz : CArr → Int} {A : Csr R} {k k' T : Nat}
variable {V : Nat → Prop} {nc : Nat} {root size start node : Nat → Nat} {thr : Nat}

/-- The arrays getRCMPermutation uses. -/
def RcmScr (a : CArr) : Prop := a = bfsQ 0 ∨ a = bfsQ 1 ∨ a = bfsLev ∨ a = bfsInv ∨ a = bfsPrm ∨ a = rcmChd ∨ a = rcmPfx ∨ a = bfsBits ∨ a = bufA ∨ a = rcmWo ∨ a = rcmCnt ∨ a = rcmLoc ∨ a = rcmCand

theorem rcmCells_scr {s off n : Nat} {qo co po : Int} {a : CArr} {i : Int} (h : RcmCells A s off n qo co po a i) : RcmScr a := by
  rcases h with (⟨rfl, _⟩ | ⟨rfl, _⟩ | ⟨rfl, _⟩ | ⟨rfl, _⟩) | ⟨rfl, _⟩ | ⟨rfl, _⟩ | ⟨rfl, _⟩ <;> simp [RcmScr]

theorem largeCell_scr {s off n : Nat} {a : CArr} {i : Int} (h : LargeCell A s off n a i) : RcmScr a := by
  rcases h with (rfl | rfl | rfl | rfl | rfl | rfl | rfl | rfl) | ⟨rfl | rfl | rfl, _⟩ | ⟨rfl, _⟩ <;> simp [RcmScr]

theorem rcmScr_not_const {a : CArr} (h : RcmScr a) : ¬ RcmConst k k' a := by
  rcases h with rfl | rfl | rfl | rfl | rfl | rfl | rfl | rfl | rfl | rfl | rfl | rfl | rfl <;>
    (rintro (e | e | e | e | e | e) <;> simp at e)

theorem selCell_scr {ρ : Nat} {a : CArr} {i : Int} (h : SelCell A ρ a i) : RcmScr a := by
  rcases h with rfl | rfl | rfl | rfl | ⟨rfl | rfl, _⟩ <;> simp [RcmScr]

/-- What the selection of sources needs. -/
structure SelOk (A : Csr R) (T : Nat) (root : Nat) : Prop where
  max : (T : Int) * A.m < intMax
  deg : ∀ x, Reaches A root x → (degree A x : Int) < intMax
  last : ∀ (s d : Nat) (l : List Nat), Reaches A root s → l.Nodup → (∀ x ∈ l, IsDist A s x d) → (∀ x e, IsDist A s x e → e ≤ d) → T * l.length ≤ A.m

/-- The source of a large component. -/
theorem rcmSource_ok {pd : Bool} {dg clr : Nat → Nat} {ρ off md : Nat} {N : List Nat} {m : Mem (CTy R)} (wf : A.WF) (hsq : A.n = A.m) (hsym : PatSym A) (hT : 1 ≤ T)
    (hbig : 2 ≤ T * A.m) (hρ : ρ < A.m) (hnd : N.Nodup) (hmem : ∀ x, x ∈ N ↔ Reaches A ρ x) (hclr : ∀ x, x < N.length → clr x < T) (hdg : ∀ x, x < N.length → dg x < T)
    (room : LargeRoom A T md sz) (hcand : (A.m : Int) ≤ sz rcmCand) (hsel : pd = true → SelOk A T ρ) (hpat : HoldsPat m k 0 A) (hq : HoldsQ m 5 (off : Int) N)
    (hbits : ∀ x, Reaches A ρ x → ∃ v : Int, m bfsBits (x : Int) = some v ∧ (pd = true → v = 0)) {Q : Int → Mem (CTy R) → Prop}
    (hQ : ∀ (s : Nat) m', Reaches A ρ s → (pd = false → s = ρ) → SelInv A ρ m m' → Q (s : Int) m') :
    (rcmSource sz T k A.m pd dg clr (ρ : Int) (off : Int) N.length).Ok m Q := by
  unfold rcmSource
  cases pd with
  | false =>
    rw [if_neg (by simp)]
    exact Script.ok_done_of (hQ ρ m (.refl _) (fun _ => rfl) ⟨fun x hx => (hbits x hx).imp fun _ h => h.1, fun _ _ _ => rfl⟩)
  | true =>
    rw [if_pos rfl]
    obtain ⟨h1, h2, h3⟩ := hsel rfl
    refine selectSource_ok ⟨wf, hsq, hsym, hT, hbig, hρ, hnd, hmem, hclr, room.q0, room.q1, room.rp, room.bits, hcand, h1, h3⟩ hpat hq hdg h2
      (fun x hx => ?_) (fun u s Du Ds m' _ _ hs _ _ _ hi => hQ s m' hs (fun e => absurd e (by simp)) hi)
    obtain ⟨v, hv, e⟩ := hbits x hx
    rw [hv, e rfl]

/-- The loop over large components, before component `c`. -/
structure LgInv (A : Csr R) (nc : Nat) (root size start : Nat → Nat) (thr : Nat) (pd : Bool) (m0 : Mem (CTy R)) (c : Nat) (m : Mem (CTy R)) : Prop where
  placed : ∀ d, d < nc → (size d < thr ∨ d < c) → ∃ s l, Reaches A (root d) s ∧ RPlaced A s (start d) l m
  bits : ∀ d x, d < nc → c ≤ d → Reaches A (root d) x → ∃ v : Int, m bfsBits (x : Int) = some v ∧ (pd = true → v = 0)
  frame : ∀ a i, ¬ RcmScr a → m a i = m0 a i

theorem rcmLarge_ok {asg : RcmAsg} {md : Nat} {pd : Bool} (h : RcmCtx A V nc root size start node T thr (asg.comp nc)) (hT : 1 ≤ T) (room : LargeRoom A T md sz) (hcand : (A.m : Int) ≤ sz rcmCand)
    {srt : List (Int × Int) → List (Int × Int)} (hsrt : SortsByKey srt) (hclr : ∀ c x, asg.clear c x < T) (hcnt : ∀ c x, asg.count c x < T) (hdg : ∀ c x, asg.deg c x < T)
    (hlong : ∀ c s x d, c < nc → thr ≤ size c → Reaches A (root c) s → (pd = false → s = root c) → IsDist A s x d → d + 1 < A.m)
    (hsel : pd = true → ∀ c, c < nc → thr ≤ size c → SelOk A T (root c)) (hdeg : ∀ u, u < A.m → degree A u ≤ md)
    {m0 : Mem (CTy R)} (hcm : CompMem A k k' 0 nc root size start node m0) {Q : Unit → Mem (CTy R) → Prop} (hQ : ∀ m, LgInv A nc root size start thr pd m0 nc m → Q () m) :
    ∀ (left c : Nat) (m : Mem (CTy R)), c + left = nc → LgInv A nc root size start thr pd m0 c m →
      (rcmLarge sz T k k' A.m thr md pd srt asg left c).Ok m Q := by
  intro left
  induction left with
  | zero =>
    intro c m hc hi
    unfold rcmLarge
    obtain rfl : c = nc := by omega
    exact Script.ok_done_of (hQ m hi)
  | succ left ih =>
    intro c m hc hi
    have hcn : c < nc := by omega
    have hcm' := hcm.rcm_frame (m' := m) fun a i ha => hi.frame a i fun hs => rcmScr_not_const hs ha
    unfold rcmLarge
    refine seq_rule ?_
    unfold rcmLargeHead
    refine wp_rd (root c : Int) trivial (hcm'.hroot c hcn) ?_
    refine wp_rd (start c : Int) trivial (hcm'.hstart c hcn) ?_
    refine wp_rd (size c : Int) trivial (hcm'.hsize c hcn) ?_
    refine wp_pure.2 ?_
    dsimp only
    rw [Script.ok_bind]
    by_cases ht : size c < thr
    · have q : (size c : Int) < (thr : Int) := by omega
      rw [if_pos q]
      refine Script.ok_done_of (ih (c + 1) m (by omega) ⟨fun d hd hh => ?_, fun d x hd hcd => hi.bits d x hd (by omega), hi.frame⟩)
      by_cases e : d = c
      · subst e; exact hi.placed d hd (Or.inl ht)
      · exact hi.placed d hd (by omega)
    have q : ¬ (size c : Int) < (thr : Int) := by omega
    rw [if_neg q]
    have hl := fun s x d => hlong c s x d hcn (by omega)
    have hr := (h.hV _).1 (h.ex.root_mem c hcn)
    have hNl : (compNodes size start node c).length = size c := compNodes_length c
    have hnodes : HoldsQ m 5 (start c : Int) (compNodes size start node c) := by
      intro j x hj
      obtain ⟨hjl, rfl⟩ := List.getElem?_eq_some_iff.1 hj
      rw [hNl] at hjl
      have := hcm'.hnode c j hcn hjl
      rw [show (start c : Int) + (j : Int) = ((start c + j : Nat) : Int) by omega, this]
      simp [compNodes]
    have hcmem := compNodes_mem h.sym h.ex h.closed hcn
    have hbig : 2 ≤ T * A.m := by
      have := hl (root c) (root c) 0 (.refl _) (fun _ => rfl) isDist_zero
      exact Nat.le_trans (by omega) (Nat.le_mul_of_pos_left A.m hT)
    rw [Int.toNat_natCast, ← hNl, Script.ok_bind]
    refine rcmSource_ok h.wf h.sq h.sym hT hbig hr (compNodes_nodup h.ex hcn) hcmem (fun x _ => hclr c x) (fun x _ => hdg c x) room hcand (fun e => hsel e c hcn (by omega))
      hcm'.pat hnodes (fun x hx => hi.bits c x hcn (by omega) hx) ?_
    intro s m1 hs hs' hi1
    have hsm : s < A.m := hs.lt h.wf h.sq hr
    refine seq_rule ?_
    rw [wp_assert]
    refine ⟨⟨by omega, by omega⟩, ?_⟩
    obtain ⟨D, hD⟩ := exists_dist A s
    have hsr : ∀ x, Reaches A s x ↔ Reaches A (root c) x := fun x => ⟨fun hx => hs.trans hx, fun hx => (hs.symm h.sym).trans hx⟩
    refine rcmLargeComp_ok h.wf h.sq hT hsm (compNodes_nodup h.ex hcn) (fun x => by rw [hcmem, hsr]) hsrt (fun x _ => hclr c x) (fun x _ => hcnt c x) hD
      (fun x d => hl s x d hs hs') (by rw [hNl]; exact h.le hcn) hdeg room (hi1.pat hcm'.pat) (hi1.nodes hnodes) (fun x hx => hi1.bits x ((hcmem x).1 hx)) ?_
    intro m' hp hb hf0
    rw [hNl] at hf0
    have hf : ∀ a i, ¬ SelCell A (root c) a i → ¬ LargeCell A s (start c) (size c) a i → m' a i = m a i := fun a i a1 a2 => by rw [hf0 a i a2]; exact hi1.frame a i a1
    refine ih (c + 1) m' (by omega) ⟨fun d hd hh => ?_, fun d x hd hcd hx => ?_, fun a i ha => ?_⟩
    · by_cases e : d = c
      · subst e; exact ⟨_, _, hs, hp⟩
      · obtain ⟨s', l', hs', hl'⟩ := hi.placed d hd (by omega)
        have hll : l'.length = size d := comp_length h.sym h.ex h.closed hd hl'.nodup fun x => by
          rw [hl'.mem]; exact ⟨fun hx => hs'.trans hx, fun hx => (hs'.symm h.sym).trans hx⟩
        have ord : start c + size c ≤ start d ∨ start d + size d ≤ start c := by
          rcases Nat.lt_or_gt_of_ne e with g | g
          · have := h.blocks.off_mono g hcn; rw [compNodes_length] at this; exact Or.inr this
          · have := h.blocks.off_mono g hd; rw [compNodes_length] at this; exact Or.inl this
        refine ⟨s', l', hs', hl'.congr (fun i b1 b2 => hf _ _ (by simp [SelCell]) ?_) (fun x hx => hf _ _ (by simp [SelCell]) ?_)⟩
        · rintro ((e1 | e1 | e1 | e1 | e1 | e1 | e1 | e1) | ⟨e1 | e1 | e1, _⟩ | ⟨_, b3, b4⟩) <;> first | (simp at e1; done) | skip
          omega
        · rintro ((e1 | e1 | e1 | e1 | e1 | e1 | e1 | e1) | ⟨e1 | e1 | _, y, hy, ey⟩ | ⟨e1, _⟩) <;> first | (simp at e1; done) | skip
          obtain rfl : x = y := by omega
          exact h.blocks.apart d c hd hcn e ((hs'.trans hx).trans (((hsr x).1 hy).symm h.sym))
    · have hxc : ¬ Reaches A (root c) x := fun hxc => h.blocks.apart d c hd hcn (by omega) (hx.trans (hxc.symm h.sym))
      rw [hf _ _ ?_ ?_]
      · exact hi.bits d x hd (by omega) hx
      · rintro (e1 | e1 | e1 | e1 | ⟨_, y, hy, ey⟩) <;> first | (simp at e1; done) | skip
        obtain rfl : x = y := by omega
        exact hxc hy
      · rintro ((e1 | e1 | e1 | e1 | e1 | e1 | e1 | e1) | ⟨_, y, hy, ey⟩ | ⟨e1, _⟩) <;> first | (simp at e1; done) | skip
        obtain rfl : x = y := by omega
        exact hxc ((hsr x).1 hy)
    · rw [hf a i (fun hh => ha (selCell_scr hh)) fun hh => ha (largeCell_scr hh)]; exact hi.frame a i ha

/-- Blocks do not depend on which node of a component is the source. -/
theorem Blocks.source {N : Nat} {src src' off : Nat → Nat} {L : Nat → List Nat} (wf : A.WF) (hsq : A.n = A.m) (hsym : PatSym A) (h : Blocks A N src off L)
    (hs : ∀ b, b < N → Reaches A (src b) (src' b)) : Blocks A N src' off L := by
  refine ⟨fun b hb => (hs b hb).lt wf hsq (h.lt b hb), h.nodup, fun b hb x => ?_, fun b c hb hc hne hr => ?_, fun x hx => ?_, h.off_zero, h.off_next⟩
  · rw [h.mem b hb]; exact ⟨fun hx => ((hs b hb).symm hsym).trans hx, fun hx => (hs b hb).trans hx⟩
  · exact h.apart b c hb hc hne (((hs b hb).trans hr).trans ((hs c hc).symm hsym))
  · obtain ⟨b, hb, hr⟩ := h.cover x hx
    exact ⟨b, hb, ((hs b hb).symm hsym).trans hr⟩

/-- From exact components on, for any team, any assignment of components to threads and any interleaving. -/
theorem rcmRest_ok {asg : RcmAsg} {md : Nat} {pd : Bool} (h : RcmCtx A V nc root size start node T thr (asg.comp nc)) (room : RcmRoom A T thr sz) (room2 : LargeRoom A T md sz) (hcand : (A.m : Int) ≤ sz rcmCand)
    {srt : List (Int × Int) → List (Int × Int)} (hsrt : SortsByKey srt) (hclr : ∀ c x, asg.clear c x < T) (hcnt : ∀ c x, asg.count c x < T) (hdg : ∀ c x, asg.deg c x < T)
    (hlong : ∀ c s x d, c < nc → thr ≤ size c → Reaches A (root c) s → (pd = false → s = root c) → IsDist A s x d → d + 1 < A.m)
    (hsel : pd = true → ∀ c, c < nc → thr ≤ size c → SelOk A T (root c)) (hdeg : ∀ u, u < A.m → degree A u ≤ md)
    {m0 : Mem (CTy R)} (hcm : CompMem A k k' 0 nc root size start node m0) (hbits : ∀ x, x < A.m → ∃ v : Int, m0 bfsBits (x : Int) = some v ∧ (pd = true → v = 0)) (hT : 1 ≤ T) :
    (rcmRest sz T k k' A.m thr md pd srt asg nc).Ok m0
      (fun _ m => (∃ perm inv, IsRcmNumbering A perm inv ∧ BfsOutput A perm inv m) ∧ ∀ a i, ¬ RcmScr a → m a i = m0 a i) := by
  classical
  unfold rcmRest
  refine par_rule (W := RcmW A nc root size start thr (asg.comp nc)) (R := fun t a i => RcmW A nc root size start thr (asg.comp nc) t a i ∨ RcmConst k k' a)
    (Q := fun t _ m => ∀ c, c < nc → size c < thr → asg.comp nc c = t → ∃ l, RPlaced A (root c) (start c) l m) ?_ ?_ ?_
  · rintro t u a i _ _ hne ⟨c, hc, tc, rfl, h1⟩ (⟨d, hd, td, rfl, h2⟩ | h2)
    · exact h.disj hc hd tc td hne h1 h2
    · exact rcm_const_not h1 h2
  · intro t _
    exact wp_rcmThread h room hsrt hcm fun m hm => hm
  intro _ m1 h1 h2
  have hplaced : ∀ c, c < nc → size c < thr → ∃ l, RPlaced A (root c) (start c) l m1 := by
    intro c hc tc
    obtain ⟨mt, h3, h4⟩ := h1 (asg.comp nc c) (h.asg_lt c hc)
    obtain ⟨l, hl⟩ := h3 c hc tc rfl
    have hll : l.length = size c := comp_length h.sym h.ex h.closed hc hl.nodup hl.mem
    refine ⟨l, hl.congr (fun i b1 b2 => h4 _ _ (Or.inl ⟨c, hc, tc, rfl, Or.inl (Or.inr (Or.inr (Or.inl ⟨rfl, by omega, b2⟩)))⟩))
      (fun x hx => h4 _ _ (Or.inl ⟨c, hc, tc, rfl, Or.inl (Or.inr (Or.inr (Or.inr ⟨rfl, x, hx, rfl⟩)))⟩))⟩
  have hfr : ∀ a i, ¬ RcmScr a → m1 a i = m0 a i := fun a i ha => h2 a i fun t _ ⟨c, _, _, _, hcc⟩ => ha (rcmCells_scr hcc)
  have hb1 : ∀ x, x < A.m → ∃ v : Int, m1 bfsBits (x : Int) = some v ∧ (pd = true → v = 0) := by
    intro x hx
    rw [h2 _ _ ?_]
    · exact hbits x hx
    · rintro t _ ⟨c, _, _, _, hcc⟩
      rcases hcc with (⟨e, _⟩ | ⟨e, _⟩ | ⟨e, _⟩ | ⟨e, _⟩) | ⟨e, _⟩ | ⟨e, _⟩ | ⟨e, _⟩ <;> simp at e
  refine rcmLarge_ok h hT room2 hcand hsrt hclr hcnt hdg hlong hsel hdeg hcm ?_ nc 0 m1 (by omega)
    ⟨fun d hd hh => (hplaced d hd (by omega)).elim fun l hl => ⟨root d, l, .refl _, hl⟩, fun d x hd _ hx => hb1 x (hx.lt h.wf h.sq ((h.hV _).1 (h.ex.root_mem d hd))), hfr⟩
  intro m hinv
  have hplaced : ∀ c, c < nc → ∃ q : Nat × List Nat, Reaches A (root c) q.1 ∧ RPlaced A q.1 (start c) q.2 m := fun c hc =>
    (hinv.placed c hc (Or.inr hc)).elim fun s hs => hs.elim fun l hl => ⟨(s, l), hl⟩
  refine ⟨?_, hinv.frame⟩
  have hch : ∃ q : Nat → Nat × List Nat, ∀ c, c < nc → Reaches A (root c) (q c).1 ∧ RPlaced A (q c).1 (start c) (q c).2 m := by
    refine ⟨fun c => if hc : c < nc then (hplaced c hc).choose else (0, []), fun c hc => ?_⟩
    dsimp only
    rw [dif_pos hc]; exact (hplaced c hc).choose_spec
  obtain ⟨q, hq⟩ := hch
  let L : Nat → List Nat := fun c => (q c).2
  have hL : ∀ c, c < nc → RPlaced A (q c).1 (start c) (L c) m := fun c hc => (hq c hc).2
  have hb : Blocks A nc (fun c => (q c).1) start L := Blocks.source h.wf h.sq h.sym
    (comps_blocks h.hV h.sym h.ex h.closed fun c hc => ⟨(hL c hc).nodup, fun x => by
      rw [(hL c hc).mem]; exact ⟨fun hx => (hq c hc).1.trans hx, fun hx => ((hq c hc).1.symm h.sym).trans hx⟩⟩) fun c hc => (hq c hc).1
  have hlt : ∀ b j x : Nat, b < nc → (L b)[j]? = some x → start b + j < A.m := by
    intro b j x hb' hj
    have := (List.getElem?_eq_some_iff.1 hj).1
    have := hb.le h.wf h.sq h.sym hb'
    omega
  let inv : Nat → Nat := fun p => match m bfsInv (p : Int) with | some v => (v : Int).toNat | none => 0
  let perm : Nat → Nat := fun x => match m bfsPrm (x : Int) with | some v => (v : Int).toNat | none => 0
  have hinv : ∀ b j x : Nat, b < nc → (L b)[j]? = some x → m bfsInv ((A.m - 1 - (start b + j) : Nat) : Int) = some (x : Int) := by
    intro b j x hb' hj
    have := hlt b j x hb' hj
    have e := (hL b hb').inv j x hj
    rw [show ((A.m - 1 - (start b + j) : Nat) : Int) = (A.m : Int) - ((start b + j : Nat) : Int) - 1 by omega]
    exact e
  have hperm : ∀ b j x : Nat, b < nc → (L b)[j]? = some x → m bfsPrm (x : Int) = some (((A.m - 1 - (start b + j) : Nat) : Int) : Int) := by
    intro b j x hb' hj
    have := hlt b j x hb' hj
    have e := (hL b hb').perm j x hj
    rw [show ((A.m - 1 - (start b + j) : Nat) : Int) = (A.m : Int) - ((start b + j : Nat) : Int) - 1 by omega]
    exact e
  have hinv' : ∀ b j x : Nat, b < nc → (L b)[j]? = some x → inv (A.m - 1 - (start b + j)) = x := by
    intro b j x hb' hj
    show (match m bfsInv ((A.m - 1 - (start b + j) : Nat) : Int) with | some v => (v : Int).toNat | none => 0) = x
    rw [hinv b j x hb' hj]
    exact Int.toNat_natCast x
  have hperm' : ∀ b j x : Nat, b < nc → (L b)[j]? = some x → perm x = A.m - 1 - (start b + j) := by
    intro b j x hb' hj
    show (match m bfsPrm (x : Int) with | some v => (v : Int).toNat | none => 0) = _
    rw [hperm b j x hb' hj]
    exact Int.toNat_natCast _
  refine ⟨perm, inv, hb.rcm h.wf h.sq h.sym (fun b hb' => (hL b hb').sorted) (fun b hb' => (hL b hb').firsts) hinv' hperm', ?_⟩
  refine ⟨fun x hx => ?_, fun p hp => ?_⟩
  · obtain ⟨b, hb', hr⟩ := hb.cover x hx
    obtain ⟨j, hj, he⟩ := List.getElem_of_mem ((hb.mem b hb' x).2 hr)
    have hj' : (L b)[j]? = some x := List.getElem?_eq_some_iff.2 ⟨hj, he⟩
    rw [hperm b j x hb' hj', hperm' b j x hb' hj']
  · obtain ⟨b, j, hb', hj, he⟩ := hb.find h.wf h.sq h.sym (show A.m - 1 - p < A.m by omega)
    have hj' : (L b)[j]? = some (L b)[j] := List.getElem?_eq_getElem hj
    have h5 := hinv b j _ hb' hj'
    have h6 := hinv' b j _ hb' hj'
    rw [show A.m - 1 - (start b + j) = p by omega] at h5 h6
    rw [h5, h6]

theorem wp_rcmMaxDegree {m : Mem (CTy R)} {base : Nat} (wf : A.WF) (hpat : HoldsPat m k base A) {Q : Int → Mem (CTy R) → Prop}
    (hQ : ∀ d : Int, (∀ u, u < A.m → (degree A u : Int) ≤ d) → Q d m) :
    wp sz (fun _ _ => True) (fun _ _ => True) (rcmMaxDegree k A.m) m Q := by
  unfold rcmMaxDegree
  refine wp_forN (b := 0) (lo := 0) (hi := A.m) (fun n d m' => (∀ u, u < n → (degree A u : Int) ≤ d) ∧ m' = m) (by omega) ⟨fun u h => by omega, rfl⟩ ?_ ?_ (by omega) (by omega)
  · rintro i d m' _ hi ⟨h0, rfl⟩
    rw [Int.add_zero]
    have h1 := hpat.rowptr (i + 1) (by omega)
    rw [show ((i + 1 : Nat) : Int) = (i : Int) + 1 by omega] at h1
    refine wp_rd _ trivial h1 ?_
    refine wp_rd _ trivial (hpat.rowptr i (by omega)) ?_
    refine wp_pure.2 ⟨fun u hu => ?_, rfl⟩
    have hm := wf.ptr_mono (show i ≤ i + 1 by omega) (by omega)
    by_cases e : u = i
    · subst e
      unfold degree
      show _ ≤ max d (((A.ptr (u + 1) : Int) + base) - ((A.ptr u : Int) + base))
      omega
    · have := h0 u (by omega)
      show _ ≤ max d (((A.ptr (i + 1) : Int) + base) - ((A.ptr i : Int) + base))
      omega
  · rintro d m' ⟨h0, rfl⟩
    exact hQ d h0

/-- The arrays getRCMPermutation may change. -/
def RcmArr (k' : Nat) (a : CArr) : Prop := a = .rowptr k' ∨ ∃ j, a = .itmp j

/-- The whole function on 0-based indices with one thread. -/
theorem rcmPermutation_ok (wf : A.WF) (hsq : A.n = A.m) (hpos : 0 < A.m) (hsym : PatSym A) (hnd : NoDup A) (hkk : k' ≠ k) (hT : T = 1)
    {pd : Bool} (hint : pd = true → (A.m : Int) < intMax ∧ (A.nnz : Int) < intMax)
    (hlong : ∀ s x d, s < A.m → (pd = false → ∀ y, Reaches A s y → s ≤ y) → (∀ l : List Nat, (∀ y, Reaches A s y → y ∈ l) → thr ≤ l.length) → IsDist A s x d → d + 1 < A.m)
    {srt : List (Int × Int) → List (Int × Int)} (hsrt : SortsByKey srt) {asg : RcmAsg} (hasg : ∀ nc c, asg.comp nc c < T) (hclr : ∀ c x, asg.clear c x < T) (hcnt : ∀ c x, asg.count c x < T) (hdg : ∀ c x, asg.deg c x < T)
    {m0 : Mem (CTy R)} (hpat : HoldsPat m0 k 0 A) :
    (rcmPermutation sz T k k' A.m thr pd srt asg).Ok m0
      (fun _ m => (∃ perm inv, IsRcmNumbering A perm inv ∧ BfsOutput A perm inv m) ∧ ∀ a i, ¬ RcmArr k' a → m a i = m0 a i) := by
  unfold rcmPermutation
  refine seq_rule ?_
  refine wp_rcmMaxDegree wf hpat ?_
  intro d hdeg
  dsimp only
  refine par_rule (W := fun t a i => a = bfsBits ∧ i = (t : Int)) (R := fun t a i => a = bfsBits ∧ i = (t : Int))
    (Q := fun t _ m => m bfsBits (t : Int) = some (0 : Int)) ?_ ?_ ?_
  · rintro t u a i _ _ hne ⟨_, h1⟩ ⟨_, h2⟩; omega
  · intro t ht
    refine wp_wr1 ⟨rfl, rfl⟩ ⟨by omega, ?_⟩ (Mem.get_same _ _ _ _)
    show (t : Int) < (A.m : Int)
    omega
  intro _ mb h1 h2
  have hb0 : ∀ x, x < A.m → mb bfsBits (x : Int) = some (0 : Int) := by
    intro x hx
    obtain ⟨mt, h3, h4⟩ := h1 x hx
    rw [h4 _ _ ⟨rfl, rfl⟩]; exact h3
  have hfb : ∀ a i, a ≠ bfsBits → mb a i = m0 a i := fun a i ha => h2 a i (fun t _ h => ha h.1)
  have hpat : HoldsPat mb k 0 A :=
    ⟨fun i hi => by rw [hfb _ _ (by simp)]; exact hpat.rowptr i hi, fun i hi => by rw [hfb _ _ (by simp)]; exact hpat.colidx i hi⟩
  have hV : ∀ x, ccV false (fun _ => false) A.m x ↔ x < A.m := by
    intro x; simp [ccV]
  have hcl : CcClosed A (ccV false (fun _ => false) A.m) := by
    intro x j hx hj
    rw [hV] at hx ⊢
    have := wf.col_lt _ (hj.lt_nnz wf)
    omega
  rw [Script.ok_bind]
  refine Script.Ok.mono (findComponents_ok wf hpat hkk hcl ⟨0, (hV 0).2 hpos⟩ (by omega)) ?_
  rintro nc m1 ⟨E, root, size, start, node, hd⟩
  have hex := exact_comps (A := A) hd.comps (fun x y hx hy =>
    ⟨fun h => (linked_iff_reaches hsym hcl hx).1 (hd.sound x y hx hy h), fun h => hd.exact hT x y hx hy ((linked_iff_reaches hsym hcl hx).2 h)⟩)
  have hpat1 : HoldsPat m1 k 0 A := by
    constructor
    · intro i hi
      rw [hd.frame _ _ ?_]
      · exact hpat.rowptr i hi
      · rintro (e | ⟨j', h1, e⟩)
        · injection e with e; exact hkk e.symm
        · exact absurd e (by simp)
    · intro i hi
      rw [hd.frame _ _ ?_]
      · exact hpat.colidx i hi
      · rintro (e | ⟨j', h1, e⟩) <;> exact absurd e (by simp)
  have hctx : RcmCtx A (ccV false (fun _ => false) A.m) nc root size start node T thr (asg.comp nc) :=
    ⟨wf, hsq, hsym, hnd, hV, hex, fun c _ => hasg nc c, fun c hc _ => by omega⟩
  have hlg : ∀ c s x d, c < nc → thr ≤ size c → Reaches A (root c) s → (pd = false → s = root c) → IsDist A s x d → d + 1 < A.m := by
    intro c s x d hc hs hsr hpd hd
    have hr := (hV _).1 (hex.root_mem c hc)
    have hmem := compNodes_mem hsym hex hcl hc
    refine hlong s x d (hsr.lt wf hsq hr) (fun hp y hy => ?_) (fun l hl => ?_) hd
    · rw [hpd hp] at hy ⊢
      exact hex.root_least c y hc ((hV _).2 (hy.lt wf hsq hr)) hy
    · have := (List.subperm_of_subset (compNodes_nodup hex hc) (fun x hx => hl x ((hsr.symm hsym).trans ((hmem x).1 hx)))).length_le
      rw [compNodes_length] at this
      omega
  have hsel : pd = true → ∀ c, c < nc → thr ≤ size c → SelOk A T (root c) := by
    intro hp c hc _
    obtain ⟨i1, i2⟩ := hint hp
    have hr := (hV _).1 (hex.root_mem c hc)
    refine ⟨by rw [hT]; omega, fun x hx => ?_, fun s d l hs hl hd _ => ?_⟩
    · have h1 := wf.ptr_le_nnz (i := x + 1) (by have := hx.lt wf hsq hr; omega)
      unfold degree
      omega
    · have hsub : ∀ x ∈ l, x ∈ List.range A.m := fun x hx => List.mem_range.2 ((hs.trans ⟨_, (hd x hx).1⟩).lt wf hsq hr)
      have := (List.subperm_of_subset hl hsub).length_le
      rw [List.length_range] at this
      rw [hT]; omega
  have hroom : RcmRoom A T thr (ccSize (rcmSize sz A.m T thr d.toNat) k' A.m T 0 nc) := by
    have hmul : (T : Int) * thr ≤ ((T * max thr d.toNat : Nat) : Int) := by
      have := Nat.mul_le_mul_left T (Nat.le_max_left thr d.toNat)
      calc (T : Int) * thr = ((T * thr : Nat) : Int) := by push_cast; rfl
        _ ≤ _ := by omega
    refine ⟨?_, ?_, ?_, ?_, ?_, ?_, ?_⟩
    · exact Int.le_refl _
    · exact Int.le_refl _
    · exact Int.le_refl _
    · exact Int.le_refl _
    · exact Int.le_refl _
    · show (T : Int) * thr ≤ (T : Int) * ((max thr d.toNat : Nat) : Int)
      push_cast at hmul ⊢
      exact hmul
    · show (T : Int) * thr + 1 ≤ max ((T : Int) * thr) (A.m : Int) + 1
      have := Int.le_max_left ((T : Int) * thr) (A.m : Int)
      omega
  have hroom2 : LargeRoom A T d.toNat (ccSize (rcmSize sz A.m T thr d.toNat) k' A.m T 0 nc) := by
    have hmul : (T : Int) * d.toNat ≤ ((T * max thr d.toNat : Nat) : Int) := by
      have := Nat.mul_le_mul_left T (Nat.le_max_right thr d.toNat)
      calc (T : Int) * d.toNat = ((T * d.toNat : Nat) : Int) := by push_cast; rfl
        _ ≤ _ := by exact_mod_cast this
    refine ⟨?_, ?_, ?_, ?_, ?_, ?_, ?_, ?_, ?_, ?_⟩
    · rw [Int.mul_comm]; exact Int.le_refl _
    · rw [Int.mul_comm]; exact Int.le_refl _
    · exact Int.le_refl _
    · exact Int.le_refl _
    · exact Int.le_refl _
    · exact Int.le_refl _
    · exact Int.le_refl _
    · show (T : Int) * d.toNat ≤ (T : Int) * ((max thr d.toNat : Nat) : Int)
      rw [Int.natCast_mul] at hmul
      exact hmul
    · show (A.m : Int) + 1 ≤ max ((T : Int) * thr) (A.m : Int) + 1
      have := Int.le_max_right ((T : Int) * thr) (A.m : Int)
      omega
    · exact Int.le_refl _
  have hbits1 : ∀ x, x < A.m → ∃ v : Int, m1 bfsBits (x : Int) = some v ∧ (pd = true → v = 0) := by
    intro x hx
    refine ⟨0, ?_, fun _ => rfl⟩
    rw [hd.frame _ _ ?_]
    · exact hb0 x hx
    · rintro (e | ⟨j', h1, e⟩)
      · exact absurd e (by simp)
      · injection e with e; omega
  refine Script.Ok.mono (rcmRest_ok hctx hroom hroom2 (Int.le_refl _) hsrt hclr hcnt hdg hlg hsel (fun u hu => by have := hdeg u hu; omega) ⟨hpat1, hd.hroot, hd.hsize, hd.hstart, hd.hnode⟩ hbits1 (by omega)) ?_
  rintro _ m2 ⟨h1, h2⟩
  refine ⟨h1, fun a i ha => ?_⟩
  rw [h2 a i ?_, hd.frame a i ?_, hfb a i (fun e => ha (Or.inr ⟨_, e⟩))]
  · rintro (e | ⟨j', _, e⟩)
    · exact ha (Or.inl e)
    · exact ha (Or.inr ⟨_, e⟩)
  · rintro (e | e | e | e | e | e | e | e | e | e | e | e | e) <;> exact ha (Or.inr ⟨_, e⟩)

/-- The whole call: index base 0 or 1; the matrix is as before at the end. -/
theorem getRcm_ok (wf : A.WF) (hsq : A.n = A.m) (hpos : 0 < A.m) (hsym : PatSym A) (hnd : NoDup A) (hkk : k' ≠ k) (hT : T = 1)
    {pd : Bool} (hint : pd = true → (A.m : Int) < intMax ∧ (A.nnz : Int) < intMax)
    (hlong : ∀ s x d, s < A.m → (pd = false → ∀ y, Reaches A s y → s ≤ y) → (∀ l : List Nat, (∀ y, Reaches A s y → y ∈ l) → thr ≤ l.length) → IsDist A s x d → d + 1 < A.m)
    {srt : List (Int × Int) → List (Int × Int)} (hsrt : SortsByKey srt) {asg : RcmAsg} (hasg : ∀ nc c, asg.comp nc c < T) (hclr : ∀ c x, asg.clear c x < T) (hcnt : ∀ c x, asg.count c x < T) (hdg : ∀ c x, asg.deg c x < T)
    {base : Nat} (hb : base = 0 ∨ base = 1) {o : Opt} {m0 : Mem (CTy R)} (hpat : HoldsPat m0 k base A)
    (hdiag : o.diagptr → ∀ i : Nat, i < A.m → ∃ v, m0 (.diagptr k) (i : Int) = some v) (hsz : SizesOk sz k A o) :
    (getRcm sz T k k' A.m thr o pd srt asg).Ok m0
      (fun _ m => (∃ perm inv, IsRcmNumbering A perm inv ∧ BfsOutput A perm inv m) ∧ ∀ a i, ¬ RcmArr k' a → m a i = m0 a i) := by
  unfold getRcm
  refine seq_rule ?_
  have h0 := hpat.rowptr 0 (by omega)
  rw [wf.ptr_zero] at h0
  rw [wp_read]
  refine ⟨trivial, _, h0, ?_⟩
  rw [Script.ok_bind]
  refine Script.Ok.mono (make0Based_ok wf hpat hb hdiag hsz) ?_
  intro _ m1 hs1
  have hpat1 : HoldsPat m1 k 0 A := hs1.holds hpat (by omega)
  rw [Script.ok_bind]
  refine Script.Ok.mono (rcmPermutation_ok wf hsq hpos hsym hnd hkk hT hint hlong hsrt hasg hclr hcnt hdg hpat1) ?_
  rintro _ m2 ⟨h1, h2⟩
  have hrp : ¬ RcmArr k' (.rowptr k) := by
    rintro (e | ⟨_, e⟩)
    · injection e with e; exact hkk e.symm
    · exact absurd e (by simp)
  have hci : ¬ RcmArr k' (.colidx k) := by rintro (e | ⟨_, e⟩) <;> exact absurd e (by simp)
  have hdp : ¬ RcmArr k' (.diagptr k) := by rintro (e | ⟨_, e⟩) <;> exact absurd e (by simp)
  rcases hb with rfl | rfl
  · rw [if_neg (by simp)]
    refine ⟨h1, fun a i ha => ?_⟩
    rw [h2 a i ha]
    by_cases e1 : a = .rowptr k
    · subst e1
      by_cases hi : 0 ≤ i ∧ i < (A.m : Int) + 1
      · obtain ⟨n, rfl⟩ := Int.eq_ofNat_of_zero_le hi.1
        rw [hs1.rowptr n (by omega)]
        cases hh : m0 (.rowptr k) (n : Int) <;> simp
      · exact hs1.rest_rowptr i hi
    by_cases e2 : a = .colidx k
    · subst e2
      by_cases hi : 0 ≤ i ∧ i < (A.nnz : Int)
      · obtain ⟨n, rfl⟩ := Int.eq_ofNat_of_zero_le hi.1
        rw [hs1.colidx n (by omega)]
        cases hh : m0 (.colidx k) (n : Int) <;> simp
      · exact hs1.rest_colidx i hi
    by_cases e3 : a = .diagptr k
    · subst e3
      by_cases hi : o.diagptr ∧ 0 ≤ i ∧ i < (A.m : Int)
      · obtain ⟨n, rfl⟩ := Int.eq_ofNat_of_zero_le hi.2.1
        rw [hs1.diagptr hi.1 n (by omega)]
        cases hh : m0 (.diagptr k) (n : Int) <;> simp
      · exact hs1.rest_diagptr i hi
    rw [hs1.rest a e1 e2 e3]
  · rw [if_pos (by simp)]
    have hpat2 : HoldsPat m2 k 0 A := ⟨fun i hi => by rw [h2 _ _ hrp]; exact hpat1.rowptr i hi, fun i hi => by rw [h2 _ _ hci]; exact hpat1.colidx i hi⟩
    refine Script.Ok.mono (make1Based_ok wf hpat2 (Or.inl rfl) ?_ hsz) ?_
    · intro hd i hi
      rw [h2 _ _ hdp, hs1.diagptr hd i hi]
      obtain ⟨v, hv⟩ := hdiag hd i hi
      rw [hv]; exact ⟨_, rfl⟩
    intro _ m3 hs3
    have out : ∀ a i, a = bfsPrm ∨ a = bfsInv → m3 a i = m2 a i := by
      rintro a i (rfl | rfl) <;> rw [hs3.rest _ (by simp) (by simp) (by simp)]
    refine ⟨?_, fun a i ha => ?_⟩
    · obtain ⟨perm, inv, g1, g2⟩ := h1
      exact ⟨perm, inv, g1, fun x hx => by rw [out _ _ (Or.inl rfl)]; exact g2.perm x hx, fun p hp => by rw [out _ _ (Or.inr rfl)]; exact g2.inv p hp⟩
    · by_cases e1 : a = .rowptr k
      · subst e1
        by_cases hi : 0 ≤ i ∧ i < (A.m : Int) + 1
        · obtain ⟨n, rfl⟩ := Int.eq_ofNat_of_zero_le hi.1
          rw [hs3.rowptr n (by omega), h2 _ _ hrp, hs1.rowptr n (by omega)]
          cases hh : m0 (.rowptr k) (n : Int) <;> simp
        · rw [hs3.rest_rowptr i hi, h2 _ _ hrp]; exact hs1.rest_rowptr i hi
      by_cases e2 : a = .colidx k
      · subst e2
        by_cases hi : 0 ≤ i ∧ i < (A.nnz : Int)
        · obtain ⟨n, rfl⟩ := Int.eq_ofNat_of_zero_le hi.1
          rw [hs3.colidx n (by omega), h2 _ _ hci, hs1.colidx n (by omega)]
          cases hh : m0 (.colidx k) (n : Int) <;> simp
        · rw [hs3.rest_colidx i hi, h2 _ _ hci]; exact hs1.rest_colidx i hi
      by_cases e3 : a = .diagptr k
      · subst e3
        by_cases hi : o.diagptr ∧ 0 ≤ i ∧ i < (A.m : Int)
        · obtain ⟨n, rfl⟩ := Int.eq_ofNat_of_zero_le hi.2.1
          rw [hs3.diagptr hi.1 n (by omega), h2 _ _ hdp, hs1.diagptr hi.1 n (by omega)]
          cases hh : m0 (.diagptr k) (n : Int) <;> simp
        · rw [hs3.rest_diagptr i hi, h2 _ _ hdp]; exact hs1.rest_diagptr i hi
      rw [hs3.rest a e1 e2 e3, h2 a i ha, hs1.rest a e1 e2 e3]

end SpMP
