import Verif.BfsSmall
/-
getBFSPermutation: the numbering phases, the loops over components and the whole function.
-/

namespace SpMP
open Spec

variable {R : Type} {sz : CArr → Int} {A : Csr R} {k k' base T : Nat}

/-- The numbering phase: `perm` becomes the inverse of the block of `inversePerm`. -/
theorem bfsNumber_ok {off : Nat} {s : Nat} {l : List Nat} {m0 : Mem (CTy R)} (hn : l.Nodup) (hm : ∀ x, x ∈ l ↔ Reaches A s x) (hso : DistSorted A s l)
    (hq : HoldsQ m0 14 (off : Int) l) (hlt : ∀ x ∈ l, (x : Int) < sz bfsPrm) {α : Type} {f : (Nat → Unit) → Script (CTy R) α} {Q : α → Mem (CTy R) → Prop}
    (hQ : ∀ r m, Placed A s off l m → (∀ a i, ¬ (a = bfsPrm ∧ ∃ x : Nat, Reaches A s x ∧ i = (x : Int)) → m a i = m0 a i) → (f r).Ok m Q) :
    (Script.phase sz l.length (bfsNumber (off : Int)) f).Ok m0 Q := by
  refine par_rule (W := fun t a i => a = bfsPrm ∧ ∃ x : Nat, l[t]? = some x ∧ i = (x : Int))
    (R := fun t a i => a = bfsInv ∨ (a = bfsPrm ∧ ∃ x : Nat, l[t]? = some x ∧ i = (x : Int)))
    (Q := fun t _ m => ∀ x : Nat, l[t]? = some x → m bfsPrm (x : Int) = some ((off + t : Nat) : Int)) ?_ ?_ ?_
  · rintro t u a i ht hu hne ⟨rfl, x, hx, rfl⟩ (e | ⟨_, y, hy, e⟩)
    · exact absurd e (by simp)
    · obtain rfl : x = y := by omega
      rw [List.getElem?_eq_getElem ht] at hx
      rw [List.getElem?_eq_getElem hu] at hy
      exact hne ((List.Nodup.getElem_inj_iff hn).1 (Option.some.inj (hx.trans hy.symm)))
  · intro t ht
    unfold bfsNumber
    have hx : l[t]? = some l[t] := List.getElem?_eq_getElem ht
    have := hlt _ (List.getElem_mem ht)
    refine wp_rd (l[t] : Int) (Or.inl rfl) (hq t _ hx) ?_
    refine wp_wr1 ⟨rfl, _, hx, rfl⟩ ⟨by omega, this⟩ ?_
    intro x hx'
    rw [hx] at hx'
    injection hx' with hx'
    subst hx'
    rw [Mem.get_same]; push_cast; rfl
  · intro r m h1 h2
    have hfr : ∀ a i, ¬ (a = bfsPrm ∧ ∃ x : Nat, Reaches A s x ∧ i = (x : Int)) → m a i = m0 a i := by
      intro a i h
      refine h2 a i ?_
      rintro t ht ⟨e, x, hx, e'⟩
      exact h ⟨e, x, (hm x).1 (List.mem_of_getElem? hx), e'⟩
    refine hQ r m ⟨hn, hm, hso, ?_, ?_⟩ hfr
    · intro j x hj
      rw [hfr _ _ (by rintro ⟨e, _⟩; injection e with e; omega)]
      have := hq j x hj
      rwa [show ((off + j : Nat) : Int) = (off : Int) + j by push_cast; rfl]
    · intro j x hj
      have ht := (List.getElem?_eq_some_iff.1 hj).1
      obtain ⟨mt, h3, h4⟩ := h1 j ht
      rw [h4 _ _ (Or.inr ⟨rfl, x, hj, rfl⟩)]
      exact h3 x hj

variable {V : Nat → Prop} {nc : Nat} {root size start node : Nat → Nat} {L0 : List Nat}

/-- The situation after the first component was placed and the others were found exactly. -/
structure TailCtx (A : Csr R) (V : Nat → Prop) (nc : Nat) (root size start node : Nat → Nat) (L0 : List Nat) : Prop where
  wf : A.WF
  sq : A.n = A.m
  pos : 0 < A.m
  sym : PatSym A
  nodup : NoDup A
  hV : ∀ x, V x ↔ x < A.m ∧ ¬ Reaches A 0 x
  comps : IsComponents V (Reaches A) nc root size start node
  l0 : L0.Nodup
  l0m : ∀ x, x ∈ L0 ↔ Reaches A 0 x

theorem TailCtx.cl (h : TailCtx A V nc root size start node L0) : CcClosed A V := by
  intro x j hx hj
  rw [h.hV] at hx ⊢
  have := h.wf.col_lt _ (hj.lt_nnz h.wf)
  have := h.sq
  refine ⟨by omega, fun hr => hx.2 (hr.trans ?_)⟩
  exact (Reaches.edge hj).symm h.sym

theorem TailCtx.lt (h : TailCtx A V nc root size start node L0) {c : Nat} (hc : c < nc) : root c < A.m :=
  ((h.hV _).1 (h.comps.root_mem c hc)).1

theorem TailCtx.blocks (h : TailCtx A V nc root size start node L0) :
    Blocks A (nc + 1) (fun b => if b = 0 then 0 else root (b - 1)) (fun b => if b = 0 then 0 else L0.length + start (b - 1))
      (fun b => if b = 0 then L0 else compNodes size start node (b - 1)) := by
  have := comp_blocks (L := fun b => if b = 0 then L0 else compNodes size start node (b - 1)) h.pos h.hV h.sym h.comps h.cl h.l0 h.l0m
    (fun c hc => ⟨by rw [if_neg (by omega)]; exact compNodes_nodup h.comps hc, fun x => by
      rw [if_neg (by omega)]; exact compNodes_mem h.sym h.comps h.cl hc x⟩)
  exact this

theorem compNodes_length (c : Nat) : (compNodes size start node c).length = size c := by simp [compNodes]

theorem TailCtx.room (h : TailCtx A V nc root size start node L0) {c : Nat} (hc : c < nc) : L0.length + start c + size c ≤ A.m := by
  have := h.blocks.le h.wf h.sq h.sym (show c + 1 < nc + 1 by omega)
  simp only [if_neg (show ¬ c + 1 = 0 by omega), Nat.add_sub_cancel, compNodes_length] at this
  exact this

theorem TailCtx.before (h : TailCtx A V nc root size start node L0) {c d : Nat} (hcd : c < d) (hd : d < nc) : start c + size c ≤ start d := by
  have := h.blocks.off_mono (show c + 1 < d + 1 by omega) (show d + 1 < nc + 1 by omega)
  simp only [if_neg (show ¬ c + 1 = 0 by omega), if_neg (show ¬ d + 1 = 0 by omega), Nat.add_sub_cancel, compNodes_length] at this
  omega

theorem TailCtx.apart (h : TailCtx A V nc root size start node L0) {c d : Nat} (hc : c < nc) (hd : d < nc) (hne : c ≠ d) {x : Nat}
    (h1 : Reaches A (root c) x) (h2 : Reaches A (root d) x) : False := by
  have := h.blocks.apart (c + 1) (d + 1) (by omega) (by omega) (by omega)
  simp only [if_neg (show ¬ c + 1 = 0 by omega), if_neg (show ¬ d + 1 = 0 by omega), Nat.add_sub_cancel] at this
  exact this (h1.trans (h2.symm h.sym))

theorem TailCtx.apart0 (h : TailCtx A V nc root size start node L0) {c : Nat} (hc : c < nc) {x : Nat}
    (h1 : Reaches A 0 x) (h2 : Reaches A (root c) x) : False :=
  ((h.hV _).1 (h.comps.root_mem c hc)).2 (h1.trans (h2.symm h.sym))

theorem TailCtx.keep0 (h : TailCtx A V nc root size start node L0) {c : Nat} (hc : c < nc) {m m' : Mem (CTy R)}
    (hf : CompFrame A (root c) (L0.length + start c) (size c) m m') (hp : Placed A 0 0 L0 m) : Placed A 0 0 L0 m' := by
  refine hp.congr (fun i h1 h2 => ?_) (fun x hx => ?_)
  · exact hf _ _ (by simp [BfsScr]) (by rintro ⟨_, h3, _⟩; push_cast at *; omega) (by rintro ⟨e, _⟩; simp at e)
  · refine hf _ _ (by simp [BfsScr]) (by rintro ⟨e, _⟩; simp at e) ?_
    rintro ⟨_, y, hy, e⟩
    obtain rfl : x = y := by omega
    exact h.apart0 hc hx hy

theorem TailCtx.keep (h : TailCtx A V nc root size start node L0) {c d : Nat} (hc : c < nc) (hd : d < nc) (hne : d ≠ c) {m m' : Mem (CTy R)} {l : List Nat}
    (hf : CompFrame A (root c) (L0.length + start c) (size c) m m') (hp : Placed A (root d) (L0.length + start d) l m) :
    Placed A (root d) (L0.length + start d) l m' := by
  have hl := comp_length h.sym h.comps h.cl hd hp.nodup hp.mem
  refine hp.congr (fun i h1 h2 => ?_) (fun x hx => ?_)
  · refine hf _ _ (by simp [BfsScr]) ?_ (by rintro ⟨e, _⟩; simp at e)
    rintro ⟨_, h3, h4⟩
    rw [hl] at h2
    push_cast at *
    rcases Nat.lt_or_ge c d with g | g
    · have := h.before g hd; omega
    · have := h.before (show d < c by omega) hc; omega
  · refine hf _ _ (by simp [BfsScr]) (by rintro ⟨e, _⟩; simp at e) ?_
    rintro ⟨_, y, hy, e⟩
    obtain rfl : x = y := by omega
    exact h.apart hd hc hne hx hy

/-- State between components; `P` tells which were placed, `Z` which nodes are marked. -/
structure TailSt (A : Csr R) (k k' base nc : Nat) (root size start node : Nat → Nat) (L0 : List Nat) (P Z : Nat → Prop) (m : Mem (CTy R)) : Prop where
  cm : CompMem A k k' base nc root size start node m
  first : Placed A 0 0 L0 m
  placed : ∀ c, c < nc → P c → ∃ l, Placed A (root c) (L0.length + start c) l m
  one : ∀ x, x < A.m → Z x → m bfsBits (x : Int) = some (1 : Int)
  zero : ∀ x, x < A.m → ¬ Z x → m bfsBits (x : Int) = some (0 : Int)

/-- Everything outside the arrays of the function is as in `m0`. -/
def TailFrame (m0 m : Mem (CTy R)) : Prop := ∀ a i, ¬ BfsScr a → a ≠ bfsInv → a ≠ bfsPrm → m a i = m0 a i

theorem bfsSmall_ok (h : TailCtx A V nc root size start node L0) (room : BfsRoom A sz) {thr : Nat} {m0 : Mem (CTy R)}
    (hs : TailSt A k k' base nc root size start node L0 (fun _ => False) (Reaches A 0) m0) {Q : Unit → Mem (CTy R) → Prop}
    (hQ : ∀ m, TailSt A k k' base nc root size start node L0 (fun c => size c < thr) (Reaches A 0) m → TailFrame m0 m → Q () m) :
    wp sz (fun _ _ => True) (fun _ _ => True) (bfsSmall k k' base A.m thr nc (L0.length : Int)) m0 Q := by
  unfold bfsSmall
  refine wp_forN (b := 0) (lo := 0) (hi := nc)
    (fun n _ m => TailSt A k k' base nc root size start node L0 (fun c => c < n ∧ size c < thr) (Reaches A 0) m ∧ TailFrame m0 m)
    (by omega) ?_ ?_ ?_ (by omega) (by omega)
  · exact ⟨⟨hs.cm, hs.first, fun c _ h => by omega, hs.one, hs.zero⟩, fun _ _ _ _ _ => rfl⟩
  · rintro c _ m _ hc ⟨hm, hf⟩
    rw [Int.add_zero]
    refine wp_bfsSmallComp h.wf h.sq h.sym h.nodup room hm.cm h.comps h.cl hc (h.lt hc) (h.room hc)
      (hm.zero _ (h.lt hc) (fun hr => h.apart0 hc hr (.refl _))) ?_
    intro m' h1 h2 h3
    refine ⟨⟨hm.cm.frame h2, h.keep0 hc h2 hm.first, ?_, fun x hx hz => by rw [h3]; exact hm.one x hx hz,
      fun x hx hz => by rw [h3]; exact hm.zero x hx hz⟩, fun a i a1 a2 a3 => ?_⟩
    · rintro d hd ⟨hdc, hdt⟩
      by_cases e : d = c
      · subst e; exact h1 hdt
      · obtain ⟨l, hl⟩ := hm.placed d hd ⟨by omega, hdt⟩
        exact ⟨l, h.keep hc hd e h2 hl⟩
    · rw [h2 a i a1 (fun h => a2 h.1) (fun h => a3 h.1)]; exact hf a i a1 a2 a3
  · rintro _ m ⟨hm, hf⟩
    exact hQ m ⟨hm.cm, hm.first, fun c hc ht => hm.placed c hc ⟨hc, ht⟩, hm.one, hm.zero⟩ hf

/-- Nodes marked when the large components below `c` were searched. -/
def MarkedTo (A : Csr R) (root size : Nat → Nat) (thr c x : Nat) : Prop := Reaches A 0 x ∨ ∃ d, d < c ∧ thr ≤ size d ∧ Reaches A (root d) x

theorem bfsLarge_ok (h : TailCtx A V nc root size start node L0) (hT : 1 ≤ T) (hbig : 2 ≤ T * A.m) (room : BfsRoom A sz)
    (hq0 : (T : Int) * A.m ≤ sz (bfsQ 0)) (hq1 : (T : Int) * A.m ≤ sz (bfsQ 1)) (hrp : (T : Int) * A.m ≤ sz bufA) (hbits : (A.m : Int) ≤ sz bfsBits)
    {thr : Nat} {m0 : Mem (CTy R)}
    (hs : TailSt A k k' base nc root size start node L0 (fun c => size c < thr) (Reaches A 0) m0) : ∀ n, n ≤ nc →
    (bfsLarge sz k k' base T A.m thr (L0.length : Int) n).Ok m0 (fun _ m =>
      TailSt A k k' base nc root size start node L0 (fun c => size c < thr ∨ c < n) (MarkedTo A root size thr n) m ∧ TailFrame m0 m) := by
  intro n
  induction n with
  | zero =>
    intro _
    unfold bfsLarge
    refine Script.ok_done_of ⟨⟨hs.cm, hs.first, fun c hc hp => hs.placed c hc (by omega), ?_, ?_⟩, fun _ _ _ _ _ => rfl⟩
    · rintro x hx (hz | ⟨d, hd, _⟩)
      · exact hs.one x hx hz
      · omega
    · intro x hx hz; exact hs.zero x hx (fun h => hz (Or.inl h))
  | succ c ih =>
    intro hc
    have hc' : c < nc := hc
    unfold bfsLarge
    rw [Script.ok_bind]
    refine Script.Ok.mono (ih (by omega)) ?_
    rintro _ m ⟨hm, hf⟩
    refine seq_rule ?_
    unfold bfsLargeHead
    have hr := h.lt hc'
    have hnz : ∀ x, Reaches A (root c) x → ¬ MarkedTo A root size thr c x := by
      rintro x hx (hz | ⟨d, hd, _, hz⟩)
      · exact h.apart0 hc' hz hx
      · exact h.apart (show d < nc by omega) hc' (by omega) hz hx
    refine wp_rd _ trivial (hm.cm.hroot c hc') ?_
    refine wp_rd _ trivial (hm.cm.hstart c hc') ?_
    refine wp_rd _ trivial (hm.cm.hsize c hc') ?_
    refine wp_rd _ trivial (hm.zero _ hr (hnz _ (.refl _))) ?_
    rw [wp_pure]
    by_cases ht : size c < thr
    · have q : ((size c : Int) < thr ∨ (0 : Int) ≠ 0) := by omega
      rw [if_pos q]
      unfold bfsLargeComp
      have eq : ∀ x, MarkedTo A root size thr (c + 1) x ↔ MarkedTo A root size thr c x := by
        intro x
        constructor
        · rintro (hz | ⟨d, hd, hd2, hz⟩)
          · exact Or.inl hz
          · have : d ≠ c := by rintro rfl; omega
            exact Or.inr ⟨d, by omega, hd2, hz⟩
        · rintro (hz | ⟨d, hd, hd2, hz⟩)
          · exact Or.inl hz
          · exact Or.inr ⟨d, by omega, hd2, hz⟩
      refine Script.ok_done_of ⟨⟨hm.cm, hm.first, fun d hd hp => hm.placed d hd ?_, fun x hx hz => hm.one x hx ((eq x).1 hz),
        fun x hx hz => hm.zero x hx (fun h => hz ((eq x).2 h))⟩, hf⟩
      rcases hp with hp | hp
      · exact Or.inl hp
      · by_cases e : d = c
        · subst e; exact Or.inl ht
        · exact Or.inr (by omega)
    · have q : ¬ ((size c : Int) < thr ∨ (0 : Int) ≠ 0) := by omega
      rw [if_neg q]
      unfold bfsLargeComp
      have eoff : ((start c : Int) + L0.length : Int) = ((L0.length + start c : Nat) : Int) := by push_cast; omega
      have hroom := h.room hc'
      rw [eoff, Script.ok_bind]
      refine Script.Ok.mono (bfsPar_ok h.wf h.sq hT hbig (by omega) hr hnz hm.cm.pat hm.one hm.zero hq0 hq1 hrp hbits ?_) ?_
      · intro l hn hl
        have hsub : l ⊆ compNodes size start node c := fun x hx => (compNodes_mem h.sym h.comps h.cl hc' x).2 (hl x hx)
        have := (List.subperm_of_subset hn hsub).length_le
        rw [compNodes_length] at this
        have := room.inv
        omega
      · rintro r m1 ⟨vis, _, hd⟩
        have hlen := comp_length h.sym h.comps h.cl hc' hd.vis_nodup hd.vis_mem
        rw [Int.toNat_natCast, ← hlen]
        refine bfsNumber_ok hd.vis_nodup hd.vis_mem hd.vis_sorted hd.vis_hold ?_ ?_
        · intro x hx
          have := ((hd.vis_mem x).1 hx).lt h.wf h.sq hr
          have := room.prm
          omega
        · intro _ m2 hp hf2
          have hcf : CompFrame A (root c) (L0.length + start c) (size c) m m2 := by
            intro a i a1 a2 a3
            rw [hf2 a i a3]
            refine hd.frame a i ?_ (by rw [hlen]; exact a2)
            rintro (e | e | e | e) <;> exact a1 (by simp [BfsScr, e])
          have hb : ∀ i, m2 bfsBits i = m1 bfsBits i := fun i => hf2 _ _ (by rintro ⟨e, _⟩; simp at e)
          have eq : ∀ x, MarkedTo A root size thr (c + 1) x ↔ (MarkedTo A root size thr c x ∨ Reaches A (root c) x) := by
            intro x
            constructor
            · rintro (hz | ⟨d, hd, hd2, hz⟩)
              · exact Or.inl (Or.inl hz)
              · by_cases e : d = c
                · subst e; exact Or.inr hz
                · exact Or.inl (Or.inr ⟨d, by omega, hd2, hz⟩)
            · rintro ((hz | ⟨d, hd, hd2, hz⟩) | hz)
              · exact Or.inl hz
              · exact Or.inr ⟨d, by omega, hd2, hz⟩
              · exact Or.inr ⟨c, by omega, by omega, hz⟩
          refine Script.ok_done_of ⟨⟨hm.cm.frame hcf, h.keep0 hc' hcf hm.first, ?_, ?_, ?_⟩, ?_⟩
          · intro d hdn hpd
            by_cases e : d = c
            · subst e; exact ⟨vis, hp⟩
            · obtain ⟨l, hl⟩ := hm.placed d hdn (by omega)
              exact ⟨l, h.keep hc' hdn e hcf hl⟩
          · intro x hx hz; rw [hb]; exact hd.one x hx ((eq x).1 hz)
          · intro x hx hz; rw [hb]; exact hd.zero x hx (fun h => hz ((eq x).2 h))
          · intro a i a1 a2 a3
            rw [hcf a i a1 (fun h => a2 h.1) (fun h => a3 h.1)]
            exact hf a i a1 a2 a3

/-- The arrays `perm` and `inversePerm` in memory. -/
structure BfsOutput (A : Csr R) (perm inv : Nat → Nat) (m : Mem (CTy R)) : Prop where
  perm : ∀ x : Nat, x < A.m → m bfsPrm (x : Int) = some (perm x : Int)
  inv : ∀ p : Nat, p < A.m → m bfsInv (p : Int) = some (inv p : Int)

theorem tail_numbering (h : TailCtx A V nc root size start node L0) {Z : Nat → Prop} {m : Mem (CTy R)}
    (hs : TailSt A k k' base nc root size start node L0 (fun _ => True) Z m) :
    ∃ perm inv, IsBfsNumbering A perm inv ∧ BfsOutput A perm inv m := by
  classical
  have hex : ∀ c, ∃ l, c < nc → Placed A (root c) (L0.length + start c) l m := fun c => by
    by_cases hc : c < nc
    · obtain ⟨l, hl⟩ := hs.placed c hc trivial; exact ⟨l, fun _ => hl⟩
    · exact ⟨[], fun h => absurd h hc⟩
  choose L hL using hex
  have hB := comp_blocks (L := fun b => if b = 0 then L0 else L (b - 1)) h.pos h.hV h.sym h.comps h.cl h.l0 h.l0m
    (fun c hc => by
      rw [if_neg (by omega), Nat.add_sub_cancel]
      exact ⟨(hL c hc).nodup, (hL c hc).mem⟩)
  simp only [if_true] at hB
  let inv : Nat → Nat := fun p => ((m bfsInv (p : Int)).getD (0 : Int) : Int).toNat
  let perm : Nat → Nat := fun x => ((m bfsPrm (x : Int)).getD (0 : Int) : Int).toNat
  have pl : ∀ b, b < nc + 1 → Placed A (if b = 0 then 0 else root (b - 1)) (if b = 0 then 0 else L0.length + start (b - 1))
      (if b = 0 then L0 else L (b - 1)) m := by
    intro b hb
    by_cases e : b = 0
    · simp only [if_pos e]; exact hs.first
    · simp only [if_neg e]; exact hL (b - 1) (by omega)
  refine ⟨perm, inv, hB.numbering h.wf h.sq h.sym (fun b hb => (pl b hb).sorted) ?_ ?_, ?_, ?_⟩
  · intro b j x hb hj
    show ((m bfsInv _).getD (0 : Int) : Int).toNat = x
    rw [(pl b hb).inv j x hj]; rfl
  · intro b j x hb hj
    show ((m bfsPrm _).getD (0 : Int) : Int).toNat = _
    rw [(pl b hb).perm j x hj]; rfl
  · intro x hx
    obtain ⟨b, hb, hr⟩ := hB.cover x hx
    obtain ⟨j, hj, he⟩ := List.getElem_of_mem ((hB.mem b hb x).2 hr)
    have hv := (pl b hb).perm j x (by rw [List.getElem?_eq_getElem hj, he])
    show m bfsPrm (x : Int) = some (((m bfsPrm (x : Int)).getD (0 : Int) : Int).toNat : Int)
    rw [hv]; rfl
  · intro p hp
    obtain ⟨b, j, hb, hj, he⟩ := hB.find h.wf h.sq h.sym hp
    have hv := (pl b hb).inv j _ (List.getElem?_eq_getElem hj)
    rw [← he] at hv
    show m bfsInv (p : Int) = some (((m bfsInv (p : Int)).getD (0 : Int) : Int).toNat : Int)
    rw [hv]; rfl

/-- One component only. -/
theorem single_numbering (wf : A.WF) (hsq : A.n = A.m) (hsym : PatSym A) (hpos : 0 < A.m) (hall : ∀ x, x < A.m → Reaches A 0 x) {m : Mem (CTy R)}
    (hp : Placed A 0 0 L0 m) : ∃ perm inv, IsBfsNumbering A perm inv ∧ BfsOutput A perm inv m := by
  have hB : Blocks A 1 (fun _ => 0) (fun _ => 0) (fun _ => L0) :=
    ⟨fun _ _ => hpos, fun _ _ => hp.nodup, fun _ _ => hp.mem, fun b c h1 h2 h3 => by omega, fun x hx => ⟨0, by omega, hall x hx⟩, rfl, fun b h => by omega⟩
  let inv : Nat → Nat := fun p => ((m bfsInv (p : Int)).getD (0 : Int) : Int).toNat
  let perm : Nat → Nat := fun x => ((m bfsPrm (x : Int)).getD (0 : Int) : Int).toNat
  refine ⟨perm, inv, hB.numbering wf hsq hsym (fun _ _ => hp.sorted) ?_ ?_, ?_, ?_⟩
  · intro b j x hb hj
    show ((m bfsInv _).getD (0 : Int) : Int).toNat = x
    rw [hp.inv j x hj]; rfl
  · intro b j x hb hj
    show ((m bfsPrm _).getD (0 : Int) : Int).toNat = _
    rw [hp.perm j x hj]; rfl
  · intro x hx
    obtain ⟨j, hj, he⟩ := List.getElem_of_mem ((hp.mem x).2 (hall x hx))
    have hv := hp.perm j x (by rw [List.getElem?_eq_getElem hj, he])
    show m bfsPrm (x : Int) = some (((m bfsPrm (x : Int)).getD (0 : Int) : Int).toNat : Int)
    rw [hv]; rfl
  · intro p hp'
    obtain ⟨b, j, hb, hj, he⟩ := hB.find wf hsq hsym hp'
    have hv := hp.inv j _ (List.getElem?_eq_getElem hj)
    rw [← he] at hv
    show m bfsInv (p : Int) = some (((m bfsInv (p : Int)).getD (0 : Int) : Int).toNat : Int)
    rw [hv]; rfl

end SpMP
