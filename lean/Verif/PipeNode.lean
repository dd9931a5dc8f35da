import Verif.PipeEnv
/-
The pipelined placing of a large component: expanding one node.
-/

namespace SpMP
open Spec

variable {R : Type}

theorem wp_cmSort {sz : CArr → Int} {W Rd : CArr → Int → Prop} {A : Csr R} {k : Nat} {m0 : Mem (CTy R)} (wf : A.WF) (hpat : HoldsPat m0 k 0 A) (hrp : ∀ i, Rd (.rowptr k) i)
    {srt : List (Int × Int) → List (Int × Int)} (hsrt : SortsByKey srt)
    {co : Int} {G : List Nat} (hlt : ∀ x ∈ G, x < A.m) (hq : HoldsQ m0 21 co G)
    (hchd : ∀ i, co ≤ i → i < co + G.length → W rcmChd i ∧ Rd rcmChd i ∧ 0 ≤ i ∧ i < sz rcmChd) (hco : 0 ≤ co ∧ co + G.length ≤ sz rcmChd)
    {Q : Unit → Mem (CTy R) → Prop}
    (hQ : ∀ m, HoldsQ m 21 co (cmSorted A srt G) → (∀ a i, ¬ (a = rcmChd ∧ co ≤ i ∧ i < co + G.length) → m a i = m0 a i) → Q () m) :
    wp sz W Rd (rcmSort k srt co (G.length : Int)) m0 Q := by
  unfold rcmSort
  rw [wp_bind, Int.toNat_natCast]
  have hl : (G.map fun x : Nat => (x : Int)).length = G.length := List.length_map _
  rw [← hl]
  refine wp_readList (G.map fun x : Nat => (x : Int)) co ?_ ?_
  · intro q hqq
    rw [hl] at hqq
    refine ⟨(hchd _ (by omega) (by omega)).2.1, ?_⟩
    rw [List.getElem_map]
    exact hq q _ (List.getElem?_eq_getElem hqq)
  rw [wp_bind]
  refine wp_rcmDegrees hpat wf hrp G hlt ?_
  obtain ⟨h1, _, h3⟩ := cmSorted_spec hsrt A G
  rw [h3]
  have hl' : ((cmSorted A srt G).map fun x : Nat => (x : Int)).length = G.length := by rw [List.length_map, h1.length_eq]
  refine wp_writeList _ co m0 hco.1 (by rw [hl']; exact hco.2) ?_ ?_
  · intro q hqq
    rw [hl'] at hqq
    exact (hchd _ (by omega) (by omega)).1
  · intro m g1 g2
    refine hQ m ?_ ?_
    · intro q x hx
      obtain ⟨hqq, rfl⟩ := List.getElem?_eq_some_iff.1 hx
      have := g1 q (by rw [List.length_map]; exact hqq)
      rw [List.getElem_map] at this
      exact this
    · intro a i h
      exact g2 a i (by rw [hl']; exact h)

namespace PipeEnv

variable {E : PipeEnv R}

/-- A thread's view: the nodes of level `l`+1 not yet collected have their level, `out` and `G` have been collected. -/
def LevSt (E : PipeEnv R) (l : Nat) (out G : List Nat) (m : Mem (CTy R)) : Prop :=
  ∀ x, Reaches E.A E.s x → E.D x = l + 1 → m bfsLev (x : Int) = some (if x ∈ out ∨ x ∈ G then -1 else ((l : Int) + 1))

/-- The cells collecting the children writes. -/
def ColCell (E : PipeEnv R) (t l : Nat) (a : CArr) (i : Int) : Prop :=
  (a = bfsLev ∧ ∃ x : Nat, Reaches E.A E.s x ∧ E.D x = l + 1 ∧ i = (x : Int)) ∨ (a = rcmChd ∧ (t : Int) * E.md ≤ i ∧ i < (t : Int) * E.md + E.md)

theorem eok : E.env.Ok := Start.ok

theorem const_of (a : CArr) (i : Int) (h : a ≠ bfsLev ∧ a ≠ bfsInv ∧ a ≠ bfsPrm ∧ a ≠ rcmWo ∧ a ≠ rcmChd) : E.env.Const a i := by
  intro t _ ho
  rcases own_arr ho with e | e | e | e | e <;> simp [e] at h

theorem cmCol_length {A : Csr R} {D : Nat → Nat} {out : List Nat} {u : Nat} : ∀ n, (cmCol A D out u n).length ≤ n := by
  intro n
  induction n with
  | zero => simp [cmCol]
  | succ n ih =>
    unfold cmCol
    split
    · rw [List.length_append]; simp only [List.length_singleton]; omega
    · omega

section
variable (h : E.Start) {t l : Nat} (ht : t < E.T) (hl : l % E.T = t) {x0 : Nat × Nat}
include h ht hl

/-- Collecting the children of `u`. -/
theorem LB_children {u : Nat} (hu : Reaches E.A E.s u) (hD : E.D u = l) {out : List Nat}
    {m1 : Mem (CTy R)} (hc : ∀ a i, E.env.Const a i → m1 a i = E.m0 a i) (hlev : E.LevSt l out [] m1)
    {Q : Int → Mem (CTy R) → Nat × Nat → Prop}
    (hQ : ∀ m, HoldsQ m 21 ((t : Int) * E.md) (cmCol E.A E.D out u (degree E.A u)) → E.LevSt l out (cmCol E.A E.D out u (degree E.A u)) m →
      (∀ a i, ¬ E.ColCell t l a i → m a i = m1 a i) → Q ((cmCol E.A E.D out u (degree E.A u)).length : Int) m x0) :
    E.env.LB t (rcmChildren E.k ((t : Int) * E.md) (u : Int) (l : Int)) m1 x0 Q := by
  have wf := h.cm.wf
  have hum := h.cm.lt hu
  have hpat : HoldsPat m1 E.k 0 E.A := by
    refine ⟨fun i hi => ?_, fun j hj => ?_⟩
    · rw [hc _ _ (const_of _ _ (by simp))]; exact h.pat.rowptr i hi
    · rw [hc _ _ (const_of _ _ (by simp))]; exact h.pat.colidx j hj
  have hdeg := h.deg u hum
  have hpm := wf.ptr_mono (show u ≤ u + 1 by omega) (show u + 1 ≤ E.A.m by omega)
  unfold rcmChildren
  refine OwnEnv.LB_rd eok ht ((E.A.ptr u : Int)) (Or.inr (const_of _ _ (by simp))) (by have := hpat.rowptr u (by omega); simpa using this) ?_
  refine OwnEnv.LB_rd eok ht ((E.A.ptr (u + 1) : Int)) (Or.inr (const_of _ _ (by simp))) (by have := hpat.rowptr (u + 1) (by omega); simpa using this) ?_
  refine OwnEnv.LB_forN eok ht (b := 0) (lo := E.A.ptr u) (hi := E.A.ptr (u + 1))
    (fun n c m x => x = x0 ∧ c = ((cmCol E.A E.D out u (n - E.A.ptr u)).length : Int) ∧ HoldsQ m 21 ((t : Int) * E.md) (cmCol E.A E.D out u (n - E.A.ptr u)) ∧
      E.LevSt l out (cmCol E.A E.D out u (n - E.A.ptr u)) m ∧ (∀ a i, ¬ E.ColCell t l a i → m a i = m1 a i)) hpm ?_ ?_ ?_ (by omega) (by omega)
  · rw [Nat.sub_self]
    exact ⟨rfl, rfl, fun q x hx => by simp [cmCol] at hx, by simpa [cmCol] using hlev, fun _ _ _ => rfl⟩
  · rintro n c m x h1 h2 ⟨rfl, rfl, hq, hlv, hf⟩
    rw [Int.add_zero]
    obtain ⟨d, rfl⟩ : ∃ d, n = E.A.ptr u + d := ⟨n - E.A.ptr u, by omega⟩
    rw [Nat.add_sub_cancel_left] at hq hlv ⊢
    rw [show E.A.ptr u + d + 1 - E.A.ptr u = d + 1 by omega]
    have hin : E.A.InRow u (E.A.ptr u + d) := ⟨hum, h1, h2⟩
    have hnz := hin.lt_nnz wf
    have hreach : Reaches E.A E.s (E.A.col (E.A.ptr u + d)) := hu.trans (.edge hin)
    have hdle := h.cm.dist_le hu ⟨_, hin, rfl⟩
    have hlen := cmCol_length (A := E.A) (D := E.D) (out := out) (u := u) d
    have hdd : d < degree E.A u := by unfold degree; omega
    refine OwnEnv.LB_rd eok ht ((E.A.col (E.A.ptr u + d) : Int)) (Or.inr (const_of _ _ (by simp)))
      (by rw [hf _ _ (by rintro (⟨h, _⟩ | ⟨h, _⟩) <;> simp at h)]; have := hpat.colidx (E.A.ptr u + d) hnz; simpa using this) ?_
    generalize hv : E.A.col (E.A.ptr u + d) = v at *
    by_cases hDv : E.D v = l + 1
    · obtain ⟨j, hj⟩ := h.at_pos hreach
      have hown : E.Own t bfsLev (v : Int) := .lev j v l hj hDv hl
      refine OwnEnv.LB_rd eok ht _ (Or.inl hown) (hlv v hreach hDv) ?_
      by_cases hcase : v ∈ out ∨ v ∈ cmCol E.A E.D out u d
      · have q : ¬ ((if v ∈ out ∨ v ∈ cmCol E.A E.D out u d then (-1 : Int) else ((l : Int) + 1)) = (l : Int) + 1) := by rw [if_pos hcase]; omega
        rw [if_neg q]
        refine OwnEnv.LB_pure eok ht ?_
        have e : cmCol E.A E.D out u (d + 1) = cmCol E.A E.D out u d := by
          rw [cmCol, if_neg (by rw [hv]; tauto)]
        rw [e]
        exact ⟨rfl, rfl, hq, hlv, hf⟩
      · have q : ((if v ∈ out ∨ v ∈ cmCol E.A E.D out u d then (-1 : Int) else ((l : Int) + 1)) = (l : Int) + 1) := by rw [if_neg hcase]
        rw [if_pos q]
        have e : cmCol E.A E.D out u (d + 1) = cmCol E.A E.D out u d ++ [v] := by
          rw [cmCol, hv, if_pos (by rw [hD]; tauto)]
        have hoc : E.Own t rcmChd ((t : Int) * E.md + ((cmCol E.A E.D out u d).length : Nat)) := .chd _ (by omega)
        have hb : 0 ≤ (t : Int) * E.md := by positivity
        have hb2 : (t : Int) * E.md + E.md ≤ E.sz rcmChd := by
          have : ((t + 1) * E.md : Nat) ≤ E.T * E.md := Nat.mul_le_mul_right _ ht
          have h3 := h.sz_chd
          rw [Nat.add_mul, Nat.one_mul] at this
          have h4 : ((t * E.md + E.md : Nat) : Int) ≤ ((E.T * E.md : Nat) : Int) := by exact_mod_cast this
          push_cast at h4
          omega
        refine OwnEnv.LB_seq eok ht (wp_write.2 ⟨⟨rfl, hoc⟩, by omega, by show _ < E.sz rcmChd; omega, ?_⟩)
        refine OwnEnv.LB_wrx eok ht (((m.set rcmChd ((t : Int) * E.md + ((cmCol E.A E.D out u d).length : Nat)) (v : Int))).set bfsLev (v : Int) (-1 : Int)) x
          ⟨by omega, by show _ < E.sz bfsLev; have := h.cm.lt hreach; have := h.sz_lev; omega⟩ ?_ ?_
        · intro g m2 hI hk ha
          refine ⟨(), Start.inv_set ht hI hown (by simp) ?_ (fun _ _ _ e => by simp at e) (fun _ _ _ e => by simp at e), ?_, Know.set (by simp) hk, ha.set⟩
          · intro y _ _ e
            have : v = y := by omega
            subst this
            rw [Mem.get_same]
          · intro w hw hne
            exact eok.rely_set ht hw hne hown (fun l q hk => hk.set (by simp))
        · refine OwnEnv.LB_pure eok ht ?_
          rw [e]
          refine ⟨rfl, by simp, ?_, ?_, ?_⟩
          · refine HoldsQ.snoc (hq.congr fun i a1 a2 => ?_) ?_
            · rw [Mem.set_other _ _ _ _ _ (by simp), Mem.get_ne _ _ _ _ _ (by omega)]
            · rw [Mem.set_other _ _ _ _ _ (by simp), Mem.get_same]
          · intro y hy hDy
            by_cases hyv : y = v
            · subst hyv
              rw [Mem.get_same, if_pos (Or.inr (by simp))]
            · rw [Mem.get_ne _ _ _ _ _ (by omega), Mem.set_other _ _ _ _ _ (by simp), hlv y hy hDy]
              congr 1
              simp [hyv]
          · intro a i hn
            rw [← hf a i hn]
            rcases Mem.set_cases (m.set rcmChd ((t : Int) * E.md + ((cmCol E.A E.D out u d).length : Nat)) (v : Int)) bfsLev (v : Int) (-1 : Int) a i with ⟨rfl, rfl⟩ | e1
            · exact absurd (Or.inl ⟨rfl, v, hreach, hDv, rfl⟩) hn
            · rw [e1]
              rcases Mem.set_cases m rcmChd ((t : Int) * E.md + ((cmCol E.A E.D out u d).length : Nat)) (v : Int) a i with ⟨rfl, rfl⟩ | e2
              · exact absurd (Or.inr ⟨rfl, by omega, by omega⟩) hn
              · exact e2
    · have e : cmCol E.A E.D out u (d + 1) = cmCol E.A E.D out u d := by
        rw [cmCol, if_neg (by rw [hv, hD]; tauto)]
      refine OwnEnv.LB_rdx eok ht ?_
      intro g m2 hI hk _
      have hin : E.Inv m2 := hI
      rcases hin.lev v hreach with hr | hr
      · refine ⟨_, hr, x, hk, ?_⟩
        have q : ¬ ((-1 : Int) = (l : Int) + 1) := by omega
        rw [if_neg q]
        refine OwnEnv.LB_pure eok ht ?_
        rw [e]
        exact ⟨rfl, rfl, hq, hlv, hf⟩
      · refine ⟨_, hr, x, hk, ?_⟩
        have q : ¬ ((E.D v : Int) = (l : Int) + 1) := by omega
        rw [if_neg q]
        refine OwnEnv.LB_pure eok ht ?_
        rw [e]
        exact ⟨rfl, rfl, hq, hlv, hf⟩
  · rintro c m x ⟨rfl, rfl, hq, hlv, hf⟩
    exact hQ m hq hlv hf

/-- Placing and publishing the nodes `C` from position `w0` on. -/
theorem LB_put (hl1 : l + 1 ≤ E.nl) {w0 : Nat} {C : List Nat} (hC : ∀ i x : Nat, C[i]? = some x → E.L[w0 + i]? = some x ∧ E.D x = l + 1)
    {m1 : Mem (CTy R)} (hwo : m1 rcmWo (16 * ((l : Int) + 1)) = some ((E.off + w0 : Nat) : Int)) (hq : HoldsQ m1 21 ((t : Int) * E.md) C) (hlen : C.length ≤ E.md)
    {Q : Unit → Mem (CTy R) → Nat × Nat → Prop}
    (hQ : ∀ m, m rcmWo (16 * ((l : Int) + 1)) = some ((E.off + (w0 + C.length) : Nat) : Int) →
      (∀ a i, a ≠ bfsInv → a ≠ bfsPrm → ¬ (a = rcmWo ∧ i = 16 * ((l : Int) + 1)) → m a i = m1 a i) → Q () m x0) :
    E.env.LB t (pipePut E.A.m ((t : Int) * E.md) l ((E.off + w0 : Nat) : Int) (C.length : Int)) m1 x0 Q := by
  unfold pipePut
  refine OwnEnv.LB_forN eok ht (b := 0) (lo := 0) (hi := C.length)
    (fun n _ m x => x = x0 ∧ m rcmWo (16 * ((l : Int) + 1)) = some ((E.off + (w0 + n) : Nat) : Int) ∧
      (∀ a i, a ≠ bfsInv → a ≠ bfsPrm → ¬ (a = rcmWo ∧ i = 16 * ((l : Int) + 1)) → m a i = m1 a i)) (by omega) ⟨rfl, hwo, fun _ _ _ _ _ => rfl⟩ ?_ ?_ (by omega) (by omega)
  · rintro n _ m x h1 h2 ⟨rfl, hw, hf⟩
    rw [Int.add_zero]
    obtain ⟨c, hc⟩ : ∃ c, C[n]? = some c := ⟨_, List.getElem?_eq_getElem h2⟩
    obtain ⟨hj, hDc⟩ := hC n c hc
    have hjN := h.pos_lt hj
    have hcr := h.reach hj
    have hcm := h.cm.lt hcr
    obtain ⟨ib1, ib2⟩ := h.ix_bounds hjN
    have eix : (E.A.m : Int) - (((E.off + w0 : Nat) : Int) + (n : Int)) - 1 = E.ix (w0 + n) := by unfold ix; push_cast; omega
    have ewo : ((E.off + w0 : Nat) : Int) + (n : Int) + 1 = ((E.off + (w0 + (n + 1)) : Nat) : Int) := by push_cast; omega
    rw [eix, ewo]
    have o1 : E.Own t bfsInv (E.ix (w0 + n)) := .inv _ c l hj hDc hl
    have o2 : E.Own t bfsPrm (c : Int) := .prm _ c l hj hDc hl
    have o3 : E.Own t rcmWo (16 * ((l : Int) + 1)) := .wo l hl
    refine OwnEnv.LB_rd eok ht (c : Int) (Or.inl (.chd n (by omega))) (by rw [hf _ _ (by simp) (by simp) (by simp)]; exact hq n c hc) ?_
    refine OwnEnv.LB_wrx eok ht (m.set bfsInv (E.ix (w0 + n)) (c : Int)) x ⟨ib1, by show _ < E.sz bfsInv; have := h.sz_inv; omega⟩ ?_ ?_
    · intro g m2 hI hk ha
      refine ⟨(), Start.inv_set ht hI o1 (by simp) (fun _ _ e => by simp at e) ?_ (fun _ _ _ e => by simp at e), ?_, Know.set (by simp) hk, ha.set⟩
      · intro j y hy _ e
        have := ix_inj e
        subst this
        rw [hj] at hy; cases hy
        exact Mem.get_same _ _ _ _
      · intro w hw hne
        exact eok.rely_set ht hw hne o1 (fun l q hk => hk.set (by simp))
    refine OwnEnv.LB_wrx eok ht ((m.set bfsInv (E.ix (w0 + n)) (c : Int)).set bfsPrm (c : Int) (E.ix (w0 + n))) x
      ⟨by omega, by show _ < E.sz bfsPrm; have := h.sz_prm; omega⟩ ?_ ?_
    · intro g m2 hI hk ha
      refine ⟨(), Start.inv_set ht hI o2 (by simp) (fun _ _ e => by simp at e) (fun _ _ _ e => by simp at e) ?_, ?_, Know.set (by simp) hk, ha.set⟩
      · intro j y hy _ e
        have : c = y := by omega
        subst this
        have := h.pos_eq hj hy
        subst this
        exact Mem.get_same _ _ _ _
      · intro w hw hne
        exact eok.rely_set ht hw hne o2 (fun l q hk => hk.set (by simp))
    generalize hm3 : (m.set bfsInv (E.ix (w0 + n)) (c : Int)).set bfsPrm (c : Int) (E.ix (w0 + n)) = m3
    have v1 : m3 bfsInv (E.ix (w0 + n)) = some (c : Int) := by rw [← hm3, Mem.set_other _ _ _ _ _ (by simp), Mem.get_same]
    have v2 : m3 bfsPrm (c : Int) = some (E.ix (w0 + n)) := by rw [← hm3, Mem.get_same]
    have v3 : m3 rcmWo (16 * ((l : Int) + 1)) = some ((E.off + (w0 + n) : Nat) : Int) := by
      rw [← hm3, Mem.set_other _ _ _ _ _ (by simp), Mem.set_other _ _ _ _ _ (by simp)]; exact hw
    have v4 : ∀ a i, a ≠ bfsInv → a ≠ bfsPrm → m3 a i = m a i := by
      intro a i n1 n2
      rw [← hm3, Mem.set_other _ _ _ _ _ n2, Mem.set_other _ _ _ _ _ n1]
    show E.env.LB t (Prog.write rcmWo (16 * ((l : Int) + 1)) ((E.off + (w0 + (n + 1)) : Nat) : Int) >>= fun _ => pure ()) m3 x _
    refine OwnEnv.LB_wrx eok ht (m3.set rcmWo (16 * ((l : Int) + 1)) ((E.off + (w0 + (n + 1)) : Nat) : Int)) x
      ⟨by omega, by show _ < E.sz rcmWo; have := h.sz_wo; omega⟩ ?_ ?_
    · intro g m2 hI hk ha
      have a1 : m2 bfsInv (E.ix (w0 + n)) = some (c : Int) := by rw [ha _ _ (Or.inl o1)]; exact v1
      have a2 : m2 bfsPrm (c : Int) = some (E.ix (w0 + n)) := by rw [ha _ _ (Or.inl o2)]; exact v2
      have a3 : m2 rcmWo (16 * ((l : Int) + 1)) = some ((E.off + (w0 + n) : Nat) : Int) := by rw [ha _ _ (Or.inl o3)]; exact v3
      have hkn : ∀ l' q, E.Know l' q m2 → E.Know l' q (m2.set rcmWo (16 * ((l : Int) + 1)) ((E.off + (w0 + (n + 1)) : Nat) : Int)) := by
        rintro l' q ⟨w, k1, k2⟩
        by_cases e : l' = l + 1
        · subst e
          rw [show (16 * ((l + 1 : Nat) : Int)) = 16 * ((l : Int) + 1) by push_cast; ring] at k1
          rw [a3] at k1
          have k3 : ((E.off + (w0 + n) : Nat) : Int) = ((E.off + w : Nat) : Int) := by injection k1
          refine ⟨w0 + (n + 1), ?_, by omega⟩
          rw [show (16 * ((l + 1 : Nat) : Int)) = 16 * ((l : Int) + 1) by push_cast; ring, Mem.get_same]
        · exact ⟨w, by rw [Mem.get_ne _ _ _ _ _ (by omega)]; exact k1, k2⟩
      refine ⟨(), ?_, ?_, hkn _ _ hk, ha.set⟩
      · have hI2 : E.Inv m2 := hI
        refine ⟨?_, ?_, ?_⟩
        · intro b j hb
          rcases Mem.set_cases m2 rcmWo (16 * ((l : Int) + 1)) ((E.off + (w0 + (n + 1)) : Nat) : Int) b j with ⟨rfl, rfl⟩ | e
          · exact absurd o3 (hb t ht)
          · rw [e]; exact hI2.const b j hb
        · intro y hy
          rw [Mem.set_other _ _ _ _ _ (by simp)]
          exact hI2.lev y hy
        · intro l' hl'
          obtain ⟨w, hpw⟩ := hI2.pub l' hl'
          by_cases e : l' = l + 1
          · subst e
            have k1 := hpw.wo
            rw [show (16 * ((l + 1 : Nat) : Int)) = 16 * ((l : Int) + 1) by push_cast; ring, a3] at k1
            have k3 : ((E.off + (w0 + n) : Nat) : Int) = ((E.off + w : Nat) : Int) := by injection k1
            have k4 : w = w0 + n := by omega
            subst k4
            have hlv := (h.cm.level_iff hj).1 hDc
            refine ⟨w0 + (n + 1), ?_, ?_, ?_, ?_, ?_⟩
            · rw [show (16 * ((l + 1 : Nat) : Int)) = 16 * ((l : Int) + 1) by push_cast; ring, Mem.get_same]
            · have := hpw.lo; omega
            · have := hlv.2; show _ ≤ cmPf E.D E.N (l + 1 + 1); omega
            · intro j y b1 b2 b3
              rw [Mem.set_other _ _ _ _ _ (by simp)]
              by_cases ej : j = w0 + n
              · subst ej; rw [hj] at b3; cases b3; exact a1
              · exact hpw.inv j y b1 (by omega) b3
            · intro j y b1 b2 b3
              rw [Mem.set_other _ _ _ _ _ (by simp)]
              by_cases ej : j = w0 + n
              · subst ej; rw [hj] at b3; cases b3; exact a2
              · exact hpw.prm j y b1 (by omega) b3
          · refine ⟨w, by rw [Mem.get_ne _ _ _ _ _ (by omega)]; exact hpw.wo, hpw.lo, hpw.hi, ?_, ?_⟩
            · intro j y b1 b2 b3
              rw [Mem.set_other _ _ _ _ _ (by simp)]; exact hpw.inv j y b1 b2 b3
            · intro j y b1 b2 b3
              rw [Mem.set_other _ _ _ _ _ (by simp)]; exact hpw.prm j y b1 b2 b3
      · intro w hw hne
        exact eok.rely_set ht hw hne o3 hkn
    · refine OwnEnv.LB_pure eok ht ⟨rfl, Mem.get_same _ _ _ _, ?_⟩
      intro a i n1 n2 n3
      rcases Mem.set_cases m3 rcmWo (16 * ((l : Int) + 1)) ((E.off + (w0 + (n + 1)) : Nat) : Int) a i with ⟨rfl, rfl⟩ | e
      · exact absurd ⟨rfl, rfl⟩ n3
      · rw [e, v4 a i n1 n2]; exact hf a i n1 n2 n3
  · rintro _ m x ⟨rfl, hw, hf⟩
    exact hQ m hw hf

end

end PipeEnv

end SpMP
