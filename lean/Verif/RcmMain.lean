import Verif.RcmSearch
import Verif.BfsAll
/-
getRCMPermutation: one small component, the team, and the whole function.
-/

namespace SpMP
open Spec

variable {R : Type} {sz : CArr → Int} {W Rd : CArr → Int → Prop} {A : Csr R} {k k' T : Nat}
variable {V : Nat → Prop} {nc : Nat} {root size start node : Nat → Nat}

/-- Cells handling component `c` by the thread with these positions may change. -/
def RcmCells (A : Csr R) (s off n : Nat) (qo co po : Int) (a : CArr) (i : Int) : Prop :=
  RcmCell A s off n co a i ∨ SerQ A qo 0 a i ∨ SerQ A qo 1 a i ∨ (a = rcmPfx ∧ po ≤ i ∧ i ≤ po + n + 1)

theorem wp_rcmSmallComp (wf : A.WF) (hsq : A.n = A.m) (hsym : PatSym A) (hnd : NoDup A) {c thr : Nat} {qo co po : Int} {m0 : Mem (CTy R)}
    (hcm : CompMem A k k' 0 nc root size start node m0) (hex : IsComponents V (Reaches A) nc root size start node) (hcl : CcClosed A V) (hc : c < nc)
    (hr : root c < A.m) (hacc : size c < thr → RcmAcc A k (root c) (start c) (compNodes size start node c) qo co po sz W Rd)
    (h3 : ∀ i, Rd (.itmp 3) i) (h4 : ∀ i, Rd (.itmp 4) i) (hk : ∀ i, Rd (.rowptr k') i)
    {srt : List (Int × Int) → List (Int × Int)} (hsrt : SortsByKey srt) {Q : Unit → Mem (CTy R) → Prop}
    (hQ : ∀ m, (size c < thr → ∃ l, RPlaced A (root c) (start c) l m) → (∀ a i, ¬ RcmCells A (root c) (start c) (size c) qo co po a i → m a i = m0 a i) → Q () m) :
    wp sz W Rd (rcmSmallComp k k' A.m thr srt qo co po (c : Int)) m0 Q := by
  have hNl : (compNodes size start node c).length = size c := by simp [compNodes]
  have hNm : ∀ x, x ∈ compNodes size start node c ↔ Reaches A (root c) x := fun x => compNodes_mem hsym hex hcl hc x
  have hNd := compNodes_nodup hex hc
  have hnodes : HoldsQ m0 5 (start c : Int) (compNodes size start node c) := by
    intro j x hj
    obtain ⟨hjl, rfl⟩ := List.getElem?_eq_some_iff.1 hj
    rw [hNl] at hjl
    have := hcm.hnode c j hc hjl
    rw [show (start c : Int) + (j : Int) = ((start c + j : Nat) : Int) by omega, this]
    simp [compNodes]
  unfold rcmSmallComp
  refine wp_rd _ (h3 _) (hcm.hroot c hc) ?_
  refine wp_rd _ (hk _) (hcm.hstart c hc) ?_
  refine wp_rd _ (h4 _) (hcm.hsize c hc) ?_
  by_cases ht : size c < thr
  swap
  · have q : (thr : Int) ≤ (size c : Int) := by omega
    rw [if_pos q, wp_pure]
    exact hQ m0 (fun h => absurd h ht) (fun _ _ _ => rfl)
  have q : ¬ (thr : Int) ≤ (size c : Int) := by omega
  rw [if_neg q, wp_bind]
  have hacc := hacc ht
  have hinv := hacc.inv
  have hprm := hacc.prm
  rw [hNl] at hinv
  have hpos : 0 < size c := by
    rw [← hNl]; exact List.length_pos_of_mem ((hNm _).2 (.refl _))
  have hi0 := hinv ((A.m : Int) - (start c : Int) - 1) (by omega) (by omega)
  have hp0 := hprm (root c) (.refl _)
  refine wp_bfsSingle wf hcm.pat hacc.ser.rp hacc.ser.ci hr ?_
  intro b hb1 hb2
  cases b with
  | true =>
    rw [if_pos rfl]
    have hre : ∀ x, Reaches A (root c) x ↔ x = root c := by
      intro x
      constructor
      · rintro ⟨d, hw⟩
        induction hw with
        | nil => rfl
        | snoc _ h2 ih => subst ih; exact hb1 rfl _ h2
      · rintro rfl; exact .refl _
    refine wp_wr hi0.1 hi0.2.2 ?_
    refine wp_wr1 hp0.1 ⟨by omega, hp0.2⟩ ?_
    refine hQ _ (fun _ => ⟨[root c], by simp, fun x => by rw [hre]; simp, List.pairwise_singleton _ _, ⟨fun _ => 0, ?_, ?_⟩, ?_, ?_⟩) ?_
    · intro q h1 h2; simp at h2; omega
    · intro q q' x x' h1 h2 h3 h4
      have := (List.getElem?_eq_some_iff.1 h3).1
      simp at this; omega
    · intro j x hj
      obtain ⟨hj1, hj2⟩ := List.getElem?_eq_some_iff.1 hj
      obtain rfl : j = 0 := by simp at hj1; omega
      have hj2 : root c = x := hj2
      subst hj2
      rw [Mem.set_other _ _ _ _ _ (by simp), Nat.add_zero, Mem.get_same]
    · intro j x hj
      obtain ⟨hj1, hj2⟩ := List.getElem?_eq_some_iff.1 hj
      obtain rfl : j = 0 := by simp at hj1; omega
      have hj2 : root c = x := hj2
      subst hj2
      rw [Mem.get_same, Nat.add_zero]
    · intro a i hn
      rcases Mem.set_cases (m0.set bfsInv ((A.m : Int) - (start c : Int) - 1) (root c : Int)) bfsPrm (root c : Int) ((A.m : Int) - (start c : Int) - 1 : Int) a i with ⟨rfl, rfl⟩ | e
      · exact absurd (Or.inl (Or.inr (Or.inr (Or.inr ⟨rfl, _, .refl _, rfl⟩)))) hn
      · rw [e]
        rcases Mem.set_cases m0 bfsInv ((A.m : Int) - (start c : Int) - 1) (root c : Int) a i with ⟨rfl, rfl⟩ | e
        · exact absurd (Or.inl (Or.inr (Or.inr (Or.inl ⟨rfl, by omega, by omega⟩)))) hn
        · exact e
  | false =>
    rw [if_neg (by simp), wp_bind]
    refine wp_bfsTwin wf hsq hnd hcm.pat hacc.ser.rp hacc.ser.ci hr (hb2 rfl) ?_ ?_
    · unfold rcmPlaceTwin
      have := wp_rcmSearch (Q := Q) wf hsq hr hNd hNm hacc hsrt hcm.pat hnodes ?_
      · rw [hNl] at this; exact this
      · intro l m h1 h2
        rw [hNl] at h2
        exact hQ m (fun _ => ⟨l, h1⟩) fun a i hn => h2 a i (fun h => hn (Or.inl h)) (fun h => hn (Or.inr (Or.inl h))) (fun h => hn (Or.inr (Or.inr (Or.inl h))))
          (fun h => hn (Or.inr (Or.inr (Or.inr h))))
    · intro u hu
      have hre := hu.reaches
      have hne := hu.ne
      have hlen : size c = 2 := by
        rw [← comp_length hsym hex hcl hc (l := [root c, u]) (by simp; omega) (fun x => by rw [hre]; simp)]; rfl
      unfold rcmPlaceTwin
      have hi1 := hinv ((A.m : Int) - ((start c : Int) + 1) - 1) (by omega) (by omega)
      have hru : Reaches A (root c) u := (hre u).2 (Or.inr rfl)
      have hp1 := hprm u hru
      refine wp_wr hi0.1 hi0.2.2 ?_
      refine wp_wr hi1.1 hi1.2.2 ?_
      refine wp_wr hp0.1 ⟨by omega, hp0.2⟩ ?_
      refine wp_wr1 hp1.1 ⟨by omega, hp1.2⟩ ?_
      refine hQ _ (fun _ => ⟨[root c, u], by simp; omega, fun x => by rw [hre]; simp, ?_, ⟨fun _ => 0, ?_, ?_⟩, ?_, ?_⟩) ?_
      · refine List.pairwise_cons.2 ⟨?_, List.pairwise_singleton _ _⟩
        intro y _ d e h1 _
        have := h1.unique isDist_zero
        omega
      · intro q h1 h2
        obtain rfl : q = 1 := by simp at h2; omega
        refine ⟨by omega, by simp, root c, u, rfl, rfl, ?_, fun p' _ h => by omega⟩
        obtain ⟨j, h5, h6⟩ := hu.adj
        exact ⟨j, h5, h6⟩
      · intro q q' x x' h1 h2 h3 h4
        have := (List.getElem?_eq_some_iff.1 h4).1
        simp at this; omega
      · intro j x hj
        obtain ⟨hj1, hj2⟩ := List.getElem?_eq_some_iff.1 hj
        rw [Mem.set_other _ _ _ _ _ (by simp), Mem.set_other _ _ _ _ _ (by simp)]
        obtain rfl | rfl : j = 0 ∨ j = 1 := by simp at hj1; omega
        · have hj2 : root c = x := hj2
          subst hj2
          rw [Mem.get_ne _ _ _ _ _ (by push_cast; omega), Nat.add_zero, Mem.get_same]
        · have hj2 : u = x := hj2
          subst hj2
          rw [show ((start c + 1 : Nat) : Int) = (start c : Int) + 1 by push_cast; rfl, Mem.get_same]
      · intro j x hj
        obtain ⟨hj1, hj2⟩ := List.getElem?_eq_some_iff.1 hj
        obtain rfl | rfl : j = 0 ∨ j = 1 := by simp at hj1; omega
        · have hj2 : root c = x := hj2
          subst hj2
          rw [Mem.get_ne _ _ _ _ _ (by omega), Nat.add_zero, Mem.get_same]
        · have hj2 : u = x := hj2
          subst hj2
          rw [Mem.get_same]; push_cast; rfl
      · intro a i hn
        have hn1 : ¬ (a = bfsPrm ∧ ∃ x : Nat, Reaches A (root c) x ∧ i = (x : Int)) := fun h => hn (Or.inl (Or.inr (Or.inr (Or.inr h))))
        have hn2 : ¬ (a = bfsInv ∧ (A.m : Int) - start c - size c ≤ i ∧ i < (A.m : Int) - start c) := fun h => hn (Or.inl (Or.inr (Or.inr (Or.inl h))))
        rcases Mem.set_cases (((m0.set bfsInv ((A.m : Int) - (start c : Int) - 1) (root c : Int)).set bfsInv ((A.m : Int) - ((start c : Int) + 1) - 1) (u : Int)).set bfsPrm (root c : Int) ((A.m : Int) - (start c : Int) - 1 : Int))
          bfsPrm (u : Int) ((A.m : Int) - ((start c : Int) + 1) - 1 : Int) a i with ⟨rfl, rfl⟩ | e
        · exact absurd ⟨rfl, _, hru, rfl⟩ hn1
        rw [e]
        rcases Mem.set_cases ((m0.set bfsInv ((A.m : Int) - (start c : Int) - 1) (root c : Int)).set bfsInv ((A.m : Int) - ((start c : Int) + 1) - 1) (u : Int)) bfsPrm (root c : Int) ((A.m : Int) - (start c : Int) - 1 : Int) a i with ⟨rfl, rfl⟩ | e
        · exact absurd ⟨rfl, _, .refl _, rfl⟩ hn1
        rw [e]
        rcases Mem.set_cases (m0.set bfsInv ((A.m : Int) - (start c : Int) - 1) (root c : Int)) bfsInv ((A.m : Int) - ((start c : Int) + 1) - 1) (u : Int) a i with ⟨rfl, rfl⟩ | e
        · exact absurd ⟨rfl, by omega, by omega⟩ hn2
        rw [e]
        rcases Mem.set_cases m0 bfsInv ((A.m : Int) - (start c : Int) - 1) (root c : Int) a i with ⟨rfl, rfl⟩ | e
        · exact absurd ⟨rfl, by omega, by omega⟩ hn2
        · exact e

/-! ### The team -/

/-- Room in the work arrays. -/
structure RcmRoom (A : Csr R) (T thr : Nat) (sz : CArr → Int) : Prop where
  q0 : (A.m : Int) * T ≤ sz (bfsQ 0)
  q1 : (A.m : Int) * T ≤ sz (bfsQ 1)
  lev : (A.m : Int) ≤ sz bfsLev
  inv : (A.m : Int) ≤ sz bfsInv
  prm : (A.m : Int) ≤ sz bfsPrm
  chd : (T : Int) * thr ≤ sz rcmChd
  pfx : (T : Int) * thr + 1 ≤ sz rcmPfx

/-- Cells thread `t` may change. -/
def RcmW (A : Csr R) (nc : Nat) (root size start : Nat → Nat) (thr : Nat) (asg : Nat → Nat) (t : Nat) (a : CArr) (i : Int) : Prop :=
  ∃ c, c < nc ∧ size c < thr ∧ asg c = t ∧ RcmCells A (root c) (start c) (size c) ((t : Int) * A.m) ((t : Int) * thr) ((t : Int) * ((thr : Int) + 1)) a i

/-- Arrays the team only reads. -/
def RcmConst (k k' : Nat) (a : CArr) : Prop := a = .rowptr k ∨ a = .colidx k ∨ a = .itmp 3 ∨ a = .itmp 4 ∨ a = .itmp 5 ∨ a = .rowptr k'

theorem rcm_const_not {A : Csr R} {s off n : Nat} {qo co po : Int} {a : CArr} {i : Int} (h : RcmCells A s off n qo co po a i) : ¬ RcmConst k k' a := by
  rcases h with (⟨rfl, _⟩ | ⟨rfl, _⟩ | ⟨rfl, _⟩ | ⟨rfl, _⟩) | ⟨rfl, _⟩ | ⟨rfl, _⟩ | ⟨rfl, _⟩ <;>
    (rintro (e | e | e | e | e | e) <;> simp at e)

/-- The components are blocks. -/
theorem comps_blocks (hV : ∀ x, V x ↔ x < A.m) (hsym : PatSym A) (h : IsComponents V (Reaches A) nc root size start node) (hcl : CcClosed A V)
    {L : Nat → List Nat} (hL : ∀ c, c < nc → (L c).Nodup ∧ ∀ x, x ∈ L c ↔ Reaches A (root c) x) : Blocks A nc root start L := by
  refine ⟨fun b hb => (hV _).1 (h.root_mem b hb), fun b hb => (hL b hb).1, fun b hb => (hL b hb).2, ?_, ?_, h.start_zero, ?_⟩
  · intro b c hb hc hne hr
    have l1 := h.root_least b _ hb (h.root_mem c hc) hr
    have l2 := h.root_least c _ hc (h.root_mem b hb) (hr.symm hsym)
    rcases Nat.lt_trichotomy b c with g | g | g
    · have := h.root_incr b c g hc; omega
    · exact hne g
    · have := h.root_incr c b g hb; omega
  · intro x hx
    obtain ⟨c, j, hc, hj, he⟩ := h.cover x ((hV x).2 hx)
    exact ⟨c, hc, by have := (h.node_mem c j hc hj).2; rwa [he] at this⟩
  · intro b hb
    rw [h.start_next b hb, comp_length hsym h hcl (show b < nc by omega) (hL b (by omega)).1 (hL b (by omega)).2]

theorem mul_gap {t u : Nat} {M : Int} (hM : 0 ≤ M) (h : t < u) : (t : Int) * M + M ≤ (u : Int) * M := by
  have : ((t : Int) + 1) * M ≤ (u : Int) * M := Int.mul_le_mul_of_nonneg_right (by omega) hM
  rw [Int.add_mul, Int.one_mul] at this
  exact this

/-- Slices of different threads do not meet. -/
theorem slice_disj {t u : Nat} {M i n n' : Int} (hM : 0 ≤ M) (hne : t ≠ u) (h1 : (t : Int) * M ≤ i) (h2 : i < (t : Int) * M + n) (h3 : n ≤ M)
    (h4 : (u : Int) * M ≤ i) (h5 : i < (u : Int) * M + n') (h6 : n' ≤ M) : False := by
  rcases Nat.lt_or_gt_of_ne hne with h | h
  · have := mul_gap hM h; omega
  · have := mul_gap hM h; omega

/-- What the team works on. -/
structure RcmCtx (A : Csr R) (V : Nat → Prop) (nc : Nat) (root size start node : Nat → Nat) (T thr : Nat) (asg : Nat → Nat) : Prop where
  wf : A.WF
  sq : A.n = A.m
  sym : PatSym A
  nodup : NoDup A
  hV : ∀ x, V x ↔ x < A.m
  ex : IsComponents V (Reaches A) nc root size start node
  asg_lt : ∀ c, c < nc → asg c < T
  fits : ∀ c, c < nc → size c < thr → size c + T ≤ thr

variable {thr : Nat} {asg : Nat → Nat}

theorem RcmCtx.closed (h : RcmCtx A V nc root size start node T thr asg) : CcClosed A V := by
  intro x j hx hj
  rw [h.hV] at hx ⊢
  have := h.wf.col_lt _ (hj.lt_nnz h.wf)
  have := h.sq
  omega

theorem RcmCtx.blocks (h : RcmCtx A V nc root size start node T thr asg) : Blocks A nc root start (compNodes size start node) :=
  comps_blocks h.hV h.sym h.ex h.closed fun c hc => ⟨compNodes_nodup h.ex hc, compNodes_mem h.sym h.ex h.closed hc⟩

theorem RcmCtx.le (h : RcmCtx A V nc root size start node T thr asg) {c : Nat} (hc : c < nc) : start c + size c ≤ A.m := by
  have := h.blocks.le h.wf h.sq h.sym hc
  rwa [compNodes_length] at this

theorem RcmCtx.disj (h : RcmCtx A V nc root size start node T thr asg) {c d : Nat} (hc : c < nc) (hd : d < nc) (tc : size c < thr) (td : size d < thr) (hne : asg c ≠ asg d) {a : CArr} {i : Int}
    (h1 : RcmCells A (root c) (start c) (size c) ((asg c : Int) * A.m) ((asg c : Int) * thr) ((asg c : Int) * ((thr : Int) + 1)) a i)
    (h2 : RcmCells A (root d) (start d) (size d) ((asg d : Int) * A.m) ((asg d : Int) * thr) ((asg d : Int) * ((thr : Int) + 1)) a i) : False := by
  have hcd : c ≠ d := by rintro rfl; exact hne rfl
  have hac := h.asg_lt c hc
  have lc := h.le hc
  have ld := h.le hd
  have hfit := h.fits c hc tc
  have hfit2 := h.fits d hd td
  have apart : ∀ x y : Nat, Reaches A (root c) x → Reaches A (root d) y → (x : Int) = (y : Int) → False := by
    intro x y hx hy e
    obtain rfl : x = y := by omega
    exact h.blocks.apart c d hc hd hcd (hx.trans (hy.symm h.sym))
  have ord : start c + size c ≤ start d ∨ start d + size d ≤ start c := by
    rcases Nat.lt_or_gt_of_ne hcd with g | g
    · have := h.blocks.off_mono g hd; rw [compNodes_length] at this; exact Or.inl this
    · have := h.blocks.off_mono g hc; rw [compNodes_length] at this; exact Or.inr this
  rcases h1 with (⟨rfl, x, hx, e1⟩ | ⟨rfl, a1, a2⟩ | ⟨rfl, a1, a2⟩ | ⟨rfl, x, hx, e1⟩) | ⟨rfl, a1, a2⟩ | ⟨rfl, a1, a2⟩ | ⟨rfl, a1, a2⟩
  · rcases h2 with (⟨e, y, hy, e2⟩ | ⟨e, b1, b2⟩ | ⟨e, b1, b2⟩ | ⟨e, y, hy, e2⟩) | ⟨e, b1, b2⟩ | ⟨e, b1, b2⟩ | ⟨e, b1, b2⟩ <;> first | (simp at e; done) | skip
    exact apart x y hx hy (by omega)
  · rcases h2 with (⟨e, y, hy, e2⟩ | ⟨e, b1, b2⟩ | ⟨e, b1, b2⟩ | ⟨e, y, hy, e2⟩) | ⟨e, b1, b2⟩ | ⟨e, b1, b2⟩ | ⟨e, b1, b2⟩ <;> first | (simp at e; done) | skip
    exact slice_disj (by omega) hne a1 a2 (by omega) b1 b2 (by omega)
  · rcases h2 with (⟨e, y, hy, e2⟩ | ⟨e, b1, b2⟩ | ⟨e, b1, b2⟩ | ⟨e, y, hy, e2⟩) | ⟨e, b1, b2⟩ | ⟨e, b1, b2⟩ | ⟨e, b1, b2⟩ <;> first | (simp at e; done) | skip
    omega
  · rcases h2 with (⟨e, y, hy, e2⟩ | ⟨e, b1, b2⟩ | ⟨e, b1, b2⟩ | ⟨e, y, hy, e2⟩) | ⟨e, b1, b2⟩ | ⟨e, b1, b2⟩ | ⟨e, b1, b2⟩ <;> first | (simp at e; done) | skip
    exact apart x y hx hy (by omega)
  · rcases h2 with (⟨e, y, hy, e2⟩ | ⟨e, b1, b2⟩ | ⟨e, b1, b2⟩ | ⟨e, y, hy, e2⟩) | ⟨e, b1, b2⟩ | ⟨e, b1, b2⟩ | ⟨e, b1, b2⟩ <;> first | (simp at e; done) | skip
    exact slice_disj (by omega) hne a1 a2 (by omega) b1 b2 (by omega)
  · rcases h2 with (⟨e, y, hy, e2⟩ | ⟨e, b1, b2⟩ | ⟨e, b1, b2⟩ | ⟨e, y, hy, e2⟩) | ⟨e, b1, b2⟩ | ⟨e, b1, b2⟩ | ⟨e, b1, b2⟩ <;> first | (simp at e; done) | skip
    exact slice_disj (by omega) hne a1 a2 (by omega) b1 b2 (by omega)
  · rcases h2 with (⟨e, y, hy, e2⟩ | ⟨e, b1, b2⟩ | ⟨e, b1, b2⟩ | ⟨e, y, hy, e2⟩) | ⟨e, b1, b2⟩ | ⟨e, b1, b2⟩ | ⟨e, b1, b2⟩ <;> first | (simp at e; done) | skip
    exact slice_disj (n := (size c : Int) + 2) (n' := (size d : Int) + 2) (by omega) hne a1 (by omega) (by omega) b1 (by omega) (by omega)

theorem RcmCtx.acc (h : RcmCtx A V nc root size start node T thr asg) (room : RcmRoom A T thr sz) {c : Nat} (hc : c < nc) (tc : size c < thr) :
    RcmAcc A k (root c) (start c) (compNodes size start node c) ((asg c : Int) * A.m) ((asg c : Int) * thr) ((asg c : Int) * ((thr : Int) + 1)) sz
      (RcmW A nc root size start thr asg (asg c)) (fun a i => RcmW A nc root size start thr asg (asg c) a i ∨ RcmConst k k' a) := by
  have lc := h.le hc
  have hfit := h.fits c hc tc
  have ha := h.asg_lt c hc
  have hr := (h.hV _).1 (h.ex.root_mem c hc)
  have hq0 := room.q0
  have hq1 := room.q1
  have hlev := room.lev
  have hinv := room.inv
  have hprm := room.prm
  have hchd := room.chd
  have hpfx := room.pfx
  have hw : ∀ {a i}, RcmCells A (root c) (start c) (size c) ((asg c : Int) * A.m) ((asg c : Int) * thr) ((asg c : Int) * ((thr : Int) + 1)) a i →
      RcmW A nc root size start thr asg (asg c) a i := fun hh => ⟨c, hc, tc, rfl, hh⟩
  have g1 : (asg c : Int) * A.m + A.m ≤ (A.m : Int) * T := by rw [Int.mul_comm (A.m : Int) T]; exact mul_gap (by omega) ha
  have g2 : (asg c : Int) * thr + thr ≤ (T : Int) * thr := mul_gap (by omega) ha
  have g0 : 0 ≤ (asg c : Int) * A.m := Int.mul_nonneg (by omega) (by omega)
  have g3 : 0 ≤ (asg c : Int) * thr := Int.mul_nonneg (by omega) (by omega)
  have g4 : (asg c : Int) * ((thr : Int) + 1) = (asg c : Int) * thr + asg c := by rw [Int.mul_add, Int.mul_one]
  have xlt : ∀ x, Reaches A (root c) x → x < A.m := fun x hx => hx.lt h.wf h.sq hr
  refine ⟨⟨g0, ?_, ?_, fun i => Or.inr (Or.inl rfl), fun i => Or.inr (Or.inr (Or.inl rfl))⟩, ?_, ?_, ?_, ?_, ?_, fun i => Or.inr (by simp [RcmConst])⟩
  · intro p a i hp hs
    have hcell : RcmW A nc root size start thr asg (asg c) a i := by
      obtain rfl | rfl : p = 0 ∨ p = 1 := by omega
      · exact hw (Or.inr (Or.inl hs))
      · exact hw (Or.inr (Or.inr (Or.inl hs)))
    refine ⟨hcell, Or.inl hcell, ?_⟩
    obtain ⟨rfl, b1, b2⟩ := hs
    obtain rfl | rfl : p = 0 ∨ p = 1 := by omega
    · omega
    · omega
  · intro a i hs
    have hcell := hw (Or.inl (Or.inl hs))
    refine ⟨hcell, Or.inl hcell, ?_⟩
    obtain ⟨rfl, x, hx, rfl⟩ := hs
    have := xlt x hx
    omega
  · intro i b1 b2
    rw [compNodes_length] at b1
    have hcell := hw (a := bfsInv) (i := i) (Or.inl (Or.inr (Or.inr (Or.inl ⟨rfl, b1, b2⟩))))
    exact ⟨hcell, Or.inl hcell, by omega, by omega⟩
  · intro x hx
    have := xlt x hx
    exact ⟨hw (Or.inl (Or.inr (Or.inr (Or.inr ⟨rfl, x, hx, rfl⟩)))), by omega⟩
  · intro i b1 b2
    rw [compNodes_length] at b2
    have hcell := hw (a := rcmChd) (i := i) (Or.inl (Or.inr (Or.inl ⟨rfl, b1, b2⟩)))
    exact ⟨hcell, Or.inl hcell, by omega, by omega⟩
  · rw [compNodes_length]; exact ⟨g3, by omega⟩
  · intro i b1 b2
    rw [compNodes_length] at b2
    have hcell := hw (a := rcmPfx) (i := i) (Or.inr (Or.inr (Or.inr ⟨rfl, b1, b2⟩)))
    exact ⟨hcell, Or.inl hcell, by omega, by omega⟩

theorem CompMem.rcm_frame {m m' : Mem (CTy R)} (h : CompMem A k k' 0 nc root size start node m) (hf : ∀ a i, RcmConst k k' a → m' a i = m a i) :
    CompMem A k k' 0 nc root size start node m' := by
  refine ⟨⟨fun i hi => ?_, fun i hi => ?_⟩, fun c hc => ?_, fun c hc => ?_, fun c hc => ?_, fun c j hc hj => ?_⟩
  · rw [hf _ _ (by simp [RcmConst])]; exact h.pat.rowptr i hi
  · rw [hf _ _ (by simp [RcmConst])]; exact h.pat.colidx i hi
  · rw [hf _ _ (by simp [RcmConst])]; exact h.hroot c hc
  · rw [hf _ _ (by simp [RcmConst])]; exact h.hsize c hc
  · rw [hf _ _ (by simp [RcmConst])]; exact h.hstart c hc
  · rw [hf _ _ (by simp [RcmConst])]; exact h.hnode c j hc hj

/-- One thread of the team. -/
theorem wp_rcmThread (h : RcmCtx A V nc root size start node T thr asg) (room : RcmRoom A T thr sz) {srt : List (Int × Int) → List (Int × Int)} (hsrt : SortsByKey srt)
    {m0 : Mem (CTy R)} (hcm : CompMem A k k' 0 nc root size start node m0) {t : Nat} {Q : Unit → Mem (CTy R) → Prop}
    (hQ : ∀ m, (∀ c, c < nc → size c < thr → asg c = t → ∃ l, RPlaced A (root c) (start c) l m) → Q () m) :
    wp sz (RcmW A nc root size start thr asg t) (fun a i => RcmW A nc root size start thr asg t a i ∨ RcmConst k k' a) (rcmThread k k' A.m thr srt asg nc t) m0 Q := by
  unfold rcmThread
  refine wp_forN (b := 0) (lo := 0) (hi := nc)
    (fun c _ m => (∀ d, d < c → size d < thr → asg d = t → ∃ l, RPlaced A (root d) (start d) l m) ∧ ∀ a i, RcmConst k k' a → m a i = m0 a i)
    (by omega) ⟨fun _ hh => by omega, fun _ _ _ => rfl⟩ ?_ (fun _ m hh => hQ m hh.1) (by omega) (by omega)
  rintro c _ m _ hc ⟨h1, h2⟩
  rw [Int.add_zero, Int.toNat_natCast]
  by_cases e : asg c = t
  swap
  · rw [if_neg e, wp_pure]
    refine ⟨fun d hd td ed => ?_, h2⟩
    by_cases e' : d = c
    · subst e'; exact absurd ed e
    · exact h1 d (by omega) td ed
  rw [if_pos e]
  subst e
  have hcm' := hcm.rcm_frame h2
  have hr := (h.hV _).1 (h.ex.root_mem c hc)
  have lc := h.le hc
  refine wp_rcmSmallComp h.wf h.sq h.sym h.nodup hcm' h.ex h.closed hc hr (fun tc => h.acc room hc tc) (fun i => Or.inr (by simp [RcmConst])) (fun i => Or.inr (by simp [RcmConst]))
    (fun i => Or.inr (by simp [RcmConst])) hsrt ?_
  intro m' hp hf
  have htp : 0 < T := by have := h.asg_lt c hc; omega
  refine ⟨fun d hd td ed => ?_, fun a i ha => ?_⟩
  · by_cases e' : d = c
    · subst e'; exact hp td
    · obtain ⟨l, hl⟩ := h1 d (by omega) td ed
      have hdn : d < nc := by omega
      have hll : l.length = size d := comp_length h.sym h.ex h.closed hdn hl.nodup hl.mem
      refine ⟨l, hl.congr (fun i b1 b2 => hf _ _ ?_) (fun x hx => hf _ _ ?_)⟩
      · rintro ((⟨e1, _⟩ | ⟨e1, _⟩ | ⟨_, b3, b4⟩ | ⟨e1, _⟩) | ⟨e1, _⟩ | ⟨e1, _⟩ | ⟨e1, _⟩) <;> first | (simp at e1; done) | skip
        have := h.blocks.off_mono (show d < c by omega) hc
        rw [compNodes_length] at this
        omega
      · rintro ((⟨e1, _⟩ | ⟨e1, _⟩ | ⟨e1, _⟩ | ⟨_, y, hy, ey⟩) | ⟨e1, _⟩ | ⟨e1, _⟩ | ⟨e1, _⟩) <;> first | (simp at e1; done) | skip
        obtain rfl : x = y := by omega
        exact h.blocks.apart d c hdn hc e' (hx.trans (hy.symm h.sym))
  · rw [hf a i (fun hh => rcm_const_not hh ha)]; exact h2 a i ha

end SpMP
