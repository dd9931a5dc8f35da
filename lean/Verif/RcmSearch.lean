import Verif.RcmPlace
/-
The search and the placing of a small component of getRCMPermutation.
-/

namespace SpMP
open Spec

variable {R : Type} {sz : CArr → Int} {W Rd : CArr → Int → Prop} {A : Csr R} {k k' : Nat} {s off : Nat} {qo co po : Int} {N : List Nat} {D : Nat → Nat}

/-- What a thread may access while it handles the component of `s` with nodes `N`. -/
structure RcmAcc (A : Csr R) (k s off : Nat) (N : List Nat) (qo co po : Int) (sz : CArr → Int) (W Rd : CArr → Int → Prop) : Prop where
  ser : SerAcc A k qo s sz W Rd
  inv : ∀ i : Int, (A.m : Int) - off - N.length ≤ i → i < (A.m : Int) - off → W bfsInv i ∧ Rd bfsInv i ∧ 0 ≤ i ∧ i < sz bfsInv
  prm : ∀ x : Nat, Reaches A s x → W bfsPrm (x : Int) ∧ (x : Int) < sz bfsPrm
  chd : ∀ i, co ≤ i → i < co + N.length → W rcmChd i ∧ Rd rcmChd i ∧ 0 ≤ i ∧ i < sz rcmChd
  chd0 : 0 ≤ co ∧ co + N.length ≤ sz rcmChd
  pfx : ∀ i, po ≤ i → i ≤ po + N.length + 1 → W rcmPfx i ∧ Rd rcmPfx i ∧ 0 ≤ i ∧ i < sz rcmPfx
  nod : ∀ i, Rd (.itmp 5) i

/-- Cells the placing changes. -/
def RcmCell (A : Csr R) (s off n : Nat) (co : Int) (a : CArr) (i : Int) : Prop :=
  SerL A s a i ∨ (a = rcmChd ∧ co ≤ i ∧ i < co + n) ∨ (a = bfsInv ∧ (A.m : Int) - off - n ≤ i ∧ i < (A.m : Int) - off) ∨
    (a = bfsPrm ∧ ∃ x : Nat, Reaches A s x ∧ i = (x : Int))

theorem CmList.lt_of_pos {out N : List Nat} {r l j x : Nat} (h : CmList A s D out r) (hnd : N.Nodup) (hN : ∀ x, x ∈ N → Reaches A s x)
    (hnear : ∀ y, Reaches A s y → D y < l → y ∈ out) (hj : out[j]? = some x) (hl : j < N.countP (fun y => decide (D y < l))) : D x < l := by
  by_contra hc
  obtain ⟨hjl, he⟩ := List.getElem?_eq_some_iff.1 hj
  have hs : (N.filter fun y => decide (D y < l)).Subperm (out.take j) := by
    refine List.subperm_of_subset (hnd.filter _) ?_
    intro y hy
    rw [List.mem_filter, decide_eq_true_iff] at hy
    obtain ⟨i, hi, rfl⟩ := List.getElem_of_mem (hnear y (hN y hy.1) hy.2)
    by_cases hij : i < j
    · rw [List.mem_take_iff_getElem]
      exact ⟨i, by omega, rfl⟩
    · exfalso
      by_cases e : i = j
      · subst e; rw [he] at hy; exact hc hy.2
      · have := List.pairwise_iff_getElem.1 h.sorted j i hjl hi (by omega)
        rw [he] at this
        have := hy.2
        omega
  have := hs.length_le
  rw [List.length_take, ← List.countP_eq_length_filter] at this
  omega

/-- Between the nodes of level `l`: the children of the first `r` placed nodes have been placed. -/
structure RcmSt (A : Csr R) (s off : Nat) (N : List Nat) (D : Nat → Nat) (co : Int) (m0 : Mem (CTy R)) (l r : Nat) (out : List Nat) (m : Mem (CTy R)) : Prop where
  cm : CmList A s D out r
  held : RcmOut A off out m
  lev : RcmLev A s D out [] m
  near : ∀ x, Reaches A s x → D x ≤ l → x ∈ out
  top : ∀ x ∈ out, D x ≤ l + 1
  frame : ∀ a i, ¬ RcmCell A s off N.length co a i → m a i = m0 a i

theorem CmList.mem_s {out : List Nat} {r : Nat} (h : CmList A s D out r) : s ∈ out := List.mem_of_getElem? h.zero

theorem CmList.length_le {out : List Nat} {r : Nat} (h : CmList A s D out r) (hN : ∀ x, Reaches A s x → x ∈ N) : out.length ≤ N.length :=
  (List.subperm_of_subset h.nodup fun x hx => hN x (h.reach x hx)).length_le

/-- The body of the loop over the nodes of a level. -/
theorem wp_rcmNode (wf : A.WF) (hsq : A.n = A.m) (hs : s < A.m) (hD : ∀ x, Reaches A s x → IsDist A s x (D x)) (hN : ∀ x, x ∈ N ↔ Reaches A s x)
    (hacc : RcmAcc A k s off N qo co po sz W Rd) {srt : List (Int × Int) → List (Int × Int)} (hsrt : SortsByKey srt)
    {m0 m : Mem (CTy R)} (hpat : HoldsPat m0 k 0 A) {l r u : Nat} {out : List Nat} (h : RcmSt A s off N D co m0 l r out m)
    (hu : out[r]? = some u) (hul : D u = l) {Q : Int → Mem (CTy R) → Prop}
    (hQ : ∀ C m', RcmSt A s off N D co m0 l (r + 1) (out ++ C) m' → Q ((off + (out ++ C).length : Nat) : Int) m') :
    wp sz W Rd (do
      let u ← Prog.read (ty := CTy R) bfsInv ((A.m : Int) - ((off + r : Nat) : Int) - 1)
      let n ← rcmChildren k co (u : Int) (l : Int)
      rcmSort k srt co n
      rcmPut A.m co ((off + out.length : Nat) : Int) n
      pure (((off + out.length : Nat) : Int) + n)) m Q := by
  have hrl := (List.getElem?_eq_some_iff.1 hu).1
  have hur : Reaches A s u := h.cm.reach u (List.mem_of_getElem? hu)
  have hol := h.cm.length_le (fun x hx => (hN x).2 hx)
  have pat : ∀ {m'}, (∀ a i, ¬ RcmCell A s off N.length co a i → m' a i = m0 a i) → HoldsPat m' k 0 A := by
    intro m' hf
    refine ⟨fun i hi => ?_, fun i hi => ?_⟩
    · rw [hf _ _ (by rintro (⟨e, _⟩ | ⟨e, _⟩ | ⟨e, _⟩ | ⟨e, _⟩) <;> simp at e)]; exact hpat.rowptr i hi
    · rw [hf _ _ (by rintro (⟨e, _⟩ | ⟨e, _⟩ | ⟨e, _⟩ | ⟨e, _⟩) <;> simp at e)]; exact hpat.colidx i hi
  have hri := hacc.inv ((A.m : Int) - ((off + r : Nat) : Int) - 1) (by omega) (by omega)
  refine wp_rd (u : Int) hri.2.1 (h.held.inv r u hu) ?_
  rw [wp_bind]
  subst hul
  refine wp_rcmChildren wf hsq hs (pat h.frame) hacc.ser.rp hacc.ser.ci hacc.ser.lw hD (fun x hx => (hN x).2 hx)
    (fun i a b => ⟨(hacc.chd i a b).1, (hacc.chd i a b).2.2⟩) hur h.cm.mem_s h.near h.lev ?_
  intro G m1 hGn hGm hGq hGl hGf
  have hGr : ∀ x ∈ G, Reaches A s x := by
    intro x hx
    obtain ⟨j, hj, rfl⟩ := ((hGm x).1 hx).2
    exact hur.trans (.edge hj)
  have hGlen : G.length ≤ N.length := (List.subperm_of_subset hGn fun x hx => (hN x).2 (hGr x hx)).length_le
  have hf1 : ∀ a i, ¬ RcmCell A s off N.length co a i → m1 a i = m0 a i := by
    intro a i hc
    rw [hGf a i (fun h => hc (Or.inl h)) (fun h => hc (Or.inr (Or.inl h))), h.frame a i hc]
  rw [wp_bind]
  have c0 := hacc.chd0
  refine wp_rcmSort wf (pat hf1) hacc.ser.rp hsrt (fun x hx => (hGr x hx).lt wf hsq hs) hGq (fun i a b => hacc.chd i a (by omega)) ⟨c0.1, by omega⟩ ?_
  intro C m2 hCp hCd hCq hCf
  have hCmem : ∀ x, x ∈ C ↔ x ∉ out ∧ Stores A u x := fun x => by rw [hCp.mem_iff]; exact hGm x
  obtain ⟨hcm, hCD⟩ := h.cm.step hD hu h.near h.top ((hCp.nodup_iff).2 hGn) hCmem hCd
  rw [wp_bind, ← hCp.length_eq]
  have hout2 : RcmOut A off out m2 := by
    refine ⟨fun j x hj => ?_, fun j x hj => ?_⟩
    · rw [hCf _ _ (by simp), hGf _ _ (by rintro ⟨e, _⟩; simp at e) (by simp)]; exact h.held.inv j x hj
    · rw [hCf _ _ (by simp), hGf _ _ (by rintro ⟨e, _⟩; simp at e) (by simp)]; exact h.held.perm j x hj
  refine wp_rcmPut (s := s) (n := N.length) hcm.nodup (fun x hx => hGr x (hCp.mem_iff.1 hx)) hout2 hCq (hcm.length_le (fun x hx => (hN x).2 hx))
    (fun i a b => (hacc.chd i a (by rw [hCp.length_eq] at b; omega)).2.1) (fun i a b => ⟨(hacc.inv i a b).1, (hacc.inv i a b).2.2⟩) hacc.prm ?_
  intro m3 ho3 hf3
  rw [wp_pure]
  have e : ((off + out.length : Nat) : Int) + (C.length : Int) = ((off + (out ++ C).length : Nat) : Int) := by
    rw [List.length_append]; push_cast; omega
  rw [e]
  refine hQ C m3 ⟨hcm, ho3, ?_, fun x h1 h2 => List.mem_append_left _ (h.near x h1 h2), ?_, ?_⟩
  · intro x hx
    rw [hf3 _ _ (by simp) (by simp), hCf _ _ (by simp), hGl x hx]
    have : ((x ∈ out ∧ x ≠ s) ∨ x ∈ G) ↔ ((x ∈ out ++ C ∧ x ≠ s) ∨ x ∈ ([] : List Nat)) := by
      rw [List.mem_append, hCp.mem_iff]
      constructor
      · rintro (h1 | h1)
        · exact Or.inl ⟨Or.inl h1.1, h1.2⟩
        · refine Or.inl ⟨Or.inr h1, fun e => ((hGm x).1 h1).1 (by rw [e]; exact h.cm.mem_s)⟩
      · rintro (⟨h1 | h1, h2⟩ | h1)
        · exact Or.inl ⟨h1, h2⟩
        · exact Or.inr h1
        · simp at h1
    simp only [this]
  · intro x hx
    rcases List.mem_append.1 hx with hx | hx
    · exact h.top x hx
    · rw [hCD x hx]
  · intro a i hc
    rw [hf3 a i (fun h => hc (Or.inr (Or.inr (Or.inl h)))) (fun h => hc (Or.inr (Or.inr (Or.inr h)))), hCf a i ?_, hf1 a i hc]
    rintro ⟨h1, h2, h3⟩
    exact hc (Or.inr (Or.inl ⟨h1, h2, by omega⟩))

/-- The number of nodes below level `l`. -/
abbrev below (N : List Nat) (D : Nat → Nat) (l : Nat) : Nat := N.countP (fun y => decide (D y < l))

theorem below_mono (N : List Nat) (D : Nat → Nat) {l l' : Nat} (h : l ≤ l') : below N D l ≤ below N D l' := by
  refine List.countP_mono_left fun x _ hx => ?_
  rw [decide_eq_true_iff] at hx ⊢
  omega

theorem wp_rcmLevel (wf : A.WF) (hsq : A.n = A.m) (hs : s < A.m) (hD : ∀ x, Reaches A s x → IsDist A s x (D x)) (hNd : N.Nodup) (hN : ∀ x, x ∈ N ↔ Reaches A s x)
    (hacc : RcmAcc A k s off N qo co po sz W Rd) {srt : List (Int × Int) → List (Int × Int)} (hsrt : SortsByKey srt)
    {m0 m : Mem (CTy R)} (hpat : HoldsPat m0 k 0 A) {nl l : Nat} (hl : l < nl) (hnl : nl ≤ N.length + 1)
    (hpfx : ∀ l : Nat, l ≤ nl → m0 rcmPfx (po + l) = some (below N D l : Int))
    {out : List Nat} (h : RcmSt A s off N D co m0 l (below N D l) out m) (htop : ∀ x ∈ out, D x ≤ l) {Q : Unit → Mem (CTy R) → Prop}
    (hQ : ∀ out' m', RcmSt A s off N D co m0 (l + 1) (below N D (l + 1)) out' m' → (∀ x ∈ out', D x ≤ l + 1) → Q () m') :
    wp sz W Rd (rcmLevel k A.m srt co po (off : Int) (l : Int)) m Q := by
  have hp : ∀ {m' : Mem (CTy R)} i, (∀ a i, ¬ RcmCell A s off N.length co a i → m' a i = m0 a i) → m' rcmPfx i = m0 rcmPfx i := fun i hf =>
    hf _ _ (by rintro (⟨e, _⟩ | ⟨e, _⟩ | ⟨e, _⟩ | ⟨e, _⟩) <;> simp at e)
  have hlen : out.length = below N D (l + 1) := h.cm.length_eq hNd hN fun x hx => ⟨fun hx => by have := htop x hx; omega, fun hx' => h.near x hx (by omega)⟩
  have hmono := below_mono N D (show l ≤ l + 1 by omega)
  unfold rcmLevel
  have a1 := hacc.pfx (po + (l : Int)) (by omega) (by omega)
  have a2 := hacc.pfx (po + (l : Int) + 1) (by omega) (by omega)
  refine wp_rd _ a1.2.1 (by rw [hp _ h.frame]; exact hpfx l (by omega)) ?_
  refine wp_rd (below N D (l + 1) : Int) a2.2.1 (by rw [hp _ h.frame]; have := hpfx (l + 1) (by omega); rw [show po + (l : Int) + 1 = po + ((l + 1 : Nat) : Int) by omega]; exact this) ?_
  rw [wp_bind, wp_assert]
  refine ⟨by show (below N D l : Int) ≤ (below N D (l + 1) : Int); omega, ?_⟩
  rw [wp_bind]
  refine wp_forN (b := (off : Int)) (lo := below N D l) (hi := below N D (l + 1))
    (fun r w m => ∃ out, w = ((off + out.length : Nat) : Int) ∧ below N D (l + 1) ≤ out.length ∧ RcmSt A s off N D co m0 l r out m)
    hmono ⟨out, ?_, by omega, h⟩ ?_ ?_ rfl rfl
  · show (below N D (l + 1) : Int) + (off : Int) = _
    push_cast; omega
  · rintro r w m1 h1 h2 ⟨out1, rfl, h3, h4⟩
    have hu : out1[r]? = some out1[r] := List.getElem?_eq_getElem (by omega)
    have hul : D out1[r] = l := by
      have b1 := h4.cm.lt_of_pos hNd (fun x hx => (hN x).1 hx) (l := l + 1) (fun y hy hd => h4.near y hy (by omega)) hu h2
      have b2 : ¬ D out1[r] < l := fun hlt => by
        have : r < below N D l := h4.cm.pos_lt (fun x hx => (hN x).2 hx) hu hlt
        omega
      omega
    rw [show (A.m : Int) - ((r : Int) + (off : Int)) - 1 = (A.m : Int) - ((off + r : Nat) : Int) - 1 by omega]
    refine wp_rcmNode wf hsq hs hD hN hacc hsrt hpat h4 hu hul ?_
    intro C m' hst
    refine ⟨out1 ++ C, rfl, ?_, hst⟩
    rw [List.length_append]; omega
  · rintro w m1 ⟨out1, _, h3, h4⟩
    rw [wp_pure]
    refine hQ out1 m1 ⟨h4.cm, h4.held, h4.lev, ?_, fun x hx => by have := h4.top x hx; omega, h4.frame⟩ h4.top
    intro x hx hd
    by_cases e : D x ≤ l
    · exact h4.near x hx e
    · have hdx := hD x hx
      rw [show D x = l + 1 by omega] at hdx
      obtain ⟨_, u, j, hu, hj, rfl⟩ := isDist_succ_iff.1 hdx
      have hur : Reaches A s u := ⟨_, hu.1⟩
      have hDu : D u = l := (hD u hur).unique hu
      obtain ⟨p, hpl, hpe⟩ := List.getElem_of_mem (h4.near u hur (by omega))
      have hpu : out1[p]? = some u := List.getElem?_eq_some_iff.2 ⟨hpl, hpe⟩
      have hplt : p < below N D (l + 1) := h4.cm.pos_lt (fun x hx => (hN x).2 hx) hpu (by omega)
      exact h4.cm.closed p u hplt hpu _ ⟨j, hj, rfl⟩

/-- A small component searched and placed. -/
theorem wp_rcmSearch (wf : A.WF) (hsq : A.n = A.m) (hs : s < A.m) (hNd : N.Nodup) (hN : ∀ x, x ∈ N ↔ Reaches A s x)
    (hacc : RcmAcc A k s off N qo co po sz W Rd) {srt : List (Int × Int) → List (Int × Int)} (hsrt : SortsByKey srt)
    {m0 : Mem (CTy R)} (hpat : HoldsPat m0 k 0 A) (hnodes : HoldsQ m0 5 (off : Int) N) {Q : Unit → Mem (CTy R) → Prop}
    (hQ : ∀ l m, RPlaced A s off l m → (∀ a i, ¬ RcmCell A s off N.length co a i → ¬ SerQ A qo 0 a i → ¬ SerQ A qo 1 a i →
      ¬ (a = rcmPfx ∧ po ≤ i ∧ i ≤ po + N.length + 1) → m a i = m0 a i) → Q () m) :
    wp sz W Rd (rcmSearch k A.m srt qo co po (s : Int) (off : Int) (N.length : Int)) m0 Q := by
  classical
  have hD : ∃ D : Nat → Nat, ∀ x, Reaches A s x → IsDist A s x (D x) := by
    refine ⟨fun x => if h : Reaches A s x then h.dist.choose else 0, fun x hx => ?_⟩
    dsimp only
    rw [dif_pos hx]; exact hx.dist.choose_spec
  obtain ⟨D, hD⟩ := hD
  unfold rcmSearch
  rw [wp_bind]
  refine wp_forN (b := 0) (lo := 0) (hi := N.length)
    (fun n _ m => (∀ j (h : j < N.length), j < n → m bfsLev (N[j] : Int) = some (-1 : Int)) ∧ ∀ a i, ¬ SerL A s a i → m a i = m0 a i)
    (by omega) ⟨fun _ _ h => by omega, fun _ _ _ => rfl⟩ ?_ ?_ (by omega) (by omega)
  · rintro n _ m h1 h2 ⟨h3, h4⟩
    rw [Int.add_zero]
    have hx : Reaches A s N[n] := (hN _).1 (List.getElem_mem _)
    refine wp_rd (N[n] : Int) (hacc.nod _) (by rw [h4 _ _ (by rintro ⟨e, _⟩; simp at e)]; exact hnodes n _ (List.getElem?_eq_getElem h2)) ?_
    have hl := hacc.ser.lw bfsLev (N[n] : Int) ⟨rfl, _, hx, rfl⟩
    refine wp_wr1 hl.1 ⟨by omega, hl.2.2⟩ ⟨fun j hj hjn => ?_, fun a i hai => ?_⟩
    · by_cases e : N[j] = N[n]
      · rw [e]; exact Mem.get_same _ _ _ _
      · have : j ≠ n := by rintro rfl; exact e rfl
        rw [Mem.get_ne _ _ _ _ _ (by omega)]; exact h3 j hj (by omega)
    · rcases Mem.set_cases m bfsLev (N[n] : Int) ((-1 : Int) : CTy R bfsLev) a i with ⟨rfl, rfl⟩ | e
      · exact absurd ⟨rfl, _, hx, rfl⟩ hai
      · exact e.trans (h4 a i hai)
  rintro _ m1 ⟨hm1, hf1⟩
  have pat : ∀ {m'}, (∀ a i, ¬ RcmCell A s off N.length co a i → ¬ SerQ A qo 0 a i → ¬ SerQ A qo 1 a i →
      ¬ (a = rcmPfx ∧ po ≤ i ∧ i ≤ po + N.length + 1) → m' a i = m0 a i) → HoldsPat m' k 0 A := by
    intro m' hf
    refine ⟨fun i hi => ?_, fun i hi => ?_⟩
    · rw [hf _ _ (by rintro (⟨e, _⟩ | ⟨e, _⟩ | ⟨e, _⟩ | ⟨e, _⟩) <;> simp at e) (by rintro ⟨e, _⟩; simp at e) (by rintro ⟨e, _⟩; simp at e) (by simp)]; exact hpat.rowptr i hi
    · rw [hf _ _ (by rintro (⟨e, _⟩ | ⟨e, _⟩ | ⟨e, _⟩ | ⟨e, _⟩) <;> simp at e) (by rintro ⟨e, _⟩; simp at e) (by rintro ⟨e, _⟩; simp at e) (by simp)]; exact hpat.colidx i hi
  have hfr1 : ∀ a i, ¬ RcmCell A s off N.length co a i → ¬ SerQ A qo 0 a i → ¬ SerQ A qo 1 a i →
      ¬ (a = rcmPfx ∧ po ≤ i ∧ i ≤ po + N.length + 1) → m1 a i = m0 a i := fun a i hc _ _ _ => hf1 a i (fun h => hc (Or.inl h))
  rw [wp_bind]
  refine wp_bfsSerial wf hsq hs (pat hfr1) hacc.ser (vo := 0) (Int.le_refl _) (ov := false) (fun h => by simp at h) ?_ ?_
  · intro x hx
    obtain ⟨j, hj, rfl⟩ := List.getElem_of_mem ((hN x).2 hx)
    exact hm1 j hj hj
  intro nl vis m2 hdone
  obtain ⟨dm, xm, hnle, hdm, hmax⟩ := hdone.num
  have hdmN : dm < N.length := dist_lt_length (fun x hx => (hN x).2 hx) hdm
  have hfr2 : ∀ a i, ¬ RcmCell A s off N.length co a i → ¬ SerQ A qo 0 a i → ¬ SerQ A qo 1 a i →
      ¬ (a = rcmPfx ∧ po ≤ i ∧ i ≤ po + N.length + 1) → m2 a i = m0 a i := by
    intro a i hc h1 h2 h3
    rw [hdone.frame a i h1 h2 (fun h => hc (Or.inl h)) (by simp), hfr1 a i hc h1 h2 h3]
  have hlev2 : ∀ x, Reaches A s x → m2 bfsLev (x : Int) = some (D x : Int) := fun x hx => hdone.levels x _ (hD x hx)
  have hDm : ∀ x, Reaches A s x → D x ≤ dm := fun x hx => hmax x _ (hD x hx)
  rw [wp_bind]
  refine wp_rcmPrefix (mm := A.m) (D := D) (N := N) (nl := nl) ?_ (fun x hx => ((hN x).1 hx).lt wf hsq hs) (fun x hx => hlev2 x ((hN x).1 hx))
    (fun x hx => by have := hDm x ((hN x).1 hx); omega) (fun i a b => hacc.pfx i a (by omega)) hacc.nod (fun x hx => (hacc.ser.lw _ _ ⟨rfl, x, (hN x).1 hx, rfl⟩).2.1) ?_
  · intro j x hj
    rw [hfr2 _ _ (by rintro (⟨e, _⟩ | ⟨e, _⟩ | ⟨e, _⟩ | ⟨e, _⟩) <;> simp at e) (by rintro ⟨e, _⟩; simp at e) (by rintro ⟨e, _⟩; simp at e) (by simp)]
    exact hnodes j x hj
  intro m3 hp3 hf3
  have hNpos : 0 < N.length := by omega
  have hi0 := hacc.inv ((A.m : Int) - (off : Int) - 1) (by omega) (by omega)
  have hp0 := hacc.prm s (.refl s)
  refine wp_wr hi0.1 hi0.2.2 ?_
  refine wp_wr hp0.1 ⟨by omega, hp0.2⟩ ?_
  generalize hm4 : (m3.set bfsInv ((A.m : Int) - (off : Int) - 1) (s : Int)).set bfsPrm (s : Int) ((A.m : Int) - (off : Int) - 1 : Int) = m4
  have hne : bfsInv ≠ bfsPrm := by simp
  have hf4 : ∀ a i, ¬ (a = bfsInv ∧ (A.m : Int) - off - N.length ≤ i ∧ i < (A.m : Int) - off) → ¬ (a = bfsPrm ∧ ∃ x : Nat, Reaches A s x ∧ i = (x : Int)) → m4 a i = m3 a i := by
    intro a i h1 h2
    rw [← hm4]
    rcases Mem.set_cases (m3.set bfsInv ((A.m : Int) - (off : Int) - 1) (s : Int)) bfsPrm (s : Int) ((A.m : Int) - (off : Int) - 1 : Int) a i with ⟨rfl, rfl⟩ | e
    · exact absurd ⟨rfl, s, .refl s, rfl⟩ h2
    · rw [e]
      rcases Mem.set_cases m3 bfsInv ((A.m : Int) - (off : Int) - 1) (s : Int) a i with ⟨rfl, rfl⟩ | e
      · exact absurd ⟨rfl, by omega, by omega⟩ h1
      · exact e
  have hfr4 : ∀ a i, ¬ RcmCell A s off N.length co a i → ¬ SerQ A qo 0 a i → ¬ SerQ A qo 1 a i →
      ¬ (a = rcmPfx ∧ po ≤ i ∧ i ≤ po + N.length + 1) → m4 a i = m0 a i := by
    intro a i hc h1 h2 h3
    rw [hf4 a i (fun h => hc (Or.inr (Or.inr (Or.inl h)))) (fun h => hc (Or.inr (Or.inr (Or.inr h)))), hf3 a i ?_, hfr2 a i hc h1 h2 h3]
    rintro ⟨h4, h5, h6⟩
    exact h3 ⟨h4, h5, by omega⟩
  have hpat4 := pat hfr4
  have hpf4 : ∀ l : Nat, l ≤ nl → m4 rcmPfx (po + l) = some (below N D l : Int) := by
    intro l hl
    rw [hf4 _ _ (by simp) (by simp)]
    exact hp3 l hl
  refine wp_forN (b := 0) (lo := 0) (hi := nl)
    (fun l _ m => ∃ out, RcmSt A s off N D co m4 l (below N D l) out m ∧ ∀ x ∈ out, D x ≤ l) (by omega) ⟨[s], ⟨?_, ?_, ?_, ?_, ?_, fun _ _ _ => rfl⟩, ?_⟩ ?_ ?_ (by omega) (by omega)
  · have : below N D 0 = 0 := by unfold below; simp
    rw [this]; exact cmList_init
  · refine ⟨fun j x hj => ?_, fun j x hj => ?_⟩
    · obtain rfl : j = 0 := by have := (List.getElem?_eq_some_iff.1 hj).1; simpa using this
      obtain rfl : s = x := by simpa using hj
      rw [← hm4, Mem.set_other _ _ _ _ _ hne]
      exact Mem.get_same _ _ _ _
    · obtain rfl : j = 0 := by have := (List.getElem?_eq_some_iff.1 hj).1; simpa using this
      obtain rfl : s = x := by simpa using hj
      rw [← hm4]
      exact Mem.get_same _ _ _ _
  · intro x hx
    rw [hf4 _ _ (by simp) (by simp), hf3 _ _ (by simp), hlev2 x hx]
    rw [if_neg (by simp)]
  · intro x hx hd
    have := hD x hx
    rw [show D x = 0 by omega] at this
    rw [isDist_zero_iff.1 this]; simp
  · intro x hx
    rw [List.mem_singleton.1 hx, (hD s (.refl s)).unique isDist_zero]; omega
  · intro x hx
    rw [List.mem_singleton.1 hx, (hD s (.refl s)).unique isDist_zero]
  · rintro l _ m h1 h2 ⟨out, h3, h4⟩
    rw [Int.add_zero]
    exact wp_rcmLevel wf hsq hs hD hNd hN hacc hsrt hpat4 h2 (by omega) hpf4 h3 h4 fun out' m' a b => ⟨out', a, b⟩
  · rintro _ m ⟨out, h3, h4⟩
    have hmem : ∀ x, x ∈ out ↔ Reaches A s x := fun x => ⟨h3.cm.reach x, fun hx => h3.near x hx (by have := hDm x hx; omega)⟩
    refine hQ out m ⟨h3.cm.nodup, hmem, ?_, ?_, h3.held.inv, h3.held.perm⟩ ?_
    · refine List.Pairwise.imp_of_mem ?_ h3.cm.sorted
      intro x y hx hy hxy d e hd he
      rw [← (hD x ((hmem x).1 hx)).unique hd, ← (hD y ((hmem y).1 hy)).unique he]
      exact hxy
    · obtain ⟨F, hF⟩ := h3.cm.firsts
      exact ⟨F, fun q h1 h2 => ⟨(hF.first q h1 h2).1, by have := (hF.first q h1 h2).1; omega, (hF.first q h1 h2).2.2⟩, hF.order⟩
    · intro a i hc h1 h2 h5
      rw [h3.frame a i hc, hfr4 a i hc h1 h2 h5]

end SpMP
