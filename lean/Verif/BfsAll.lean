import Verif.BfsMain
/-
getBFSPermutation as a whole.
-/

namespace SpMP
open Spec

variable {R : Type} {sz : CArr → Int} {A : Csr R} {k k' base T : Nat}

/-- The arrays getBFSPermutation uses. -/
def BfsArr (k' : Nat) (a : CArr) : Prop := a = .rowptr k' ∨ ∃ j, a = .itmp j

theorem bfs_not_scr {k' : Nat} {a : CArr} (h : ¬ BfsArr k' a) : ¬ BfsScr a ∧ a ≠ bfsInv ∧ a ≠ bfsPrm ∧ ¬ CcArr k' a := by
  refine ⟨?_, fun e => h (Or.inr ⟨_, e⟩), fun e => h (Or.inr ⟨_, e⟩), ?_⟩
  · rintro (e | e | e | e | e) <;> exact h (Or.inr ⟨_, e⟩)
  · rintro (e | ⟨j, _, e⟩)
    · exact h (Or.inl e)
    · exact h (Or.inr ⟨j, e⟩)

/-- Exact components in the sense of `Reaches`. -/
theorem exact_comps {V : Nat → Prop} {E : Nat → Nat → Prop} {nc : Nat} {root size start node : Nat → Nat}
    (hc : IsComponents V E nc root size start node) (hE : ∀ x y, V x → V y → (E x y ↔ Reaches A x y)) :
    IsComponents V (Reaches A) nc root size start node :=
  ⟨hc.root_mem, fun c x h1 h2 h3 => hc.root_least c x h1 h2 ((hE _ _ (hc.root_mem c h1) h2).2 h3), hc.root_incr, hc.start_zero, hc.start_next,
    fun c j h1 h2 => ⟨(hc.node_mem c j h1 h2).1, (hE _ _ (hc.root_mem c h1) (hc.node_mem c j h1 h2).1).1 (hc.node_mem c j h1 h2).2⟩, hc.node_incr, hc.cover⟩

/-- The loops over components, from exact components on, for any team. -/
theorem bfsTail_ok {V : Nat → Prop} {nc : Nat} {root size start node : Nat → Nat} {L0 : List Nat} (h : TailCtx A V nc root size start node L0)
    (hT : 1 ≤ T) (hbig : 2 ≤ T * A.m) (room : BfsRoom A sz)
    (hq0 : (T : Int) * A.m ≤ sz (bfsQ 0)) (hq1 : (T : Int) * A.m ≤ sz (bfsQ 1)) (hrp : (T : Int) * A.m ≤ sz bufA) (hbits : (A.m : Int) ≤ sz bfsBits)
    {thr : Nat} {m0 : Mem (CTy R)} (hs : TailSt A k k' base nc root size start node L0 (fun _ => False) (Reaches A 0) m0) :
    (Script.seq sz (bfsSmall k k' base A.m thr nc (L0.length : Int)) fun _ => bfsLarge sz k k' base T A.m thr (L0.length : Int) nc).Ok m0
      (fun _ m => (∃ perm inv, IsBfsNumbering A perm inv ∧ BfsOutput A perm inv m) ∧ TailFrame m0 m) := by
  refine seq_rule ?_
  refine bfsSmall_ok h room hs ?_
  intro m1 h1 hf1
  refine Script.Ok.mono (bfsLarge_ok h hT hbig room hq0 hq1 hrp hbits h1 nc (Nat.le_refl _)) ?_
  rintro _ m2 ⟨h2, hf2⟩
  refine ⟨tail_numbering h ⟨h2.cm, h2.first, fun c hc _ => h2.placed c hc (Or.inr hc), h2.one, h2.zero⟩, fun a i a1 a2 a3 => ?_⟩
  rw [hf2 a i a1 a2 a3, hf1 a i a1 a2 a3]

theorem bfsRest_ok (wf : A.WF) (hsq : A.n = A.m) (hpos : 0 < A.m) (hsym : PatSym A) (hnd : NoDup A) (hkk : k' ≠ k) (hT : T = 1) (hbig : 2 ≤ T * A.m)
    {thr : Nat} {L0 : List Nat} {m0 : Mem (CTy R)} (hpat : HoldsPat m0 k base A) (hp : Placed A 0 0 L0 m0) (hlen : L0.length ≠ A.m)
    (hone : ∀ x, x < A.m → Reaches A 0 x → m0 bfsBits (x : Int) = some (1 : Int))
    (hzero : ∀ x, x < A.m → ¬ Reaches A 0 x → m0 bfsBits (x : Int) = some (0 : Int)) :
    (bfsRest (bfsSize sz A.m T) T k k' base A.m thr (L0.length : Int)).Ok m0
      (fun _ m => (∃ perm inv, IsBfsNumbering A perm inv ∧ BfsOutput A perm inv m) ∧ ∀ a i, ¬ BfsArr k' a → m a i = m0 a i) := by
  classical
  unfold bfsRest
  refine seq_rule ?_
  let l : List Int := (List.range A.m).map (fun x => if Reaches A 0 x then 1 else 0)
  have hll : l.length = A.m := by simp [l]
  have key : ∀ {Q : List Int → Mem (CTy R) → Prop}, Q l m0 → wp (bfsSize sz A.m T) (fun _ _ => True) (fun _ _ => True) (readList (R := R) 13 0 A.m) m0 Q := by
    intro Q hQ
    have := wp_readList (sz := bfsSize sz A.m T) (W := fun _ _ => True) (Rd := fun _ _ => True) (j := 13) (m := m0) l 0 (Q := Q) ?_ hQ
    · rwa [hll] at this
    · intro q hq
      refine ⟨trivial, ?_⟩
      rw [hll] at hq
      rw [Int.zero_add]
      have e : l[q] = if Reaches A 0 q then 1 else 0 := by simp [l]
      rw [e]
      by_cases hr : Reaches A 0 q
      · rw [if_pos hr]; exact hone q hq hr
      · rw [if_neg hr]; exact hzero q hq hr
  refine key ?_
  dsimp only
  generalize hbv : (fun i : Nat => decide (l[i]?.getD (0 : Int) ≠ (0 : Int))) = bv
  have hV : ∀ x, ccV true bv A.m x ↔ x < A.m ∧ ¬ Reaches A 0 x := by
    intro x
    unfold ccV
    refine and_congr_right fun hx => ?_
    have e : l[x]? = some (if Reaches A 0 x then 1 else 0) := by
      simp [l, hx]
    rw [← hbv]
    by_cases hr : Reaches A 0 x
    · simp [e, hr]
    · simp [e, hr]
  have hne : ∃ x, ccV true bv A.m x := by
    by_contra hno
    apply hlen
    have hperm : L0.Perm (List.range A.m) := by
      rw [List.perm_ext_iff_of_nodup hp.nodup List.nodup_range]
      intro x
      rw [hp.mem, List.mem_range]
      constructor
      · intro h; exact h.lt wf hsq hpos
      · intro hx
        by_contra hr
        exact hno ⟨x, (hV x).2 ⟨hx, hr⟩⟩
    rw [hperm.length_eq, List.length_range]
  have hcl : CcClosed A (ccV true bv A.m) := by
    intro x j hx hj
    rw [hV] at hx ⊢
    have := wf.col_lt _ (hj.lt_nnz wf)
    exact ⟨by omega, fun hr => hx.2 (hr.trans ((Reaches.edge hj).symm hsym))⟩
  rw [Script.ok_bind]
  refine Script.Ok.mono (findComponents_ok wf hpat hkk hcl hne (by omega)) ?_
  rintro nc m1 ⟨E, root, size, start, node, hd⟩
  have hex := exact_comps (A := A) hd.comps (fun x y hx hy =>
    ⟨fun h => (linked_iff_reaches hsym hcl hx).1 (hd.sound x y hx hy h), fun h => hd.exact hT x y hx hy ((linked_iff_reaches hsym hcl hx).2 h)⟩)
  have hkeep : ∀ j i, 9 ≤ j → m1 (.itmp j) i = m0 (.itmp j) i := by
    intro j i hj
    refine hd.frame _ _ ?_
    rintro (e | ⟨j', h1, e⟩)
    · exact absurd e (by simp)
    · injection e with e; omega
  have hctx : TailCtx A (ccV true bv A.m) nc root size start node L0 := ⟨wf, hsq, hpos, hsym, hnd, hV, hex, hp.nodup, hp.mem⟩
  have hpat1 : HoldsPat m1 k base A := by
    constructor
    · intro i hi
      rw [hd.frame _ _ ?_]
      · exact hpat.rowptr i hi
      · rintro (e | ⟨j', h1, e⟩)
        · injection e with e; exact hkk e.symm
        · exact absurd e (by simp)
    · intro i hi
      rw [hd.frame _ _ ?_]
      · exact hpat.colidx i hi
      · rintro (e | ⟨j', h1, e⟩) <;> exact absurd e (by simp)
  have hst : TailSt A k k' base nc root size start node L0 (fun _ => False) (Reaches A 0) m1 :=
    ⟨⟨hpat1, hd.hroot, hd.hsize, hd.hstart, hd.hnode⟩, hp.congr (fun i _ _ => hkeep _ _ (by omega)) (fun x _ => hkeep _ _ (by omega)), fun _ _ h => h.elim,
      fun x hx hr => by rw [hkeep _ _ (by omega)]; exact hone x hx hr, fun x hx hr => by rw [hkeep _ _ (by omega)]; exact hzero x hx hr⟩
  have hmt : (A.m : Int) ≤ (A.m : Int) * T := by rw [hT]; omega
  refine Script.Ok.mono (bfsTail_ok hctx (by omega) hbig ⟨hmt, hmt, Int.le_refl _, Int.le_refl _, Int.le_refl _⟩
    (by rw [Int.mul_comm]; exact Int.le_refl _) (by rw [Int.mul_comm]; exact Int.le_refl _) (Int.le_refl _) (Int.le_refl _) hst) ?_
  rintro _ m2 ⟨h1, h2⟩
  refine ⟨h1, fun a i ha => ?_⟩
  obtain ⟨a1, a2, a3, a4⟩ := bfs_not_scr ha
  rw [h2 a i a1 a2 a3, hd.frame a i a4]

/-- The whole function, when one search reaches every node or the team has one thread. -/
theorem bfsPermutation_ok (wf : A.WF) (hsq : A.n = A.m) (hsym : PatSym A) (hT : 1 ≤ T) (hbig : 2 ≤ T * A.m)
    (hcase : (∀ x, x < A.m → Reaches A 0 x) ∨ (T = 1 ∧ NoDup A ∧ k' ≠ k)) {thr : Nat} {m0 : Mem (CTy R)} (hpat : HoldsPat m0 k base A) :
    (bfsPermutation sz T k k' base A.m thr).Ok m0
      (fun _ m => (∃ perm inv, IsBfsNumbering A perm inv ∧ BfsOutput A perm inv m) ∧ ∀ a i, ¬ BfsArr k' a → m a i = m0 a i) := by
  have hpos : 0 < A.m := by
    rcases Nat.eq_zero_or_pos A.m with e | e
    · rw [e, Nat.mul_zero] at hbig; omega
    · exact e
  unfold bfsPermutation
  dsimp only
  refine par_rule (W := fun t a i => a = bfsBits ∧ i = (t : Int)) (R := fun t a i => a = bfsBits ∧ i = (t : Int))
    (Q := fun t _ m => m bfsBits (t : Int) = some (0 : Int)) ?_ ?_ ?_
  · rintro t u a i _ _ hne ⟨_, rfl⟩ ⟨_, e⟩; omega
  · intro t ht
    refine wp_wr1 ⟨rfl, rfl⟩ ⟨by omega, ?_⟩ (Mem.get_same _ _ _ _)
    show (t : Int) < (A.m : Int)
    omega
  intro _ m1 h1 h2
  have hb0 : ∀ x, x < A.m → m1 bfsBits (x : Int) = some (0 : Int) := by
    intro x hx
    obtain ⟨mt, h3, h4⟩ := h1 x hx
    rw [h4 _ _ ⟨rfl, rfl⟩]; exact h3
  have hf1 : ∀ a i, a ≠ bfsBits → m1 a i = m0 a i := fun a i ha => h2 a i (fun t _ h => ha h.1)
  have hpat1 : HoldsPat m1 k base A :=
    ⟨fun i hi => by rw [hf1 _ _ (by simp)]; exact hpat.rowptr i hi, fun i hi => by rw [hf1 _ _ (by simp)]; exact hpat.colidx i hi⟩
  rw [Script.ok_bind]
  refine Script.Ok.mono (bfsPar_ok (off := 0) (s := 0) (Z := fun _ => False) wf hsq hT hbig (by omega) hpos (fun _ _ h => h) hpat1 (fun _ _ h => h.elim)
    (fun x hx _ => hb0 x hx) (by rw [Int.mul_comm]; exact Int.le_refl _) (by rw [Int.mul_comm]; exact Int.le_refl _) (Int.le_refl _) (Int.le_refl _) ?_) ?_
  · intro l hn hl
    have := bfs_len_le wf hsq hpos hn hl
    show (0 : Int) + l.length ≤ (A.m : Int)
    omega
  rintro r m2 ⟨vis, hr, hd⟩
  rw [hr, Int.toNat_natCast]
  refine bfsNumber_ok (s := 0) (off := 0) hd.vis_nodup hd.vis_mem hd.vis_sorted hd.vis_hold ?_ ?_
  · intro x hx
    have := ((hd.vis_mem x).1 hx).lt wf hsq hpos
    show (x : Int) < (A.m : Int)
    omega
  intro _ m3 hp hf3
  have hfr : ∀ a i, ¬ BfsArr k' a → m3 a i = m0 a i := by
    intro a i ha
    obtain ⟨a1, a2, a3, _⟩ := bfs_not_scr ha
    rw [hf3 a i (fun h => a3 h.1), hd.frame a i (by rintro (e | e | e | e) <;> exact a1 (by simp [BfsScr, e])) (fun h => a2 h.1),
      hf1 a i (fun e => a1 (by simp [BfsScr, e]))]
  by_cases hm : (vis.length : Int) = A.m
  · rw [if_pos hm]
    refine Script.ok_done_of ⟨single_numbering wf hsq hsym hpos ?_ hp, hfr⟩
    intro x hx
    rw [← hd.vis_mem]
    have hsub : vis.Subperm (List.range A.m) := List.subperm_of_subset hd.vis_nodup fun y hy =>
      List.mem_range.2 (((hd.vis_mem y).1 hy).lt wf hsq hpos)
    exact ((hsub.perm_of_length_le (by rw [List.length_range]; omega)).mem_iff).2 (List.mem_range.2 hx)
  · rw [if_neg hm]
    rcases hcase with hall | ⟨hT1, hnd, hkk⟩
    · exfalso
      apply hm
      have hperm : vis.Perm (List.range A.m) := by
        rw [List.perm_ext_iff_of_nodup hd.vis_nodup List.nodup_range]
        intro x
        rw [hd.vis_mem, List.mem_range]
        exact ⟨fun h => h.lt wf hsq hpos, hall x⟩
      rw [hperm.length_eq, List.length_range]
    · have hb3 : ∀ i, m3 bfsBits i = m2 bfsBits i := fun i => hf3 _ _ (by rintro ⟨e, _⟩; simp at e)
      have hpat3 : HoldsPat m3 k base A := by
        have hfp : ∀ a i, (∀ j, a ≠ .itmp j) → m3 a i = m0 a i := by
          intro a i ha
          rw [hf3 a i (fun h => ha _ h.1), hd.frame a i (by rintro (e | e | e | e) <;> exact ha _ e) (fun h => ha _ h.1), hf1 a i (ha _)]
        exact ⟨fun i hi => by rw [hfp _ _ (by simp)]; exact hpat.rowptr i hi, fun i hi => by rw [hfp _ _ (by simp)]; exact hpat.colidx i hi⟩
      refine Script.Ok.mono (bfsRest_ok wf hsq hpos hsym hnd hkk hT1 hbig hpat3 hp (by omega) ?_ ?_) ?_
      · intro x hx hr; rw [hb3]; exact hd.one x hx (Or.inr hr)
      · intro x hx hr; rw [hb3]; exact hd.zero x hx (by rintro (h | h); exact h; exact hr h)
      · rintro _ m4 ⟨g1, g2⟩
        exact ⟨g1, fun a i ha => by rw [g2 a i ha, hfr a i ha]⟩

end SpMP
