import Verif.BfsLevel
/-
The serial breadth-first search.
-/

namespace SpMP
open Spec

variable {R : Type} {sz : CArr → Int} {W Rd : CArr → Int → Prop} {A : Csr R} {k base : Nat} {s : Nat} {o : Int}

/-- Cells of queue `p` of the searching thread, and levels of the nodes of the component. -/
def SerQ (A : Csr R) (o : Int) (p : Nat) (a : CArr) (i : Int) : Prop := a = bfsQ p ∧ o ≤ i ∧ i < o + A.m
def SerL (A : Csr R) (s : Nat) (a : CArr) (i : Int) : Prop := a = bfsLev ∧ ∃ x : Nat, Reaches A s x ∧ i = (x : Int)

/-- What the search may access. -/
structure SerAcc (A : Csr R) (k : Nat) (o : Int) (s : Nat) (sz : CArr → Int) (W Rd : CArr → Int → Prop) : Prop where
  o0 : 0 ≤ o
  qw : ∀ p a i, p < 2 → SerQ A o p a i → W a i ∧ Rd a i ∧ i < sz a
  lw : ∀ a i, SerL A s a i → W a i ∧ Rd a i ∧ i < sz a
  rp : ∀ i, Rd (.rowptr k) i
  ci : ∀ i, Rd (.colidx k) i

/-- The expansion of level `lev` into queue `p`; `G` are the new nodes. -/
structure SerMid (A : Csr R) (o : Int) (s lev p : Nat) (m1 : Mem (CTy R)) (G : List Nat) (m : Mem (CTy R)) : Prop where
  queue : HoldsQ m (10 + p) o G
  nodup : G.Nodup
  mem : ∀ x ∈ G, IsDist A s x (lev + 1)
  near : ∀ x d, IsDist A s x d → d ≤ lev → m bfsLev (x : Int) = some (d : Int)
  new : ∀ x ∈ G, m bfsLev (x : Int) = some ((lev + 1 : Nat) : Int)
  rest : ∀ x, Reaches A s x → ¬ Near A s lev x → x ∉ G → m bfsLev (x : Int) = some (-1 : Int)
  frame : ∀ a i, ¬ SerQ A o p a i → ¬ SerL A s a i → m a i = m1 a i

theorem wp_bfsSerialRow (wf : A.WF) (hsq : A.n = A.m) (hs : s < A.m) {m1 : Mem (CTy R)} (hpat : HoldsPat m1 k base A)
    (hacc : SerAcc A k o s sz W Rd) {p lev : Nat} (hp : p < 2) {u : Nat} (hu : IsDist A s u lev) {G : List Nat} {m : Mem (CTy R)}
    (h : SerMid A o s lev p m1 G m) {Q : Int → Mem (CTy R) → Prop}
    (hQ : ∀ G' m', SerMid A o s lev p m1 G' m' → (∀ x ∈ G, x ∈ G') → (∀ j, A.InRow u j → Near A s lev (A.col j) ∨ A.col j ∈ G') →
      Q (G'.length : Int) m') :
    wp sz W Rd (bfsSerialRow k base p o (u : Int) (lev + 1) (G.length : Int)) m Q := by
  have hum : u < A.m := hu.1.lt wf hs hsq
  have hfr : ∀ {G m}, SerMid A o s lev p m1 G m → ∀ i, m (.rowptr k) i = m1 (.rowptr k) i ∧ m (.colidx k) i = m1 (.colidx k) i := by
    intro G m h i
    exact ⟨h.frame _ _ (by rintro ⟨h, _⟩; simp at h) (by rintro ⟨h, _⟩; simp at h),
      h.frame _ _ (by rintro ⟨h, _⟩; simp at h) (by rintro ⟨h, _⟩; simp at h)⟩
  unfold bfsSerialRow
  refine wp_rd ((A.ptr u : Int) + base) (hacc.rp _) (by rw [(hfr h _).1]; exact hpat.rowptr u (by omega)) ?_
  refine wp_rd ((A.ptr (u + 1) : Int) + base) (hacc.rp _) (by rw [(hfr h _).1]; exact hpat.rowptr (u + 1) (by omega)) ?_
  have hpm := wf.ptr_mono (show u ≤ u + 1 by omega) (show u + 1 ≤ A.m by omega)
  refine wp_forN (b := 0) (lo := A.ptr u) (hi := A.ptr (u + 1))
    (fun n c m' => ∃ G', c = (G'.length : Int) ∧ SerMid A o s lev p m1 G' m' ∧ (∀ x ∈ G, x ∈ G') ∧
      ∀ j, A.ptr u ≤ j → j < n → Near A s lev (A.col j) ∨ A.col j ∈ G') hpm ?_ ?_ ?_ (by omega) (by omega)
  · exact ⟨G, rfl, h, fun _ h => h, fun j a b => by omega⟩
  · rintro n c m' h1 h2 ⟨G', rfl, hm, hsub, hdone⟩
    rw [Int.add_zero]
    have hin : A.InRow u n := ⟨hum, h1, h2⟩
    have hnz := hin.lt_nnz wf
    have hcl : A.col n < A.m := by have := wf.col_lt n hnz; omega
    have hreach : Reaches A s (A.col n) := ⟨_, .snoc hu.1 hin⟩
    refine wp_rd ((A.col n : Int) + base) (hacc.ci _) (by rw [(hfr hm _).2]; exact hpat.colidx n hnz) ?_
    have hv : ((A.col n : Int) + base - base : Int) = A.col n := by omega
    rw [hv]
    have hl := hacc.lw bfsLev (A.col n : Int) ⟨rfl, _, hreach, rfl⟩
    have stay : ∀ v : Int, v ≠ -1 → m' bfsLev (A.col n : Int) = some v → (Near A s lev (A.col n) ∨ A.col n ∈ G') →
        wp sz W Rd (do
          let l ← Prog.read (ty := CTy R) bfsLev (A.col n : Int)
          if (l : Int) = -1 then do
            Prog.write (ty := CTy R) bfsLev (A.col n : Int) ((lev + 1 : Nat) : Int)
            Prog.write (ty := CTy R) (bfsQ p) (o + (G'.length : Int)) (A.col n : Int)
            pure ((G'.length : Int) + 1)
          else pure (G'.length : Int)) m' (fun c m'' => ∃ G', c = (G'.length : Int) ∧ SerMid A o s lev p m1 G' m'' ∧ (∀ x ∈ G, x ∈ G') ∧
      ∀ j, A.ptr u ≤ j → j < n + 1 → Near A s lev (A.col j) ∨ A.col j ∈ G') := by
      intro v hv1 hv2 hv3
      refine wp_rd v hl.2.1 hv2 ?_
      rw [if_neg hv1, wp_pure]
      refine ⟨G', rfl, hm, hsub, fun j a b => ?_⟩
      by_cases e : j = n
      · subst e; exact hv3
      · exact hdone j a (by omega)
    by_cases hn : Near A s lev (A.col n)
    · obtain ⟨d, hd, hdist⟩ := hn
      exact stay (d : Int) (by omega) (hm.near _ d hdist hd) (Or.inl ⟨d, hd, hdist⟩)
    by_cases hg : A.col n ∈ G'
    · exact stay _ (by omega) (hm.new _ hg) (Or.inr hg)
    · refine wp_rd (-1 : Int) hl.2.1 (hm.rest _ hreach hn hg) ?_
      rw [if_pos rfl]
      have hdist : IsDist A s (A.col n) (lev + 1) := isDist_succ_iff.2 ⟨hn, u, n, hu, hin, rfl⟩
      have hnd : (G' ++ [A.col n]).Nodup := by
        rw [List.nodup_append]
        refine ⟨hm.nodup, List.nodup_singleton _, fun x hx y hy e => ?_⟩
        rw [List.mem_singleton] at hy
        subst hy; subst e; exact hg hx
      have hmem : ∀ x ∈ G' ++ [A.col n], IsDist A s x (lev + 1) := by
        intro x hx
        rcases List.mem_append.1 hx with hx | hx
        · exact hm.mem x hx
        · rw [List.mem_singleton] at hx; subst hx; exact hdist
      have hlen := bfs_len_le wf hsq hs hnd (fun x hx => ⟨_, (hmem x hx).1⟩)
      rw [List.length_append, List.length_singleton] at hlen
      have hqw := hacc.qw p (bfsQ p) (o + G'.length) hp ⟨rfl, by omega, by omega⟩
      have ho := hacc.o0
      refine wp_wr hl.1 ⟨by omega, hl.2.2⟩ ?_
      refine wp_wr hqw.1 ⟨by omega, hqw.2.2⟩ ?_
      rw [wp_pure]
      have hql : bfsLev ≠ bfsQ p := by intro e; injection e with e; omega
      refine ⟨G' ++ [A.col n], by rw [List.length_append, List.length_singleton]; push_cast; rfl, ?_, fun x hx => List.mem_append_left _ (hsub x hx), ?_⟩
      · refine ⟨?_, hnd, hmem, ?_, ?_, ?_, ?_⟩
        · refine HoldsQ.snoc (hm.queue.congr fun i a1 a2 => ?_) ?_
          · rw [Mem.get_ne _ _ _ _ _ (by omega), Mem.set_other _ _ _ _ _ (Ne.symm hql)]
          · exact Mem.get_same _ _ _ _
        · intro x d hx hd
          rw [Mem.set_other _ _ _ _ _ hql]
          have : x ≠ A.col n := by rintro rfl; exact hn ⟨d, hd, hx⟩
          rw [Mem.get_ne _ _ _ _ _ (by omega)]; exact hm.near x d hx hd
        · intro x hx
          rw [Mem.set_other _ _ _ _ _ hql]
          by_cases e : x = A.col n
          · subst e; exact Mem.get_same _ _ _ _
          · rw [Mem.get_ne _ _ _ _ _ (by omega)]
            rcases List.mem_append.1 hx with hx | hx
            · exact hm.new x hx
            · exact absurd (List.mem_singleton.1 hx) e
        · intro x h3 h4 h5
          rw [Mem.set_other _ _ _ _ _ hql]
          have e : x ≠ A.col n := by rintro rfl; exact h5 (by simp)
          rw [Mem.get_ne _ _ _ _ _ (by omega)]
          exact hm.rest x h3 h4 (fun h => h5 (List.mem_append_left _ h))
        · intro a i h3 h4
          rw [← hm.frame a i h3 h4]
          rcases Mem.set_cases (m'.set bfsLev (A.col n : Int) ((lev + 1 : Nat) : Int)) (bfsQ p) (o + G'.length) (A.col n : Int) a i with ⟨rfl, rfl⟩ | e
          · exact absurd ⟨rfl, by omega, by omega⟩ h3
          · rw [e]
            rcases Mem.set_cases m' bfsLev (A.col n : Int) ((lev + 1 : Nat) : Int) a i with ⟨rfl, rfl⟩ | e
            · exact absurd ⟨rfl, _, hreach, rfl⟩ h4
            · exact e
      · intro j a b
        by_cases e : j = n
        · subst e; exact Or.inr (by simp)
        · rcases hdone j a (by omega) with h | h
          · exact Or.inl h
          · exact Or.inr (List.mem_append_left _ h)
  · rintro c m' ⟨G', rfl, hm, hsub, hdone⟩
    exact hQ G' m' hm hsub (fun j hj => hdone j hj.2.1 hj.2.2)

/-- The head of the loop of the serial search. -/
structure SerHead (A : Csr R) (o vo : Int) (s : Nat) (ov : Bool) (m0 : Mem (CTy R)) (lev : Nat) (F vis : List Nat) (m : Mem (CTy R)) : Prop where
  queue : HoldsQ m (10 + lev % 2) o F
  nodup : F.Nodup
  mem : ∀ x, x ∈ F ↔ IsDist A s x lev
  near : ∀ x d, IsDist A s x d → d ≤ lev → m bfsLev (x : Int) = some (d : Int)
  rest : ∀ x, Reaches A s x → ¬ Near A s lev x → m bfsLev (x : Int) = some (-1 : Int)
  vis_hold : ov = true → HoldsQ m 14 vo vis
  vis_nodup : vis.Nodup
  vis_mem : ∀ x, x ∈ vis ↔ ∃ d, d < lev ∧ IsDist A s x d
  vis_sorted : DistSorted A s vis
  vis_len : lev ≤ vis.length
  frame : ∀ a i, ¬ SerQ A o 0 a i → ¬ SerQ A o 1 a i → ¬ SerL A s a i →
    ¬ (ov = true ∧ a = bfsInv ∧ vo ≤ i ∧ i < vo + vis.length) → m a i = m0 a i

/-- What the serial search leaves: levels are distances, `visited` lists the component by non-decreasing distance. -/
structure SerDone (A : Csr R) (o vo : Int) (s : Nat) (ov : Bool) (m0 : Mem (CTy R)) (n : Nat) (vis : List Nat) (m : Mem (CTy R)) : Prop where
  levels : ∀ x d, IsDist A s x d → m bfsLev (x : Int) = some (d : Int)
  vis_hold : ov = true → HoldsQ m 14 vo vis
  vis_nodup : vis.Nodup
  vis_mem : ∀ x, x ∈ vis ↔ Reaches A s x
  vis_sorted : DistSorted A s vis
  num : ∃ d x, n = d + 2 ∧ IsDist A s x d ∧ ∀ y e, IsDist A s y e → e ≤ d
  frame : ∀ a i, ¬ SerQ A o 0 a i → ¬ SerQ A o 1 a i → ¬ SerL A s a i →
    ¬ (ov = true ∧ a = bfsInv ∧ vo ≤ i ∧ i < vo + vis.length) → m a i = m0 a i

theorem wp_bfsSerialLoop (wf : A.WF) (hsq : A.n = A.m) (hs : s < A.m) {m0 : Mem (CTy R)} (hpat : HoldsPat m0 k base A)
    (hacc : SerAcc A k o s sz W Rd) {vo : Int} (hvo : 0 ≤ vo) {ov : Bool}
    (hinv : ov = true → ∀ l : List Nat, l.Nodup → (∀ x ∈ l, Reaches A s x) → vo + l.length ≤ sz bfsInv ∧
      ∀ i, vo ≤ i → i < vo + l.length → W bfsInv i)
    {Q : Nat → Mem (CTy R) → Prop} (hQ : ∀ n vis m, SerDone A o vo s ov m0 n vis m → Q n m) :
    ∀ (fuel lev : Nat) (F vis : List Nat) (m : Mem (CTy R)), A.m + 2 ≤ fuel + lev → (0 < lev → ∃ x, IsDist A s x (lev - 1)) → (lev = 0 → F ≠ []) →
      SerHead A o vo s ov m0 lev F vis m → wp sz W Rd (bfsSerialLoop k base ov o vo fuel lev (F.length : Int) (vis.length : Int)) m Q := by
  intro fuel
  induction fuel with
  | zero =>
    intro lev F vis m hf _ _ hh
    have h1 := hh.vis_len
    have h2 := bfs_len_le wf hsq hs hh.vis_nodup (fun x hx => by obtain ⟨d, _, h⟩ := (hh.vis_mem x).1 hx; exact ⟨d, h.1⟩)
    omega
  | succ fuel ih =>
    intro lev F vis m hf hprev hfirst hh
    have hdis : ∀ x ∈ vis, x ∉ F := by
      intro x hx hx'
      obtain ⟨d, hd, h⟩ := (hh.vis_mem x).1 hx
      have := h.unique ((hh.mem x).1 hx'); omega
    have hnd : (vis ++ F).Nodup := by
      rw [List.nodup_append]
      refine ⟨hh.vis_nodup, hh.nodup, fun x hx y hy e => ?_⟩
      subst e; exact hdis x hx hy
    have hrc : ∀ x ∈ vis ++ F, Reaches A s x := by
      intro x hx
      rcases List.mem_append.1 hx with hx | hx
      · obtain ⟨d, _, h⟩ := (hh.vis_mem x).1 hx; exact ⟨d, h.1⟩
      · exact ⟨lev, ((hh.mem x).1 hx).1⟩
    have hlenA := bfs_len_le wf hsq hs hnd hrc
    rw [List.length_append] at hlenA
    have ho := hacc.o0
    unfold bfsSerialLoop
    rw [wp_bind]
    -- the copy
    have copy : ∀ (Q' : Unit → Mem (CTy R) → Prop), (∀ m1, (ov = true → HoldsQ m1 14 vo (vis ++ F)) →
        (∀ a i, ¬ (ov = true ∧ a = bfsInv ∧ vo + vis.length ≤ i ∧ i < vo + vis.length + F.length) → m1 a i = m a i) → Q' () m1) →
        wp sz W Rd (if ov then Prog.forUp (ty := CTy R) 0 (F.length : Int) () fun x _ => do
          let v ← Prog.read (ty := CTy R) (bfsQ (lev % 2)) (o + x)
          Prog.write (ty := CTy R) bfsInv (vo + (vis.length : Int) + x) (v : Int)
        else pure () : Prog (CTy R) Unit) m Q' := by
      intro Q' hQ'
      cases hov : ov with
      | false => rw [if_neg (by simp), wp_pure]; exact hQ' m (fun h => by rw [hov] at h; cases h) (fun _ _ _ => rfl)
      | true =>
        rw [if_pos rfl]
        obtain ⟨hc1, hc2⟩ := hinv hov _ hnd hrc
        rw [List.length_append] at hc1 hc2
        refine wp_forN (b := 0) (lo := 0) (hi := F.length)
          (fun x _ m1 => HoldsQ m1 14 vo (vis ++ F.take x) ∧
            (∀ a i, ¬ (a = bfsInv ∧ vo + vis.length ≤ i ∧ i < vo + vis.length + F.length) → m1 a i = m a i)) (by omega) ?_ ?_ ?_ (by omega) (by omega)
        · exact ⟨by rw [List.take_zero, List.append_nil]; exact hh.vis_hold hov, fun _ _ _ => rfl⟩
        · rintro x _ m1 _ hx ⟨h1, h2⟩
          rw [Int.add_zero]
          have hq := hacc.qw (lev % 2) (bfsQ (lev % 2)) (o + x) (by omega) ⟨rfl, by omega, by omega⟩
          have hv : m1 (bfsQ (lev % 2)) (o + x) = some ((F[x] : Nat) : Int) := by
            rw [h2 _ _ (by rintro ⟨e, _⟩; injection e with e; omega)]
            exact hh.queue x _ (List.getElem?_eq_getElem hx)
          refine wp_rd _ hq.2.1 hv ?_
          refine wp_wr1 (hc2 _ (by omega) (by omega)) ⟨by omega, by push_cast at hc1; omega⟩ ⟨?_, ?_⟩
          · rw [List.take_add_one, List.getElem?_eq_getElem hx, Option.toList_some, ← List.append_assoc]
            have hl : (vis ++ F.take x).length = vis.length + x := by rw [List.length_append, List.length_take]; omega
            refine HoldsQ.snoc (h1.congr fun i a1 a2 => ?_) ?_
            · rw [hl] at a2; rw [Mem.get_ne _ _ _ _ _ (by push_cast at a2; omega)]
            · rw [hl, show vo + ((vis.length + x : Nat) : Int) = vo + (vis.length : Int) + x by push_cast; omega]
              exact Mem.get_same _ _ _ _
          · intro a i hn
            rcases Mem.set_cases m1 bfsInv (vo + (vis.length : Int) + x) ((F[x] : Nat) : Int) a i with ⟨rfl, rfl⟩ | e
            · exact absurd ⟨rfl, by omega, by omega⟩ hn
            · rw [e]; exact h2 a i hn
        · rintro _ m1 ⟨h1, h2⟩
          rw [List.take_length] at h1
          exact hQ' m1 (fun _ => h1) (fun a i h => h2 a i (fun h' => h ⟨hov, h'⟩))
    refine copy _ ?_
    intro m1 hv1 hf1
    have hnotinv : ∀ a i, a ≠ bfsInv → m1 a i = m a i := fun a i h => hf1 a i (fun h' => h h'.2.1)
    have hframe1 : ∀ a i, ¬ SerQ A o 0 a i → ¬ SerQ A o 1 a i → ¬ SerL A s a i →
        ¬ (ov = true ∧ a = bfsInv ∧ vo ≤ i ∧ i < vo + (vis ++ F).length) → m1 a i = m0 a i := by
      intro a i h1 h2 h3 h4
      rw [List.length_append] at h4
      rw [hf1 a i (by rintro ⟨e1, e2, e3, e4⟩; exact h4 ⟨e1, e2, by omega, by push_cast; omega⟩)]
      exact hh.frame a i h1 h2 h3 (by rintro ⟨e1, e2, e3, e4⟩; exact h4 ⟨e1, e2, by omega, by push_cast; omega⟩)
    by_cases hemp : (F.length : Int) = 0
    · rw [if_pos hemp, wp_pure]
      have hF : F = [] := List.eq_nil_of_length_eq_zero (by omega)
      have hd := dist_lt_of_empty (A := A) (s := s) (l := lev) (fun x hx => by have := (hh.mem x).2 hx; rw [hF] at this; simp at this)
      have hl0 : lev ≠ 0 := fun e => hfirst e hF
      obtain ⟨x, hx⟩ := hprev (by omega)
      refine hQ (lev + 1) (vis ++ F) m1 ⟨?_, hv1, hnd, ?_, ?_, ⟨lev - 1, x, by omega, hx, fun y e h => by have := hd e y h; omega⟩, hframe1⟩
      · intro y d h
        rw [hnotinv _ _ (by simp)]
        exact hh.near y d h (Nat.le_of_lt (hd d y h))
      · intro y
        rw [hF, List.append_nil, hh.vis_mem]
        constructor
        · rintro ⟨d, _, h⟩; exact ⟨d, h.1⟩
        · intro h; obtain ⟨d, h⟩ := h.dist; exact ⟨d, hd d y h, h⟩
      · rw [hF, List.append_nil]; exact hh.vis_sorted
    · rw [if_neg hemp, wp_bind]
      have hp1 : HoldsPat m1 k base A :=
        ⟨fun i hi => by rw [hnotinv _ _ (by simp), hh.frame _ _ (by rintro ⟨h, _⟩; simp at h) (by rintro ⟨h, _⟩; simp at h)
            (by rintro ⟨h, _⟩; simp at h) (by rintro ⟨_, h, _⟩; simp at h)]; exact hpat.rowptr i hi,
          fun i hi => by rw [hnotinv _ _ (by simp), hh.frame _ _ (by rintro ⟨h, _⟩; simp at h) (by rintro ⟨h, _⟩; simp at h)
            (by rintro ⟨h, _⟩; simp at h) (by rintro ⟨_, h, _⟩; simp at h)]; exact hpat.colidx i hi⟩
      have hqF : HoldsQ m1 (10 + lev % 2) o F := hh.queue.congr fun i _ _ => hnotinv _ _ (by intro e; injection e with e; omega)
      refine wp_forN (b := 0) (lo := 0) (hi := F.length)
        (fun i c m' => ∃ G, c = (G.length : Int) ∧ SerMid A o s lev ((lev + 1) % 2) m1 G m' ∧
          ∀ x u, x < i → F[x]? = some u → ∀ j, A.InRow u j → Near A s lev (A.col j) ∨ A.col j ∈ G) (by omega) ?_ ?_ ?_ (by omega) (by omega)
      · refine ⟨[], rfl, ⟨?_, List.nodup_nil, ?_, ?_, ?_, ?_, fun _ _ _ _ => rfl⟩, fun x u h => by omega⟩
        · intro x y h; simp at h
        · intro x h; simp at h
        · intro x d h1 h2; rw [hnotinv _ _ (by simp)]; exact hh.near x d h1 h2
        · intro x h; simp at h
        · intro x h1 h2 _; rw [hnotinv _ _ (by simp)]; exact hh.rest x h1 h2
      · rintro i c m' _ hi ⟨G, rfl, hm, hdone⟩
        rw [Int.add_zero]
        have hu : IsDist A s F[i] lev := (hh.mem _).1 (List.getElem_mem hi)
        have hq := hacc.qw (lev % 2) (bfsQ (lev % 2)) (o + i) (by omega) ⟨rfl, by omega, by omega⟩
        have hv : m' (bfsQ (lev % 2)) (o + i) = some ((F[i] : Nat) : Int) := by
          rw [hm.frame _ _ (by rintro ⟨e, _⟩; injection e with e; omega) (by rintro ⟨e, _⟩; injection e with e; omega)]
          exact hqF i _ (List.getElem?_eq_getElem hi)
        refine wp_rd _ hq.2.1 hv ?_
        have hl := hacc.lw bfsLev (F[i] : Int) ⟨rfl, _, ⟨_, hu.1⟩, rfl⟩
        refine wp_rd ((lev : Nat) : Int) hl.2.1 (hm.near _ lev hu (Nat.le_refl _)) ?_
        rw [wp_bind, wp_assert]
        refine ⟨rfl, ?_⟩
        refine wp_bfsSerialRow wf hsq hs hp1 hacc (by omega) hu hm ?_
        intro G' m2 hm2 hsub hrow
        refine ⟨G', rfl, hm2, ?_⟩
        intro x u hx hu' j hj
        by_cases e : x = i
        · subst e
          rw [List.getElem?_eq_getElem hi] at hu'
          injection hu' with hu'
          subst hu'
          exact hrow j hj
        · rcases hdone x u (by omega) hu' j hj with h | h
          · exact Or.inl h
          · exact Or.inr (hsub _ h)
      · rintro c m2 ⟨G, rfl, hm, hdone⟩
        have hG : ∀ x, x ∈ G ↔ IsDist A s x (lev + 1) := by
          intro x
          refine ⟨hm.mem x, fun h => ?_⟩
          obtain ⟨h1, u, j, h2, h3, rfl⟩ := isDist_succ_iff.1 h
          obtain ⟨i, hi, he⟩ := List.getElem_of_mem ((hh.mem u).2 h2)
          rcases hdone i u hi (by rw [List.getElem?_eq_getElem hi, he]) j h3 with h | h
          · exact absurd h h1
          · exact h
        have hlen2 : ((vis ++ F).length : Int) = (vis.length : Int) + F.length := by rw [List.length_append]; push_cast; rfl
        rw [← hlen2]
        have hmi : ∀ i, m2 bfsInv i = m1 bfsInv i := fun i => hm.frame _ _ (by rintro ⟨e, _⟩; injection e with e; omega) (by rintro ⟨e, _⟩; injection e with e; omega)
        refine ih (lev + 1) G (vis ++ F) m2 (by omega) ?_ (by omega) ?_
        · intro _
          rcases F with _ | ⟨x, F⟩
          · exact absurd rfl hemp
          · exact ⟨x, (hh.mem x).1 List.mem_cons_self⟩
        · refine ⟨hm.queue, hm.nodup, hG, ?_, ?_, ?_, hnd, ?_, ?_, ?_, ?_⟩
          · intro x d h1 h2
            by_cases e : d = lev + 1
            · subst e; exact hm.new x ((hG x).2 h1)
            · exact hm.near x d h1 (by omega)
          · intro x h1 h2
            rw [near_succ] at h2
            exact hm.rest x h1 (fun h => h2 (Or.inl h)) (fun h => h2 (Or.inr ((hG x).1 h)))
          · intro hov
            exact (hv1 hov).congr fun i _ _ => hmi i
          · intro x
            rw [List.mem_append, hh.vis_mem, hh.mem]
            constructor
            · rintro (⟨d, h1, h2⟩ | h)
              · exact ⟨d, by omega, h2⟩
              · exact ⟨lev, by omega, h⟩
            · rintro ⟨d, h1, h2⟩
              by_cases e : d = lev
              · subst e; exact Or.inr h2
              · exact Or.inl ⟨d, by omega, h2⟩
          · refine List.pairwise_append.2 ⟨hh.vis_sorted, ?_, ?_⟩
            · refine List.Pairwise.imp_of_mem (R := fun _ _ => True) ?_ (List.pairwise_of_forall (fun _ _ => trivial))
              intro x y hx hy _ d e h1 h2
              have := h1.unique ((hh.mem x).1 hx)
              have := h2.unique ((hh.mem y).1 hy)
              omega
            · intro x hx y hy d e h1 h2
              obtain ⟨d', h3, h4⟩ := (hh.vis_mem x).1 hx
              have := h1.unique h4
              have := h2.unique ((hh.mem y).1 hy)
              omega
          · rw [List.length_append]
            have := hh.vis_len
            omega
          · intro a i h1 h2 h3 h4
            have : ¬ SerQ A o ((lev + 1) % 2) a i := by
              rcases (by omega : (lev + 1) % 2 = 0 ∨ (lev + 1) % 2 = 1) with e | e <;> rw [e]
              · exact h1
              · exact h2
            rw [hm.frame a i this h3]
            exact hframe1 a i h1 h2 h3 h4

/-- The serial search from `s`, on whose component the levels are -1. -/
theorem wp_bfsSerial (wf : A.WF) (hsq : A.n = A.m) (hs : s < A.m) {m0 : Mem (CTy R)} (hpat : HoldsPat m0 k base A)
    (hacc : SerAcc A k o s sz W Rd) {vo : Int} (hvo : 0 ≤ vo) {ov : Bool}
    (hinv : ov = true → ∀ l : List Nat, l.Nodup → (∀ x ∈ l, Reaches A s x) → vo + l.length ≤ sz bfsInv ∧
      ∀ i, vo ≤ i → i < vo + l.length → W bfsInv i)
    (hlev : ∀ x, Reaches A s x → m0 bfsLev (x : Int) = some (-1 : Int))
    {Q : Nat → Mem (CTy R) → Prop} (hQ : ∀ n vis m, SerDone A o vo s ov m0 n vis m → Q n m) :
    wp sz W Rd (bfsSerial k base A.m ov o vo (s : Int)) m0 Q := by
  unfold bfsSerial
  have hl := hacc.lw bfsLev (s : Int) ⟨rfl, s, ⟨0, .nil⟩, rfl⟩
  have hq := hacc.qw 0 (bfsQ 0) o (by omega) ⟨rfl, by omega, by omega⟩
  have ho := hacc.o0
  refine wp_wr hl.1 ⟨by omega, hl.2.2⟩ ?_
  refine wp_wr hq.1 ⟨ho, hq.2.2⟩ ?_
  generalize hm1 : (m0.set bfsLev (s : Int) (0 : Int)).set (bfsQ 0) o (s : Int) = m1
  have hle : ∀ x : Nat, m1 bfsLev (x : Int) = if x = s then some (0 : Int) else m0 bfsLev (x : Int) := by
    intro x
    rw [← hm1, Mem.set_other _ _ _ _ _ (by simp)]
    by_cases e : x = s
    · subst e; rw [if_pos rfl, Mem.get_same]
    · rw [if_neg e, Mem.get_ne _ _ _ _ _ (by omega)]
  refine wp_bfsSerialLoop wf hsq hs hpat hacc hvo hinv hQ (A.m + 2) 0 [s] [] m1 (by omega) (by omega) (by simp) ?_
  refine ⟨?_, List.nodup_singleton _, ?_, ?_, ?_, ?_, List.nodup_nil, ?_, List.Pairwise.nil, Nat.le_refl _, ?_⟩
  · intro x y hx
    obtain rfl : x = 0 := by have := (List.getElem?_eq_some_iff.mp hx).1; simpa using this
    have hx : s = y := by simpa using hx
    subst hx
    rw [show o + ((0 : Nat) : Int) = o by omega, ← hm1]
    exact Mem.get_same _ _ _ _
  · intro x; rw [List.mem_singleton, isDist_zero_iff]
  · intro x d h1 h2
    obtain rfl : d = 0 := by omega
    rw [hle, if_pos (isDist_zero_iff.1 h1)]; rfl
  · intro x h1 h2
    rw [hle, if_neg (fun e => h2 (near_zero.2 e))]; exact hlev x h1
  · intro _ x y hx; simp at hx
  · intro x
    constructor
    · intro h; simp at h
    · rintro ⟨d, h, _⟩; omega
  · intro a i h1 _ h3 _
    rw [← hm1]
    rcases Mem.set_cases (m0.set bfsLev (s : Int) (0 : Int)) (bfsQ 0) o (s : Int) a i with ⟨rfl, rfl⟩ | e
    · exact absurd ⟨rfl, by omega, by omega⟩ h1
    · rw [e]
      rcases Mem.set_cases m0 bfsLev (s : Int) (0 : Int) a i with ⟨rfl, rfl⟩ | e
      · exact absurd ⟨rfl, s, ⟨0, .nil⟩, rfl⟩ h3
      · exact e

end SpMP
