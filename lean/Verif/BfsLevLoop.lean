import Verif.BfsLevExpand
/-
The loop over levels of the breadth-first search that stores levels.
-/

namespace SpMP
open Spec

variable {R : Type} {sz : CArr → Int} {A : Csr R} {k base T : Nat}

/-- The partition of a level. -/
theorem bfsPart_ok (wf : A.WF) (hT : 1 ≤ T) {Qs : Nat → List Nat} {qt nz : Nat → Int} {m1 : Mem (CTy R)}
    (hlt : ∀ t, ∀ u ∈ Qs t, u < A.m) (hqt : ∀ t, qt t = ((Qs t).length : Int)) (hnz : ∀ t, nz t = wS A.ptr (bfsEp A) (Qs t))
    (hr : ∀ t, t < T → Qs t ≠ [] → HoldsRP m1 A.ptr (bfsEp A) ((t : Int) * A.m) (Qs t))
    {Post : (Nat → (Int × Int) × (Int × Int)) → Mem (CTy R) → Prop}
    (hk : ∀ r, (∀ t, t < T → PartRel T qt (psum nz) (fun t k => wS A.ptr (bfsEp A) ((Qs t).take k)) t (r t)) → Post r m1) :
    ParOk sz T Post (fun tid => bfsPart T A.m qt (psum nz) tid) m1 := by
  have hq0 : ∀ t, 0 ≤ qt t := fun t => by rw [hqt]; omega
  have hc := bfs_cutOk (T := T) wf hlt hqt hnz
  refine par_rule (W := fun _ _ _ => False) (R := fun _ _ _ => True)
    (Q := fun t r _ => PartRel T qt (psum nz) (fun t k => wS A.ptr (bfsEp A) ((Qs t).take k)) t r) (fun _ _ _ _ _ _ _ h _ => h) ?_ ?_
  · intro t ht
    refine wp_bfsPart hc hT hq0 (fun _ => trivial) ?_ (fun r hr => hr)
    intro u k hu _ hk
    rw [hqt] at hk
    exact hr u hu (fun e => by rw [e] at hk; simp at hk; omega) k (by omega)
  · intro r m h1 h2
    have : m = m1 := by
      funext a i
      exact h2 a i (fun _ _ h => h)
    subst this
    exact hk r (fun t ht => (h1 t ht).elim fun _ h => h.1)

/-- Cells the search from `s` writes. -/
def LsCell (A : Csr R) (s : Nat) (a : CArr) (i : Int) : Prop :=
  a = bfsQ 0 ∨ a = bfsQ 1 ∨ a = bufA ∨ ((a = bfsBits ∨ a = bfsLev) ∧ ∃ x : Nat, Reaches A s x ∧ i = (x : Int))

/-- Queues `p` hold level `l`, `qt` are their lengths. -/
def LsQueues (A : Csr R) (T s p l : Nat) (qt : Nat → Int) (m : Mem (CTy R)) : Prop :=
  ∃ Qs : Nat → List Nat, (∀ t, t < T → HoldsQ m (10 + p) ((t : Int) * A.m) (Qs t)) ∧ (∀ t, qt t = ((Qs t).length : Int)) ∧
    (∀ t, t < T → (Qs t).Nodup) ∧ ∀ x, x ∈ (List.range T).flatMap Qs ↔ IsDist A s x l

/-- The head of the loop over levels. -/
structure LsHead (A : Csr R) (k base T : Nat) (sl : Bool) (s : Nat) (m0 : Mem (CTy R)) (lev : Nat) (qp qt nz : Nat → Int)
    (Qs : Nat → List Nat) (m : Mem (CTy R)) : Prop where
  pat : HoldsPat m k base A
  qt_eq : ∀ t, qt t = ((Qs t).length : Int)
  nz_eq : ∀ t, nz t = wS A.ptr (bfsEp A) (Qs t)
  team : ∀ t, T ≤ t → Qs t = []
  nodup : ∀ t, t < T → (Qs t).Nodup
  prev : 0 < lev → LsQueues A T s ((lev - 1) % 2) (lev - 1) qp m
  queue : ∀ t, t < T → HoldsQ m (10 + lev % 2) ((t : Int) * A.m) (Qs t)
  sums : ∀ t, t < T → Qs t ≠ [] → HoldsRP m A.ptr (bfsEp A) ((t : Int) * A.m) (Qs t)
  mem : ∀ x, x ∈ (List.range T).flatMap Qs ↔ IsDist A s x lev
  bit1 : ∀ x, Near A s lev x → m bfsBits (x : Int) = some (1 : Int)
  bit0 : ∀ x, Reaches A s x → ¬ Near A s lev x → m bfsBits (x : Int) = some (0 : Int)
  lv : sl = true → ∀ x d, d ≤ lev → IsDist A s x d → m bfsLev (x : Int) = some (d : Int)
  below : ∀ d, d < lev → ∃ x, IsDist A s x d
  frame : ∀ a i, ¬ LsCell A s a i → m a i = m0 a i

/-- What the complete search leaves: `d` levels, the nodes of the component marked and their levels stored, the last level in the queues. -/
structure LsDone (A : Csr R) (T : Nat) (sl : Bool) (s d : Nat) (qp : Nat → Int) (m0 m : Mem (CTy R)) : Prop where
  bit : ∀ x, Reaches A s x → m bfsBits (x : Int) = some (1 : Int)
  lt : ∀ x e, IsDist A s x e → e < d
  lev : sl = true → ∀ x e, IsDist A s x e → m bfsLev (x : Int) = some (e : Int)
  last : LsQueues A T s ((d + 1) % 2) (d - 1) qp m
  below : ∀ e, e < d → ∃ x, IsDist A s x e
  frame : ∀ a i, ¬ LsCell A s a i → m a i = m0 a i

/-- What a search stopped early leaves. -/
structure LsCut (A : Csr R) (s : Nat) (m0 m : Mem (CTy R)) : Prop where
  bit : ∀ x, Reaches A s x → m bfsBits (x : Int) = some (0 : Int) ∨ m bfsBits (x : Int) = some (1 : Int)
  frame : ∀ a i, ¬ LsCell A s a i → m a i = m0 a i

theorem dist_lt_m (wf : A.WF) (hsq : A.n = A.m) {s : Nat} (hs : s < A.m) {x d : Nat} (h : IsDist A s x d) : d < A.m := by
  have := dist_lt_length (N := List.range A.m) (fun x hx => List.mem_range.2 (by obtain ⟨e, he⟩ := hx; exact he.lt wf hs hsq)) h
  rwa [List.length_range] at this

theorem bfsLevLoop_ok (wf : A.WF) (hsq : A.n = A.m) (hT : 1 ≤ T) {s : Nat} (hs : s < A.m) {m0 : Mem (CTy R)} {sl : Bool} {sc : Option Int}
    (hq0 : (T : Int) * A.m ≤ sz (bfsQ 0)) (hq1 : (T : Int) * A.m ≤ sz (bfsQ 1)) (hrp : (T : Int) * A.m ≤ sz bufA)
    (hbits : (A.m : Int) ≤ sz bfsBits) (hlevs : sl = true → (A.m : Int) ≤ sz bfsLev) :
    ∀ (fuel lev : Nat) (qp qt nz : Nat → Int) (wd : Int) (Qs : Nat → List Nat) (m : Mem (CTy R)), A.m + 2 ≤ fuel + lev →
      LsHead A k base T sl s m0 lev qp qt nz Qs m →
      (bfsLevLoop sz k base T A.m sl sc fuel lev qp qt nz wd).Ok m (fun r m' =>
        ((∃ w, sc = some w ∧ w < (T : Int) * A.m) ∧ r.1 = -1 ∧ LsCut A s m0 m') ∨
        ∃ d : Nat, r.1 = (d : Int) + 1 ∧ r.2.1 ≤ max wd ((T : Int) * A.m) ∧ LsDone A T sl s d r.2.2 m0 m') := by
  intro fuel
  induction fuel with
  | zero =>
    intro lev qp qt nz wd Qs m hf hh
    obtain ⟨x, hx⟩ := hh.below (lev - 1) (by omega)
    have := dist_lt_m wf hsq hs hx
    omega
  | succ fuel ih =>
    intro lev qp qt nz wd Qs m hf hh
    have hfq : qt = fun t => ((Qs t).length : Int) := funext hh.qt_eq
    have htot : (((List.range T).flatMap Qs).length : Int) = psum qt T := by rw [flatMap_length_psum, hfq]
    have hlt : ∀ t, ∀ u ∈ Qs t, u < A.m := by
      intro t u hu
      by_cases ht : t < T
      · have := (hh.mem u).1 (by rw [List.mem_flatMap]; exact ⟨t, List.mem_range.2 ht, hu⟩)
        exact this.1.lt wf hs hsq
      · rw [hh.team t (by omega)] at hu; simp at hu
    have hcap : psum qt T ≤ (T : Int) * A.m := by
      have hle : ∀ t, t < T → qt t ≤ (A.m : Int) := by
        intro t ht
        rw [hh.qt_eq]
        have := (List.subperm_of_subset (hh.nodup t ht) (fun x hx => List.mem_range.2 (hlt t x hx))).length_le
        rw [List.length_range] at this
        omega
      have : ∀ n, n ≤ T → psum qt n ≤ (n : Int) * A.m := by
        intro n
        induction n with
        | zero => intro _; rw [show psum qt 0 = 0 from rfl]; simp
        | succ n ih =>
          intro hn
          have h1 := ih (by omega)
          have h2 := hle n (by omega)
          show psum qt n + qt n ≤ _
          rw [show ((n + 1 : Nat) : Int) * A.m = (n : Int) * A.m + A.m by push_cast; rw [Int.add_mul]; omega]
          omega
      exact this T (Nat.le_refl _)
    unfold bfsLevLoop
    dsimp only
    by_cases hw : tooWide sc (psum qt T) = true
    · rw [if_pos hw]
      refine Script.ok_done_of (Or.inl ⟨?_, rfl, ?_, hh.frame⟩)
      · cases sc with
        | none => simp [tooWide] at hw
        | some w =>
          simp only [tooWide, decide_eq_true_eq] at hw
          exact ⟨w, rfl, by omega⟩
      · intro x hx
        by_cases hn : Near A s lev x
        · exact Or.inr (hh.bit1 x hn)
        · exact Or.inl (hh.bit0 x hx hn)
    rw [if_neg hw]
    by_cases hemp : psum qt T = 0
    · rw [if_pos hemp]
      have hnil : (List.range T).flatMap Qs = [] := List.eq_nil_of_length_eq_zero (by omega)
      have hd := dist_lt_of_empty (A := A) (s := s) (l := lev) (fun x hx => by have := (hh.mem x).2 hx; rw [hnil] at this; simp at this)
      refine Script.ok_done_of (Or.inr ⟨lev, rfl, by show max wd (psum qt T) ≤ _; omega, ?_, fun x e he => hd e x he, ?_, ?_, hh.below, hh.frame⟩)
      · intro x hx
        obtain ⟨d, h⟩ := hx.dist
        exact hh.bit1 x ⟨d, Nat.le_of_lt (hd d x h), h⟩
      · intro hsl x e he
        exact hh.lv hsl x e (Nat.le_of_lt (hd e x he)) he
      · have hpos : 0 < lev := hd 0 s isDist_zero
        have := hh.prev hpos
        rwa [show (lev - 1) % 2 = (lev + 1) % 2 by omega] at this
    rw [if_neg hemp]
    have hpar : 1 - (lev + 1) % 2 = lev % 2 := by omega
    rw [hpar]
    refine bfsPart_ok wf hT hlt hh.qt_eq hh.nz_eq hh.sums ?_
    intro r hpr
    obtain ⟨hreg, hcov⟩ := part_tile (Qs := Qs) (bfs_cutOk wf hlt hh.qt_eq hh.nz_eq) hT hh.qt_eq hpr
    let E : LvEnv R := ⟨sz, k, base, T, (lev + 1) % 2, lev % 2, sl, lev, A, s, m⟩
    have hqsz : ∀ p, p < 2 → (T : Int) * A.m ≤ sz (bfsQ p) := by
      intro p hp
      rcases (by omega : p = 0 ∨ p = 1) with rfl | rfl
      · exact hq0
      · exact hq1
    have hE : E.Start := by
      refine ⟨wf, hsq, hs, Nat.mod_lt _ (by omega), Nat.mod_lt _ (by omega), ?_, hh.pat, hh.bit1, ?_, fun hsl x hx => hh.lv hsl x lev (Nat.le_refl _) hx,
        hqsz _ (Nat.mod_lt _ (by omega)), hrp, hbits, hlevs⟩
      · show lev % 2 ≠ (lev + 1) % 2; omega
      · intro x hx
        exact hh.bit0 x ⟨_, hx.1⟩ (fun hn => LvEnv.near_not_nx (E := E) hn hx)
    refine LvEnv.expand_ok hE hh.queue hh.mem hreg hcov ?_
    intro q g m2 hqv hqg hgn hgd hgb hf2
    have hgd : ∀ x, x ∈ (List.range T).flatMap g ↔ IsDist A s x (lev + 1) := hgd
    have hcst : ∀ a i, ¬ LsCell A s a i → E.Const a i := by
      intro a i hn
      refine ⟨?_, fun e => hn (Or.inr (Or.inr (Or.inl e))), ?_⟩
      · rintro rfl
        rcases (by omega : (lev + 1) % 2 = 0 ∨ (lev + 1) % 2 = 1) with e | e
        · exact hn (Or.inl (by show bfsQ ((lev + 1) % 2) = _; rw [e]))
        · exact hn (Or.inr (Or.inl (by show bfsQ ((lev + 1) % 2) = _; rw [e])))
      · rintro ⟨ha, x, hx, e⟩
        exact hn (Or.inr (Or.inr (Or.inr ⟨ha, x, ⟨_, hx.1⟩, e⟩)))
    have hfr : ∀ a i, ¬ LsCell A s a i → m2 a i = m a i := fun a i hn => hf2 a i (hcst a i hn)
    have hnr : ∀ j i, ¬ LsCell A s (.rowptr j) i := by intro j i; simp [LsCell]
    have hnc : ∀ j i, ¬ LsCell A s (.colidx j) i := by intro j i; simp [LsCell]
    let g' : Nat → List Nat := fun t => if t < T then g t else []
    have hg' : ∀ t, t < T → g' t = g t := fun t ht => if_pos ht
    have hflat : (List.range T).flatMap g' = (List.range T).flatMap g :=
      List.flatMap_congr fun t ht => hg' t (List.mem_range.1 ht)
    refine Script.Ok.mono (ih (lev + 1) _ _ _ (max wd (psum qt T)) g' m2 (by omega) ?_) ?_
    rotate_left
    · rintro r m' (h | ⟨d, h1, h2, h3⟩)
      · exact Or.inl h
      · exact Or.inr ⟨d, h1, by omega, h3⟩
    refine ⟨⟨fun i hi => ?_, fun i hi => ?_⟩, ?_, ?_, ?_, fun t ht => by rw [hg' t ht]; exact hgn t ht, fun _ => ?_, ?_, ?_, ?_, ?_, ?_, ?_, ?_, ?_⟩
    · rw [hfr _ _ (hnr _ _)]; exact hh.pat.rowptr i hi
    · rw [hfr _ _ (hnc _ _)]; exact hh.pat.colidx i hi
    · intro t
      show (if t < T then _ else _) = ((if t < T then g t else [] : List Nat).length : Int)
      by_cases ht : t < T
      · rw [if_pos ht, if_pos ht]; exact (hqv t ht).1
      · rw [if_neg ht, if_neg ht]; rfl
    · intro t
      show (if t < T then _ else _) = wS A.ptr (bfsEp A) (if t < T then g t else [])
      by_cases ht : t < T
      · rw [if_pos ht, if_pos ht]; exact (hqv t ht).2
      · rw [if_neg ht, if_neg ht]; rfl
    · intro t ht; exact if_neg (by omega)
    · rw [Nat.add_sub_cancel]
      refine ⟨Qs, fun t ht => (hh.queue t ht).congr fun i _ _ => hf2 _ _ ⟨?_, ?_, ?_⟩, hh.qt_eq, hh.nodup, hh.mem⟩
      · intro e; injection e with e; have e : 10 + lev % 2 = 10 + (lev + 1) % 2 := e; omega
      · intro e; injection e with e; omega
      · rintro ⟨e | e, _⟩
        · injection e with e; omega
        · injection e with e; omega
    · intro t ht; rw [hg' t ht]; exact (hqg t ht).1
    · intro t ht _; rw [hg' t ht]; exact (hqg t ht).2
    · intro x; rw [hflat]; exact hgd x
    · intro x hx
      rcases near_succ.1 hx with hx | hx
      · rw [hf2 _ _ (hE.const_bit (LvEnv.near_not_nx (E := E) hx))]; exact hh.bit1 x hx
      · exact (hgb x hx).1
    · intro x hx hn
      have h1 : ¬ Near A s lev x := fun h => hn (near_succ.2 (Or.inl h))
      have h2 : ¬ E.Nx x := fun h => hn (near_succ.2 (Or.inr h))
      rw [hf2 _ _ (hE.const_bit h2)]; exact hh.bit0 x hx h1
    · intro hsl x d hd hx
      by_cases e : d = lev + 1
      · subst e; exact (hgb x hx).2 hsl
      · have h2 : ¬ E.Nx x := fun h => e (hx.unique h)
        rw [hf2 _ _ (hE.const_lev h2)]; exact hh.lv hsl x d (by omega) hx
    · intro d hd
      by_cases e : d = lev
      · subst e
        rcases hl : (List.range T).flatMap Qs with _ | ⟨x, l⟩
        · rw [hl] at htot; simp at htot; omega
        · exact ⟨x, (hh.mem x).1 (by rw [hl]; simp)⟩
      · exact hh.below d (by omega)
    · intro a i hn
      rw [hfr a i hn]; exact hh.frame a i hn

/-- RCM.cpp:285-460 `bfs_<BASE, SET_LEVEL, false>`, for every team and interleaving. -/
theorem bfsLevPar_ok (wf : A.WF) (hsq : A.n = A.m) (hT : 1 ≤ T) (hbig : 2 ≤ T * A.m) {s : Nat} (hs : s < A.m) {m0 : Mem (CTy R)} {sl : Bool} {sc : Option Int} {wd : Int}
    (hpat : HoldsPat m0 k base A) (hzero : ∀ x, Reaches A s x → m0 bfsBits (x : Int) = some (0 : Int))
    (hq0 : (T : Int) * A.m ≤ sz (bfsQ 0)) (hq1 : (T : Int) * A.m ≤ sz (bfsQ 1)) (hrp : (T : Int) * A.m ≤ sz bufA)
    (hbits : (A.m : Int) ≤ sz bfsBits) (hlevs : sl = true → (A.m : Int) ≤ sz bfsLev) :
    (bfsLevPar sz k base T A.m sl sc wd (s : Int)).Ok m0 (fun r m' =>
      ((∃ w, sc = some w ∧ w < (T : Int) * A.m) ∧ r.1 = -1 ∧ LsCut A s m0 m') ∨
      ∃ d : Nat, r.1 = (d : Int) + 1 ∧ r.2.1 ≤ max wd ((T : Int) * A.m) ∧ LsDone A T sl s d r.2.2 m0 m') := by
  have hbig' : (2 : Int) ≤ (T : Int) * A.m := by exact_mod_cast hbig
  unfold bfsLevPar
  refine seq_rule ?_
  unfold bfsLevStart
  have hrs : Reaches A s s := ⟨0, .nil⟩
  rw [wp_bind]
  refine wp_mono (Q := fun _ m' => (sl = true → m' bfsLev (s : Int) = some (0 : Int)) ∧ ∀ a i, ¬ (a = bfsLev ∧ i = (s : Int)) → m' a i = m0 a i) ?_ ?_
  · cases sl with
    | false => rw [if_neg (by simp)]; exact wp_pure.2 ⟨fun e => absurd e (by simp), fun _ _ _ => rfl⟩
    | true =>
      rw [if_pos rfl]
      refine wp_wr1 trivial ⟨by omega, by have := hlevs rfl; omega⟩ ⟨fun _ => Mem.get_same _ _ _ _, fun a i hn => ?_⟩
      rcases Mem.set_cases m0 bfsLev (s : Int) (0 : Int) a i with h | h
      · exact absurd h hn
      · exact h
  rintro _ mz ⟨hz1, hz2⟩
  unfold bfsStart
  refine wp_rd (0 : Int) trivial (by rw [hz2 _ _ (by simp)]; exact hzero s hrs) ?_
  refine wp_wr trivial ⟨by omega, by omega⟩ ?_
  refine wp_wr trivial ⟨by omega, by omega⟩ ?_
  refine wp_wr trivial ⟨by omega, by omega⟩ ?_
  generalize hm1 : ((mz.set bfsBits (s : Int) (1 : Int)).set (bfsQ 0) 0 (s : Int)).set bufA 0 (0 : Int) = m1
  have hcs : ∀ (m : Mem (CTy R)) b i v (a : CArr) j, LsCell A s b i → ¬ LsCell A s a j → (m.set b i v) a j = m a j := by
    intro m b i v a j hb ha
    rcases Mem.set_cases m b i v a j with ⟨rfl, rfl⟩ | e
    · exact absurd hb ha
    · exact e
  have c1 : LsCell A s bfsLev (s : Int) := Or.inr (Or.inr (Or.inr ⟨Or.inr rfl, s, hrs, rfl⟩))
  have c2 : LsCell A s bfsBits (s : Int) := Or.inr (Or.inr (Or.inr ⟨Or.inl rfl, s, hrs, rfl⟩))
  have c3 : ∀ i, LsCell A s (bfsQ 0) i := fun i => Or.inl rfl
  have c4 : ∀ i, LsCell A s bufA i := fun i => Or.inr (Or.inr (Or.inl rfl))
  have hfr : ∀ a i, ¬ LsCell A s a i → m1 a i = m0 a i := by
    intro a i h
    rw [← hm1, hcs _ _ _ _ _ _ (c4 _) h, hcs _ _ _ _ _ _ (c3 _) h, hcs _ _ _ _ _ _ c2 h, hz2 a i (by rintro ⟨rfl, rfl⟩; exact h c1)]
  have hnr : ∀ j i, ¬ LsCell A s (.rowptr j) i := by intro j i; simp [LsCell]
  have hnc : ∀ j i, ¬ LsCell A s (.colidx j) i := by intro j i; simp [LsCell]
  refine wp_rd ((A.ptr (s + 1) : Int) + base) trivial (by rw [hfr _ _ (hnr k _)]; exact_mod_cast hpat.rowptr (s + 1) (by omega)) ?_
  refine wp_rd ((A.ptr s : Int) + base) trivial (by rw [hfr _ _ (hnr k _)]; exact hpat.rowptr s (by omega)) ?_
  have hv : ((A.ptr (s + 1) : Int) + base - ((A.ptr s : Int) + base) : Int) = wS A.ptr (bfsEp A) [s] := by
    have : wS A.ptr (bfsEp A) [s] = rowWork A.ptr (bfsEp A) s := by simp [wS]
    rw [this, bfs_work]; omega
  rw [hv]
  refine wp_wr trivial ⟨by omega, by omega⟩ ?_
  rw [wp_pure]
  generalize hm2 : m1.set bufA 1 (wS A.ptr (bfsEp A) [s]) = m2
  have hfr2 : ∀ a i, ¬ LsCell A s a i → m2 a i = m0 a i := by
    intro a i h
    rw [← hm2, hcs _ _ _ _ _ _ (c4 _) h]; exact hfr a i h
  let Qs : Nat → List Nat := fun t => if t = 0 then [s] else []
  have hflat : (List.range T).flatMap Qs = [s] := by
    obtain ⟨T', rfl⟩ : ∃ T', T = T' + 1 := ⟨T - 1, by omega⟩
    rw [List.range_succ_eq_map, List.flatMap_cons, List.flatMap_map]
    show [s] ++ _ = _
    rw [List.flatMap_eq_nil_iff.2 (fun t _ => if_neg (by omega))]; rfl
  have hbs : ∀ x : Nat, m2 bfsBits (x : Int) = if x = s then some (1 : Int) else m0 bfsBits (x : Int) := by
    intro x
    rw [← hm2, Mem.set_other _ _ _ _ _ (by simp), ← hm1, Mem.set_other _ _ _ _ _ (by simp), Mem.set_other _ _ _ _ _ (by simp)]
    by_cases e : x = s
    · subst e; rw [if_pos rfl, Mem.get_same]
    · rw [if_neg e, Mem.get_ne _ _ _ _ _ (by omega), hz2 _ _ (by simp)]
  refine bfsLevLoop_ok wf hsq hT hs hq0 hq1 hrp hbits hlevs (A.m + 2) 0 _ _ _ wd Qs m2 (by omega) ?_
  refine ⟨⟨fun i hi => ?_, fun i hi => ?_⟩, ?_, ?_, ?_, fun t _ => ?_, fun h => by omega, ?_, ?_, ?_, ?_, ?_, ?_, fun d h => by omega, hfr2⟩
  · rw [hfr2 _ _ (hnr _ _)]; exact hpat.rowptr i hi
  · rw [hfr2 _ _ (hnc _ _)]; exact hpat.colidx i hi
  · intro t
    show (if t < T then (if t = 0 then (1 : Int) else 0) else 0) = ((if t = 0 then [s] else [] : List Nat).length : Int)
    by_cases h0 : t = 0
    · rw [if_pos h0, if_pos h0, if_pos (by omega)]; rfl
    · rw [if_neg h0, if_neg h0]; split <;> rfl
  · intro t
    show (if t < T then (if t = 0 then _ else 0) else 0) = wS A.ptr (bfsEp A) (if t = 0 then [s] else [])
    by_cases h0 : t = 0
    · rw [if_pos h0, if_pos h0, if_pos (by omega)]
    · rw [if_neg h0, if_neg h0]; split <;> rfl
  · intro t ht; exact if_neg (by omega)
  · show (if t = 0 then [s] else [] : List Nat).Nodup
    split <;> simp
  · intro t ht x y hx
    by_cases h0 : t = 0
    · subst h0
      have hx' : [s][x]? = some y := hx
      obtain rfl : x = 0 := by
        by_contra hne
        rw [List.getElem?_eq_none (by simp; omega)] at hx'; cases hx'
      obtain rfl : s = y := by simpa using hx'
      rw [← hm2, Mem.set_other _ _ _ _ _ (by simp), ← hm1, Mem.set_other _ _ _ _ _ (by simp)]
      show (Mem.set _ (bfsQ 0) 0 _) (bfsQ 0) _ = _
      rw [show ((0 : Nat) : Int) * A.m + ((0 : Nat) : Int) = 0 by simp, Mem.get_same]
    · have hx' : ([] : List Nat)[x]? = some y := by rw [← hx]; show _ = (if t = 0 then [s] else [])[x]?; rw [if_neg h0]
      simp at hx'
  · intro t ht hne
    have h0 : t = 0 := by
      by_contra hc
      exact hne (if_neg hc)
    subst h0
    intro x hx
    have hx1 : x = 0 ∨ x = 1 := by
      have : ([s] : List Nat).length = 1 := rfl
      have h2 : x ≤ ([s] : List Nat).length := hx
      omega
    show m2 bufA _ = some (wS A.ptr (bfsEp A) (([s] : List Nat).take x))
    rcases hx1 with rfl | rfl
    · rw [← hm2, show ((0 : Nat) : Int) * A.m + ((0 : Nat) : Int) = 0 by simp, Mem.get_ne _ _ _ _ _ (by omega), ← hm1, Mem.get_same]; rfl
    · rw [← hm2, show ((0 : Nat) : Int) * A.m + ((1 : Nat) : Int) = 1 by simp, Mem.get_same]; rfl
  · intro x
    rw [hflat, isDist_zero_iff]; simp
  · intro x hx
    rw [near_zero] at hx
    rw [hbs, if_pos hx]
  · intro x hx hn
    rw [near_zero] at hn
    rw [hbs, if_neg hn]; exact hzero x hx
  · intro hsl x d hd hx
    obtain rfl : d = 0 := by omega
    rw [isDist_zero_iff] at hx
    subst hx
    rw [← hm2, Mem.set_other _ _ _ _ _ (by simp), ← hm1, Mem.set_other _ _ _ _ _ (by simp), Mem.set_other _ _ _ _ _ (by simp),
      Mem.set_other _ _ _ _ _ (by simp)]
    exact hz1 hsl

end SpMP
