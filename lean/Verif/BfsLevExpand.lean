import Verif.BfsLevNode
import Verif.RcmPure
/-
The expansion phase of the breadth-first search that stores levels, and its loop over levels.
-/

namespace SpMP
open Spec

variable {R : Type}

namespace LvEnv

variable {E : LvEnv R}

/-- All neighbours of the node at position `ii` of queue `tt` are visited or marked. -/
def Done (E : LvEnv R) (Qs : Nat → List Nat) (S : Nat → Prop) (tt ii : Int) : Prop :=
  ∀ u : Nat, (Qs tt.toNat)[ii.toNat]? = some u → ∀ j, E.A.InRow u j → Near E.A E.s E.l (E.A.col j) ∨ S (E.A.col j)

theorem Done.mono {Qs : Nat → List Nat} {S S' : Nat → Prop} {tt ii : Int} (h : Done E Qs S tt ii) (hs : ∀ v, S v → S' v) : Done E Qs S' tt ii :=
  fun u hu j hj => (h u hu j hj).imp id (hs _)

theorem Start.next (h : E.Start) {u j : Nat} (hu : IsDist E.A E.s u E.l) (hj : E.A.InRow u j) : Near E.A E.s E.l (E.A.col j) ∨ E.Nx (E.A.col j) := by
  by_cases hn : Near E.A E.s E.l (E.A.col j)
  · exact Or.inl hn
  · exact Or.inr (isDist_succ_iff.2 ⟨hn, u, j, hu, hj, rfl⟩)

section
variable (h : E.Start) {t : Nat} (ht : t < E.T)
include h ht

/-- The neighbours of one node. -/
theorem LB_row {c : Int} {m1 : Mem (CTy R)} {x : LvKn} (hst : E.St t c m1 x) {u : Nat} (hu : IsDist E.A E.s u E.l) :
    E.env.LB t (bfsLevRow E.k E.base E.p E.sl (E.l + 1) ((t : Int) * E.A.m) (u : Int) c) m1 x
      (fun c' m' x' => E.St t c' m' x' ∧ (∀ w, x.S w → x'.S w) ∧ ∀ j, E.A.InRow u j → Near E.A E.s E.l (E.A.col j) ∨ x'.S (E.A.col j)) := by
  have eok := h.ok
  have hum := h.lt hu
  have hpm := h.wf.ptr_mono (show u ≤ u + 1 by omega) (show u + 1 ≤ E.A.m by omega)
  unfold bfsLevRow
  refine OwnEnv.LB_rd eok ht ((E.A.ptr u : Int) + (E.base : Int) : Int) (Or.inr (const_row _)) (by rw [hst.const _ _ (const_row _)]; exact h.pat.rowptr u (by omega)) ?_
  refine OwnEnv.LB_rd eok ht ((E.A.ptr (u + 1) : Int) + (E.base : Int) : Int) (Or.inr (const_row _))
    (by rw [hst.const _ _ (const_row _)]; exact_mod_cast h.pat.rowptr (u + 1) (by omega)) ?_
  refine OwnEnv.LB_forN eok ht (b := 0) (lo := E.A.ptr u) (hi := E.A.ptr (u + 1))
    (fun n c' m' x' => E.St t c' m' x' ∧ (∀ w, x.S w → x'.S w) ∧ ∀ j, E.A.ptr u ≤ j → j < n → Near E.A E.s E.l (E.A.col j) ∨ x'.S (E.A.col j)) hpm
    ⟨hst, fun _ h => h, fun j h1 h2 => by omega⟩ ?_ ?_ (by omega) (by omega)
  · rintro n c' m' x' h1 h2 ⟨s1, s2, s3⟩
    rw [Int.add_zero]
    have hj : E.A.InRow u n := ⟨hum, h1, h2⟩
    refine OwnEnv.LB_rd eok ht ((E.A.col n : Int) + (E.base : Int) : Int) (Or.inr (const_col _))
      (by rw [s1.const _ _ (const_col _)]; exact h.pat.colidx n (hj.lt_nnz h.wf)) ?_
    rw [show ((E.A.col n : Int) + E.base - E.base : Int) = (E.A.col n : Int) by omega]
    refine OwnEnv.LB_mono (LB_node h ht s1 (h.next hu hj)) ?_
    rintro c2 m2 x2 ⟨r1, r2, r3⟩
    refine ⟨r1, fun w hw => r2 w (s2 w hw), fun j a b => ?_⟩
    by_cases e : j = n
    · subst e; exact r3
    · exact (s3 j a (by omega)).imp id (r2 _)
  · rintro c' m' x' ⟨s1, s2, s3⟩
    exact ⟨s1, s2, fun j hj => s3 j hj.2.1 hj.2.2⟩

/-- The part of one thread. -/
theorem LB_expand {Qs : Nat → List Nat} (hQs : ∀ t, t < E.T → HoldsQ E.m0 (10 + E.p0) ((t : Int) * E.A.m) (Qs t))
    (hlev : ∀ t, t < E.T → ∀ u ∈ Qs t, IsDist E.A E.s u E.l) {qt : Nat → Int} {r : (Int × Int) × (Int × Int)}
    (hreg : ∀ tt ii, ExItem qt r tt ii → ∃ (tn i u : Nat), tt = tn ∧ ii = i ∧ tn < E.T ∧ (Qs tn)[i]? = some u) :
    E.env.LB t (bfsLevExpand E.k E.base E.A.m E.p0 E.p E.sl (E.l + 1) qt r t) E.m0 ⟨[], fun _ => False, fun _ => False⟩
      (fun q m' x' => E.St t q.1 m' x' ∧ q.2 = wS E.A.ptr (bfsEp E.A) x'.L ∧ ∀ tt ii, ExItem qt r tt ii → Done E Qs x'.S tt ii) := by
  have eok := h.ok
  obtain ⟨b1, b2⟩ := bnd h ht
  have hpos := h.src
  have z2 := h.sz_r
  have hp := h.hp
  have hp0 := h.hp0
  have hne := h.hne
  unfold bfsLevExpand
  refine OwnEnv.LB_seq eok ht (wp_write.2 ⟨⟨Or.inr rfl, by omega, by omega⟩, by omega, by show _ < E.sz bufA; omega, ?_⟩)
  have hst0 : E.St t 0 (E.m0.set bufA ((t : Int) * E.A.m) (0 : Int)) ⟨[], fun _ => False, fun _ => False⟩ := by
    refine ⟨rfl, ?_, ?_, List.nodup_nil, fun _ h => by simp at h, fun _ _ h => by simp at h, fun _ h => by simp at h, ?_⟩
    · intro x y hx; simp at hx
    · intro x hx
      obtain rfl : x = 0 := by simpa using hx
      rw [show (t : Int) * E.A.m + ((0 : Nat) : Int) = (t : Int) * E.A.m by omega, Mem.get_same]; rfl
    · intro a i hc
      rw [Mem.set_other _ _ _ _ _ hc.2.1]
  refine OwnEnv.LB_bind eok ?_
  refine OwnEnv.LB_forUp eok ht
    (fun z c m x => E.St t c m x ∧ ∀ tt ii, ExItem qt r tt ii → tt < z → Done E Qs x.S tt ii) ⟨hst0, fun tt ii a b => by have := a.1; omega⟩ ?_ ?_
  · rintro z c m x hz1 hz2 ⟨s1, s2⟩
    refine OwnEnv.LB_forUp eok ht
      (fun y c m x => E.St t c m x ∧ ∀ tt ii, ExItem qt r tt ii → (tt < z ∨ tt = z ∧ ii < y) → Done E Qs x.S tt ii) ⟨s1, fun tt ii a b => ?_⟩ ?_ ?_
    · rcases b with b | ⟨rfl, b⟩
      · exact s2 tt ii a b
      · have := a.2.2.1; omega
    · rintro y c m x hy1 hy2 ⟨s1, s2⟩
      have hit : ExItem qt r z y := ⟨hz1, hz2, hy1, hy2⟩
      obtain ⟨tn, i, u, rfl, rfl, htn, hu⟩ := hreg z y hit
      have hul := hlev tn htn u (List.mem_of_getElem? hu)
      have hcq : E.Const (bfsQ E.p0) ((tn : Int) * E.A.m + i) :=
        ⟨by intro e; injection e with e; omega, by intro e; injection e with e; omega, by
          rintro ⟨e | e, _⟩
          · injection e with e; omega
          · injection e with e; omega⟩
      have hnn : ¬ E.Nx u := fun hx => by have := hx.unique hul; omega
      refine OwnEnv.LB_rd eok ht (u : Int) (Or.inr hcq) (by rw [s1.const _ _ hcq]; exact hQs tn htn i u hu) ?_
      refine OwnEnv.LB_bind eok ?_
      refine OwnEnv.LB_mono (Q := fun _ m' x' => m' = m ∧ x' = x) ?_ ?_
      · unfold bfsLevCheck
        cases hsl : E.sl with
        | false =>
          rw [if_neg (by simp)]
          exact OwnEnv.LB_pure eok ht ⟨rfl, rfl⟩
        | true =>
          rw [if_pos rfl]
          refine OwnEnv.LB_rd eok ht (E.l : Int) (Or.inr (h.const_lev hnn)) (by rw [s1.const _ _ (h.const_lev hnn)]; exact h.lev hsl u hul) ?_
          have q : (E.l : Int) = ((E.l + 1 : Nat) : Int) - 1 := by omega
          unfold Prog.assert
          rw [if_pos q]
          exact OwnEnv.LB_pure eok ht ⟨rfl, rfl⟩
      rintro _ m x ⟨rfl, rfl⟩
      refine OwnEnv.LB_mono (LB_row h ht s1 hul) ?_
      rintro c' m' x' ⟨r1, r2, r3⟩
      refine ⟨r1, fun tt ii a b => ?_⟩
      by_cases e : tt = tn ∧ ii = i
      · obtain ⟨rfl, rfl⟩ := e
        intro u' hu'
        simp only [Int.toNat_natCast] at hu'
        rw [hu] at hu'
        injection hu' with hu'
        subst hu'
        exact r3
      · exact (s2 tt ii a (by omega)).mono r2
    · rintro c' m' x' ⟨r1, r2⟩
      refine ⟨r1, fun tt ii a b => r2 tt ii a ?_⟩
      by_cases e : tt < z
      · exact Or.inl e
      · obtain rfl : tt = z := by omega
        refine Or.inr ⟨rfl, ?_⟩
        have := a.2.2.2
        omega
  · rintro c m x ⟨s1, s2⟩
    have hl := h.len s1.nodup s1.nx
    refine OwnEnv.LB_rd eok ht (wS E.A.ptr (bfsEp E.A) x.L) (Or.inl ⟨Or.inr rfl, by have := s1.cnt; omega, by have := s1.cnt; omega⟩)
      (by rw [s1.cnt]; exact s1.sums.last) ?_
    refine OwnEnv.LB_pure eok ht ⟨s1, rfl, fun tt ii a => s2 tt ii a ?_⟩
    have := a.2.1
    omega

end

/-- The expansion phase, for every interleaving. -/
theorem expand_ok (h : E.Start) {Qs : Nat → List Nat} (hQs : ∀ t, t < E.T → HoldsQ E.m0 (10 + E.p0) ((t : Int) * E.A.m) (Qs t))
    (hmem : ∀ x, x ∈ (List.range E.T).flatMap Qs ↔ IsDist E.A E.s x E.l) {qt : Nat → Int} {r : Nat → (Int × Int) × (Int × Int)}
    (hreg : ∀ t, t < E.T → ∀ tt ii, ExItem qt (r t) tt ii → ∃ (tn i u : Nat), tt = tn ∧ ii = i ∧ tn < E.T ∧ (Qs tn)[i]? = some u)
    (hcov : ∀ tn i : Nat, tn < E.T → i < (Qs tn).length → ∃ t, t < E.T ∧ ExItem qt (r t) tn i)
    {Post : (Nat → Int × Int) → Mem (CTy R) → Prop}
    (hk : ∀ (q : Nat → Int × Int) (g : Nat → List Nat) (m : Mem (CTy R)),
      (∀ t, t < E.T → (q t).1 = ((g t).length : Int) ∧ (q t).2 = wS E.A.ptr (bfsEp E.A) (g t)) →
      (∀ t, t < E.T → HoldsQ m (10 + E.p) ((t : Int) * E.A.m) (g t) ∧ HoldsRP m E.A.ptr (bfsEp E.A) ((t : Int) * E.A.m) (g t)) →
      (∀ t, t < E.T → (g t).Nodup) →
      (∀ x, x ∈ (List.range E.T).flatMap g ↔ E.Nx x) →
      (∀ x, E.Nx x → m bfsBits (x : Int) = some (1 : Int) ∧ (E.sl = true → m bfsLev (x : Int) = some ((E.l + 1 : Nat) : Int))) →
      (∀ a i, E.Const a i → m a i = E.m0 a i) → Post q m) :
    ParOk E.sz E.T Post (fun t => bfsLevExpand E.k E.base E.A.m E.p0 E.p E.sl (E.l + 1) qt (r t) t) E.m0 := by
  have hlev : ∀ t, t < E.T → ∀ u ∈ Qs t, IsDist E.A E.s u E.l := fun t ht u hu =>
    (hmem u).1 (List.mem_flatMap.2 ⟨t, List.mem_range.2 ht, hu⟩)
  refine OwnEnv.team h.ok (g0 := fun _ => []) (x0 := fun _ => ⟨[], fun _ => False, fun _ => False⟩) ⟨fun _ _ _ => rfl, fun x hx => Or.inl (h.bit0 x hx)⟩
    (fun t _ => ⟨rfl, fun _ h => h.elim, fun _ h => h.elim⟩) (fun t ht => LB_expand h ht hQs hlev (hreg t ht)) ?_
  intro q g m hI hq
  have hI : E.Inv g m := hI
  have hgx : ∀ t, t < E.T → ∃ m1 x, E.env.Agree t m m1 ∧ E.K t x g m ∧ E.St t (q t).1 m1 x ∧ (q t).2 = wS E.A.ptr (bfsEp E.A) x.L ∧ x.L = g t ∧
      ∀ tt ii, ExItem qt (r t) tt ii → Done E Qs x.S tt ii := by
    intro t ht
    obtain ⟨m1, x, a1, a2, a3, a4, a5⟩ := hq t ht
    have a2 : E.K t x g m := a2
    exact ⟨m1, x, a1, a2, a3, a4, a2.own.symm, a5⟩
  have hall : ∀ x, E.Nx x → ∃ t, t < E.T ∧ x ∈ g t := by
    intro x hx
    obtain ⟨hn, u, j, hu, hj, rfl⟩ := isDist_succ_iff.1 hx
    obtain ⟨tn, htn, hu⟩ := List.mem_flatMap.1 ((hmem u).2 hu)
    obtain ⟨i, hil, hiu⟩ := List.getElem_of_mem hu
    obtain ⟨t, ht, hit⟩ := hcov tn i (List.mem_range.1 htn) hil
    obtain ⟨m1, y, _, a2, _, _, _, a5⟩ := hgx t ht
    rcases a5 _ _ hit u (by simp only [Int.toNat_natCast]; rw [List.getElem?_eq_getElem hil, hiu]) j hj with hc | hc
    · exact absurd hc hn
    · have hb := (a2.bit _ hc).2
      rcases hI.bit _ hx with hz | ⟨_, hz⟩
      · rw [hb] at hz
        have e : (1 : Int) = 0 := by injection hz
        omega
      · exact hz
  refine hk q g m ?_ ?_ ?_ ?_ ?_ hI.const
  · intro t ht
    obtain ⟨m1, x, _, _, a3, a4, a5, _⟩ := hgx t ht
    rw [← a5]; exact ⟨a3.cnt, a4⟩
  · intro t ht
    obtain ⟨m1, x, a1, _, a3, _, a5, _⟩ := hgx t ht
    have hl := h.len a3.nodup a3.nx
    rw [← a5]
    exact ⟨a3.queue.congr fun i c1 c2 => a1 _ _ (Or.inl ⟨Or.inl rfl, c1, by omega⟩), a3.sums.congr fun i c1 c2 => a1 _ _ (Or.inl ⟨Or.inr rfl, c1, by omega⟩)⟩
  · intro t ht
    obtain ⟨m1, x, _, _, a3, _, a5, _⟩ := hgx t ht
    rw [← a5]; exact a3.nodup
  · intro x
    rw [List.mem_flatMap]
    constructor
    · rintro ⟨t, ht, hx⟩
      obtain ⟨m1, y, _, _, a3, _, a5, _⟩ := hgx t (List.mem_range.1 ht)
      rw [← a5] at hx
      exact a3.nx x hx
    · intro hx
      obtain ⟨t, ht, hm⟩ := hall x hx
      exact ⟨t, List.mem_range.2 ht, hm⟩
  · intro x hx
    obtain ⟨t, ht, hm⟩ := hall x hx
    obtain ⟨m1, y, _, a2, a3, _, a5, _⟩ := hgx t ht
    rw [← a5] at hm
    exact ⟨(a2.bit x (a3.bit x hm)).2, fun hsl => (a2.lev x (a3.lev hsl x hm)).2⟩

end LvEnv

end SpMP
