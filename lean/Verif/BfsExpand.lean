import Verif.Bfs
import Verif.BfsPure
import Verif.CompUnion
import Verif.LevelsMem
/-
The expansion of a level of the breadth-first search, for every interleaving: the new queues hold, without repetition, the unvisited
neighbours of the level.
-/

namespace SpMP
open Spec

variable {R : Type} {sz : CArr → Int} {A : Csr R} {k base T p : Nat} {B Cand : Nat → Prop} {m1 : Mem (CTy R)}

/-- End of the row, in the form the work sums of LevelsMem use: the work of a node is its degree. -/
def bfsEp (A : Csr R) (s : Nat) : Nat := A.ptr (s + 1) + 1

theorem bfs_work (A : Csr R) (s : Nat) : rowWork A.ptr (bfsEp A) s = (A.ptr (s + 1) : Int) - A.ptr s := by
  unfold rowWork bfsEp; push_cast; omega

/-- Cells of thread `t`: its queue and its sums. -/
def ExOwn (m p t : Nat) (a : CArr) (i : Int) : Prop := (a = bfsQ p ∨ a = bufA) ∧ (t : Int) * m ≤ i ∧ i < (t : Int) * m + m

theorem exOwn_disj {m t u : Nat} {a : CArr} {i : Int} (h : t ≠ u) (h1 : ExOwn m p t a i) (h2 : ExOwn m p u a i) : False := by
  obtain ⟨_, a1, a2⟩ := h1
  obtain ⟨_, b1, b2⟩ := h2
  have key : ∀ t u : Nat, t < u → (t : Int) * m + m ≤ (u : Int) * m := by
    intro t u h
    have := Nat.mul_le_mul_right m (show t + 1 ≤ u from h)
    rw [Nat.add_mul] at this
    exact_mod_cast (by omega : t * m + m ≤ u * m)
  rcases Nat.lt_or_gt_of_ne h with h | h
  · have := key _ _ h; omega
  · have := key _ _ h; omega

/-- `v` was visited before or has been claimed. -/
def Seen (T : Nat) (B : Nat → Prop) (g : Nat → List Nat) (v : Nat) : Prop := B v ∨ ∃ t, t < T ∧ v ∈ g t

/-- What holds throughout the expansion. `g t` are the nodes thread `t` has claimed. -/
structure ExInv (A : Csr R) (T p : Nat) (B Cand : Nat → Prop) (m1 : Mem (CTy R)) (g : Nat → List Nat) (m : Mem (CTy R)) : Prop where
  frame : ∀ a i, a ≠ bfsQ p → a ≠ bufA → a ≠ bfsBits → m a i = m1 a i
  one : ∀ x, x < A.m → Seen T B g x → m bfsBits (x : Int) = some (1 : Int)
  zero : ∀ x, x < A.m → ¬ Seen T B g x → m bfsBits (x : Int) = some (0 : Int)
  nodup : ((List.range T).flatMap g).Nodup
  new : ∀ t, t < T → ∀ x ∈ g t, x < A.m ∧ ¬ B x ∧ Cand x

def Grow (g g' : Nat → List Nat) : Prop := ∀ u x, x ∈ g u → x ∈ g' u

theorem Grow.refl (g : Nat → List Nat) : Grow g g := fun _ _ h => h
theorem Grow.trans {g1 g2 g3 : Nat → List Nat} (h1 : Grow g1 g2) (h2 : Grow g2 g3) : Grow g1 g3 := fun u x h => h2 u x (h1 u x h)

theorem Seen.grow {g g' : Nat → List Nat} (h : Grow g g') {v : Nat} (hs : Seen T B g v) : Seen T B g' v := by
  rcases hs with h1 | ⟨t, ht, h1⟩
  · exact Or.inl h1
  · exact Or.inr ⟨t, ht, h t v h1⟩

def ExRely (m p t : Nat) (g : Nat → List Nat) (mm : Mem (CTy R)) (g' : Nat → List Nat) (mm' : Mem (CTy R)) : Prop :=
  g' t = g t ∧ (∀ a i, ExOwn m p t a i → mm' a i = mm a i) ∧ Grow g g'

def ExGuar (m p t : Nat) (g : Nat → List Nat) (mm : Mem (CTy R)) (g' : Nat → List Nat) (mm' : Mem (CTy R)) : Prop :=
  (∀ u, u ≠ t → g' u = g u) ∧ (∀ a i, a ≠ bfsBits → ¬ ExOwn m p t a i → mm' a i = mm a i) ∧ Grow g g'

theorem ExRely.rfl' {m t : Nat} {g : Nat → List Nat} {mm : Mem (CTy R)} : ExRely m p t g mm g mm := ⟨rfl, fun _ _ _ => rfl, Grow.refl g⟩
theorem ExRely.tr {m t : Nat} {g1 g2 g3 : Nat → List Nat} {m1 m2 m3 : Mem (CTy R)} (h1 : ExRely m p t g1 m1 g2 m2)
    (h2 : ExRely m p t g2 m2 g3 m3) : ExRely m p t g1 m1 g3 m3 :=
  ⟨h2.1.trans h1.1, fun a i h => (h2.2.1 a i h).trans (h1.2.1 a i h), h1.2.2.trans h2.2.2⟩
theorem ExGuar.rfl' {m t : Nat} {g : Nat → List Nat} {mm : Mem (CTy R)} : ExGuar m p t g mm g mm :=
  ⟨fun _ _ => rfl, fun _ _ _ _ => rfl, Grow.refl g⟩

/-- Progress of thread `t` that has claimed and queued its nodes. -/
structure ExSt (A : Csr R) (p t : Nat) (c : Int) (g : Nat → List Nat) (m : Mem (CTy R)) : Prop where
  cnt : c = ((g t).length : Int)
  queue : HoldsQ m (10 + p) ((t : Int) * A.m) (g t)
  sums : HoldsRP m A.ptr (bfsEp A) ((t : Int) * A.m) (g t)

theorem ExInv.len {g : Nat → List Nat} {m : Mem (CTy R)} (h : ExInv A T p B Cand m1 g m) {s : Nat} (hs : s < A.m) (hB : B s) {t : Nat}
    (ht : t < T) : (g t).length < A.m := by
  have hnd : (g t).Nodup := (List.nodup_flatMap.1 h.nodup).1 t (List.mem_range.2 ht)
  have h1 : (s :: g t).Nodup := List.nodup_cons.2 ⟨fun hm => (h.new t ht s hm).2.1 hB, hnd⟩
  have h2 : (s :: g t) ⊆ List.range A.m := by
    intro x hx
    rcases List.mem_cons.1 hx with rfl | hx
    · exact List.mem_range.2 hs
    · exact List.mem_range.2 (h.new t ht x hx).1
  have := (List.subperm_of_subset h1 h2).length_le
  rw [List.length_range, List.length_cons] at this
  omega

theorem ExSt.stable {g g' : Nat → List Nat} {m m' : Mem (CTy R)} {t : Nat} {c : Int} (h : ExSt A p t c g m) (hl : (g t).length < A.m)
    (hr : ExRely A.m p t g m g' m') : ExSt A p t c g' m' := by
  obtain ⟨h1, h2, h3⟩ := h
  obtain ⟨r1, r2, _⟩ := hr
  refine ⟨by rw [r1]; exact h1, ?_, ?_⟩
  · rw [r1]; exact h2.congr (fun i a1 a2 => r2 _ _ ⟨Or.inl rfl, a1, by omega⟩)
  · rw [r1]; exact h3.congr (fun i a1 a2 => r2 _ _ ⟨Or.inr rfl, a1, by omega⟩)

/-- Claiming a node. -/
theorem ExInv.claim {g : Nat → List Nat} {m : Mem (CTy R)} (h : ExInv A T p B Cand m1 g m) {t v : Nat} (ht : t < T) (hv : v < A.m)
    (hc : Cand v) (hn : ¬ Seen T B g v) :
    ExInv A T p B Cand m1 (Function.update g t (g t ++ [v])) (m.set bfsBits (v : Int) (1 : Int)) := by
  have hup : ∀ x, Seen T B (Function.update g t (g t ++ [v])) x ↔ Seen T B g x ∨ x = v := by
    intro x
    constructor
    · rintro (h1 | ⟨u, hu, h1⟩)
      · exact Or.inl (Or.inl h1)
      · by_cases e : u = t
        · subst e; rw [Function.update_self] at h1
          rcases List.mem_append.1 h1 with h1 | h1
          · exact Or.inl (Or.inr ⟨u, hu, h1⟩)
          · exact Or.inr (by simpa using h1)
        · rw [Function.update_of_ne e] at h1; exact Or.inl (Or.inr ⟨u, hu, h1⟩)
    · rintro ((h1 | ⟨u, hu, h1⟩) | rfl)
      · exact Or.inl h1
      · refine Or.inr ⟨u, hu, ?_⟩
        by_cases e : u = t
        · subst e; rw [Function.update_self]; exact List.mem_append_left _ h1
        · rw [Function.update_of_ne e]; exact h1
      · exact Or.inr ⟨t, ht, by rw [Function.update_self]; simp⟩
  refine ⟨?_, ?_, ?_, ?_, ?_⟩
  · intro a i h1 h2 h3
    rw [Mem.set_other _ _ _ _ _ h3]; exact h.frame a i h1 h2 h3
  · intro x hx hs
    by_cases e : x = v
    · subst e; exact Mem.get_same _ _ _ _
    · rw [Mem.get_ne _ _ _ _ _ (by omega)]
      rcases (hup x).1 hs with h1 | h1
      · exact h.one x hx h1
      · exact absurd h1 e
  · intro x hx hs
    have e : x ≠ v := fun e => hs ((hup x).2 (Or.inr e))
    rw [Mem.get_ne _ _ _ _ _ (by omega)]
    exact h.zero x hx (fun h1 => hs ((hup x).2 (Or.inl h1)))
  · obtain ⟨h1, h2⟩ := List.nodup_flatMap.1 h.nodup
    refine List.nodup_flatMap.2 ⟨?_, ?_⟩
    · intro u hu
      by_cases e : u = t
      · subst e
        rw [Function.update_self, List.nodup_append]
        refine ⟨h1 u hu, List.nodup_singleton _, ?_⟩
        intro x hx y hy e
        rw [List.mem_singleton] at hy
        subst hy; subst e
        exact hn (Or.inr ⟨u, ht, hx⟩)
      · rw [Function.update_of_ne e]; exact h1 u hu
    · refine List.Pairwise.imp_of_mem ?_ (h2.and (List.nodup_range (n := T)))
      rintro a b ha hb ⟨hd, hab⟩
      show List.Disjoint _ _
      intro x hx hy
      have hd : List.Disjoint (g a) (g b) := hd
      by_cases ea : a = t
      · subst ea
        have eb : b ≠ a := fun e => hab e.symm
        rw [Function.update_self] at hx
        rw [Function.update_of_ne eb] at hy
        rcases List.mem_append.1 hx with hx | hx
        · exact hd hx hy
        · rw [List.mem_singleton] at hx; subst hx
          exact hn (Or.inr ⟨b, List.mem_range.1 hb, hy⟩)
      · rw [Function.update_of_ne ea] at hx
        by_cases eb : b = t
        · subst eb
          rw [Function.update_self] at hy
          rcases List.mem_append.1 hy with hy | hy
          · exact hd hx hy
          · rw [List.mem_singleton] at hy; subst hy
            exact hn (Or.inr ⟨a, List.mem_range.1 ha, hx⟩)
        · rw [Function.update_of_ne eb] at hy; exact hd hx hy
  · intro u hu x hx
    by_cases e : u = t
    · subst e; rw [Function.update_self] at hx
      rcases List.mem_append.1 hx with hx | hx
      · exact h.new u hu x hx
      · rw [List.mem_singleton] at hx; subst hx
        exact ⟨hv, fun hb => hn (Or.inl hb), hc⟩
    · rw [Function.update_of_ne e] at hx; exact h.new u hu x hx

theorem ExInv.own {g : Nat → List Nat} {m : Mem (CTy R)} (h : ExInv A T p B Cand m1 g m) {a : CArr} {i : Int} {v : CTy R a}
    (ha : a = bfsQ p ∨ a = bufA) (hp : p < 2) : ExInv A T p B Cand m1 g (m.set a i v) := by
  have hb : bfsBits ≠ a := by
    rcases ha with rfl | rfl
    · intro e; injection e with e; omega
    · simp
  refine ⟨?_, ?_, ?_, h.nodup, h.new⟩
  · intro b j h1 h2 h3
    rw [Mem.set_other _ _ _ _ _ (by rcases ha with rfl | rfl; exact h1; exact h2)]; exact h.frame b j h1 h2 h3
  · intro x hx hs; rw [Mem.set_other _ _ _ _ _ hb]; exact h.one x hx hs
  · intro x hx hs; rw [Mem.set_other _ _ _ _ _ hb]; exact h.zero x hx hs

/-- The neighbours of one node. -/
theorem bfsRow_rg (wf : A.WF) (hsq : A.n = A.m) (hpat : HoldsPat m1 k base A) (hp : p < 2) {s : Nat} (hs : s < A.m) (hB : B s)
    (hq : (T : Int) * A.m ≤ sz (bfsQ p)) (hrp : (T : Int) * A.m ≤ sz bufA) (hbits : (A.m : Int) ≤ sz bfsBits)
    {t : Nat} (ht : t < T) {u : Nat} (hu : u < A.m) (hcand : ∀ j, A.InRow u j → Cand (A.col j)) {g : Nat → List Nat} {m : Mem (CTy R)}
    (hI : ExInv A T p B Cand m1 g m) {c : Int} (hst : ExSt A p t c g m) :
    wpRG sz (ExInv A T p B Cand m1) (ExRely A.m p t) (ExGuar A.m p t) (bfsRow k base p ((t : Int) * A.m) (u : Int) c) g m
      (fun c' g' m' => ExSt A p t c' g' m' ∧ Grow g g' ∧ ∀ j, A.InRow u j → Seen T B g' (A.col j)) := by
  have hbnd : (t : Int) * A.m + A.m ≤ (T : Int) * A.m := by
    have := Nat.mul_le_mul_right A.m (show t + 1 ≤ T from ht)
    rw [Nat.add_mul] at this
    exact_mod_cast (by omega : t * A.m + A.m ≤ T * A.m)
  have ho0 : 0 ≤ (t : Int) * A.m := Int.mul_nonneg (by omega) (by omega)
  have hrow : ∀ {g m}, ExInv A T p B Cand m1 g m → ∀ i ≤ A.m, m (.rowptr k) (i : Int) = some ((A.ptr i : Int) + base) :=
    fun h i hi => by rw [h.frame _ _ (by simp) (by simp) (by simp)]; exact hpat.rowptr i hi
  have hrow' : ∀ {g m}, ExInv A T p B Cand m1 g m → ∀ i < A.m, m (.rowptr k) ((i : Int) + 1) = some ((A.ptr (i + 1) : Int) + base) :=
    fun h i hi => hrow h (i + 1) (by omega)
  unfold bfsRow
  refine wpRG_rd (fun _ _ => ExGuar.rfl') fun ga ma hra hia => ⟨_, hrow hia u (by omega), ?_⟩
  refine wpRG_rd (fun _ _ => ExGuar.rfl') fun gb mb hrb hib => ⟨_, hrow' hib u hu, ?_⟩
  have hstb := (hst.stable (hI.len hs hB ht) hra).stable (hia.len hs hB ht) hrb
  have hg0 : Grow g gb := hra.2.2.trans hrb.2.2
  have hpm := wf.ptr_mono (show u ≤ u + 1 by omega) (show u + 1 ≤ A.m by omega)
  refine wpRG_forUp (Inv := ExInv A T p B Cand m1) (fun _ _ => ExRely.rfl') (fun _ _ _ _ _ _ => ExRely.tr)
    (fun i c g' m' => ∃ n : Nat, i = (n : Int) ∧ A.ptr u ≤ n ∧ n ≤ A.ptr (u + 1) ∧ ExInv A T p B Cand m1 g' m' ∧ ExSt A p t c g' m' ∧ Grow g g' ∧
      ∀ j, A.ptr u ≤ j → j < n → Seen T B g' (A.col j)) ?_ hib ?_ ?_ ?_
  · rintro i c g1 m1' g2 m2 ⟨n, h1, h2, h3, h0, h4, h5, h6⟩ hr hi
    exact ⟨n, h1, h2, h3, hi, h4.stable (h0.len hs hB ht) hr, h5.trans hr.2.2, fun j a b => (h6 j a b).grow hr.2.2⟩
  · refine ⟨A.ptr u, by omega, Nat.le_refl _, hpm, hib, hstb, hg0, fun j a b => by omega⟩
  · rintro i c g1 m1' hlo hhi hi1 ⟨n, rfl, h2, h3, _, h4, h5, h6⟩
    have hnlt : n < A.ptr (u + 1) := by omega
    have hin : A.InRow u n := ⟨hu, h2, hnlt⟩
    have hnz := hin.lt_nnz wf
    have hcl : A.col n < A.m := by have := wf.col_lt n hnz; omega
    refine wpRG_rd (fun _ _ => ExGuar.rfl') fun g2 m2 hr2 hi2 => ⟨(A.col n : Int) + base, ?_, ?_⟩
    · rw [hi2.frame _ _ (by simp) (by simp) (by simp)]; exact hpat.colidx n hnz
    have hv : ((A.col n : Int) + base - base : Int) = A.col n := by omega
    rw [hv]
    have h4' := h4.stable (hi1.len hs hB ht) hr2
    have h5' := h5.trans hr2.2.2
    have h6' : ∀ j, A.ptr u ≤ j → j < n → Seen T B g2 (A.col j) := fun j a b => (h6 j a b).grow hr2.2.2
    refine wpRG_bind (fun _ _ => ExRely.rfl') (fun _ _ _ _ _ _ => ExRely.tr) hi2 ?_
    unfold bfsTas
    refine wpRG_rd (fun _ _ => ExGuar.rfl') fun g3 m3 hr3 hi3 => ?_
    have h4b := h4'.stable (hi2.len hs hB ht) hr3
    have h5b := h5'.trans hr3.2.2
    have h6b : ∀ j, A.ptr u ≤ j → j < n → Seen T B g3 (A.col j) := fun j a b => (h6' j a b).grow hr3.2.2
    -- the neighbour has been seen
    have lost : ∀ g4 m4, ExInv A T p B Cand m1 g4 m4 → ExSt A p t c g4 m4 → Grow g g4 → (∀ j, A.ptr u ≤ j → j < n → Seen T B g4 (A.col j)) →
        Seen T B g4 (A.col n) →
        wpRG sz (ExInv A T p B Cand m1) (ExRely A.m p t) (ExGuar A.m p t) (pure c : Prog (CTy R) Int) g4 m4 (fun c' g' m' =>
          ∃ n' : Nat, (n : Int) + 1 = (n' : Int) ∧ A.ptr u ≤ n' ∧ n' ≤ A.ptr (u + 1) ∧ ExInv A T p B Cand m1 g' m' ∧ ExSt A p t c' g' m' ∧
            Grow g g' ∧ ∀ j, A.ptr u ≤ j → j < n' → Seen T B g' (A.col j)) := by
      intro g4 m4 i4 s4 w4 v4 n4
      refine wpRG_pure fun g5 m5 r5 i5 => ⟨n + 1, by omega, by omega, by omega, i5, s4.stable (i4.len hs hB ht) r5, w4.trans r5.2.2, ?_⟩
      intro j a b
      by_cases e : j = n
      · subst e; exact n4.grow r5.2.2
      · exact (v4 j a (by omega)).grow r5.2.2
    by_cases hs3 : Seen T B g3 (A.col n)
    · refine ⟨(1 : Int), hi3.one _ hcl hs3, ?_⟩
      rw [if_neg (show ¬ ((1 : Int) = 0) by decide)]
      refine wpRG_pure fun g4 m4 r4 i4 => ?_
      rw [if_neg (by simp)]
      exact lost g4 m4 i4 (h4b.stable (hi3.len hs hB ht) r4) (h5b.trans r4.2.2) (fun j a b => (h6b j a b).grow r4.2.2) (hs3.grow r4.2.2)
    · refine ⟨(0 : Int), hi3.zero _ hcl hs3, ?_⟩
      rw [if_pos rfl]
      refine wpRG_rmw fun g4 m4 hr4 hi4 => ⟨by omega, by omega, ?_⟩
      have h4c := h4b.stable (hi3.len hs hB ht) hr4
      have h5c := h5b.trans hr4.2.2
      have h6c : ∀ j, A.ptr u ≤ j → j < n → Seen T B g4 (A.col j) := fun j a b => (h6b j a b).grow hr4.2.2
      by_cases hs4 : Seen T B g4 (A.col n)
      · refine ⟨(1 : Int), hi4.one _ hcl hs4, g4, ?_⟩
        have hid : m4.set bfsBits (A.col n : Int) (1 : Int) = m4 := Mem.set_self (hi4.one _ hcl hs4)
        rw [hid]
        refine ⟨ExGuar.rfl', hi4, ?_⟩
        refine wpRG_pure fun g5 m5 r5 i5 => ?_
        rw [decide_eq_false (show ¬ ((1 : Int) = 0) by decide), if_neg (by simp)]
        exact lost g5 m5 i5 (h4c.stable (hi4.len hs hB ht) r5) (h5c.trans r5.2.2) (fun j a b => (h6c j a b).grow r5.2.2) (hs4.grow r5.2.2)
      · have hc1 := hi4.claim ht hcl (hcand n hin) hs4
        have hgr : Grow g4 (Function.update g4 t (g4 t ++ [A.col n])) := by
          intro w x hx
          by_cases e : w = t
          · subst e; rw [Function.update_self]; exact List.mem_append_left _ hx
          · rw [Function.update_of_ne e]; exact hx
        refine ⟨(0 : Int), hi4.zero _ hcl hs4, Function.update g4 t (g4 t ++ [A.col n]), ?_, hc1, ?_⟩
        · refine ⟨fun w hw => Function.update_of_ne hw _ _, fun a i ha _ => by rw [Mem.set_other _ _ _ _ _ ha], hgr⟩
        have hlen := hc1.len hs hB ht
        rw [Function.update_self, List.length_append, List.length_singleton] at hlen
        generalize hg5 : Function.update g4 t (g4 t ++ [A.col n]) = g5 at *
        have hg5t : g5 t = g4 t ++ [A.col n] := by rw [← hg5, Function.update_self]
        generalize hm5 : m4.set bfsBits (A.col n : Int) (1 : Int) = m5 at *
        have hq5 : HoldsQ m5 (10 + p) ((t : Int) * A.m) (g4 t) := by
          refine h4c.queue.congr fun i _ _ => ?_
          rw [← hm5, Mem.set_other _ _ _ _ _ (by intro e; injection e with e; omega)]
        have hr5 : HoldsRP m5 A.ptr (bfsEp A) ((t : Int) * A.m) (g4 t) := by
          refine h4c.sums.congr fun i _ _ => ?_
          rw [← hm5, Mem.set_other _ _ _ _ _ (by simp)]
        have hcnt := h4c.cnt
        have h6d : ∀ j, A.ptr u ≤ j → j < n + 1 → Seen T B g5 (A.col j) := by
          intro j a b
          by_cases e : j = n
          · subst e; exact Or.inr ⟨t, ht, by rw [hg5t]; simp⟩
          · exact (h6c j a (by omega)).grow hgr
        have h5d : Grow g g5 := h5c.trans hgr
        -- push
        refine wpRG_pure fun g6 m6 r6 i6 => ?_
        rw [decide_eq_true (show ((0 : Int) = 0) from rfl), if_pos rfl]
        have hq6 : HoldsQ m6 (10 + p) ((t : Int) * A.m) (g4 t) :=
          hq5.congr fun i a1 a2 => r6.2.1 _ _ ⟨Or.inl rfl, a1, by omega⟩
        have hr6 : HoldsRP m6 A.ptr (bfsEp A) ((t : Int) * A.m) (g4 t) :=
          hr5.congr fun i a1 a2 => r6.2.1 _ _ ⟨Or.inr rfl, a1, by omega⟩
        refine wpRG_bind (fun _ _ => ExRely.rfl') (fun _ _ _ _ _ _ => ExRely.tr) i6 ?_
        unfold bfsPush
        rw [hcnt]
        refine wpRG_wr fun g7 m7 r7 i7 => ⟨by omega, by omega, g7, ?_, i7.own (Or.inl rfl) hp, ?_⟩
        · refine ⟨fun _ _ => rfl, fun a i _ ho => ?_, Grow.refl _⟩
          by_cases e : a = bfsQ p
          · subst e
            rw [Mem.get_ne _ _ _ _ _ (fun e => ho ⟨Or.inl rfl, by omega, by omega⟩)]
          · rw [Mem.set_other _ _ _ _ _ e]
        have hq7 : HoldsQ m7 (10 + p) ((t : Int) * A.m) (g4 t) :=
          hq6.congr fun i a1 a2 => r7.2.1 _ _ ⟨Or.inl rfl, a1, by omega⟩
        have hr7 : HoldsRP m7 A.ptr (bfsEp A) ((t : Int) * A.m) (g4 t) :=
          hr6.congr fun i a1 a2 => r7.2.1 _ _ ⟨Or.inr rfl, a1, by omega⟩
        have i7' := i7.own (a := bfsQ p) (i := (t : Int) * A.m + (g4 t).length) (v := ((A.col n : Nat) : Int)) (Or.inl rfl) hp
        generalize hm8 : m7.set (bfsQ p) ((t : Int) * A.m + (g4 t).length) ((A.col n : Nat) : Int) = m8 at *
        have hq8 : HoldsQ m8 (10 + p) ((t : Int) * A.m) (g4 t ++ [A.col n]) := by
          refine HoldsQ.snoc (hq7.congr fun i a1 a2 => ?_) ?_
          · rw [← hm8, Mem.get_ne _ _ _ _ _ (by omega)]
          · rw [← hm8, Mem.get_same]
        have hr8 : HoldsRP m8 A.ptr (bfsEp A) ((t : Int) * A.m) (g4 t) := by
          refine hr7.congr fun i a1 a2 => ?_
          rw [← hm8, Mem.set_other _ _ _ _ _ (by intro e; injection e with e; omega)]
        refine wpRG_rd (fun _ _ => ExGuar.rfl') fun g9 m9 r9 i9 => ?_
        have hr9 : HoldsRP m9 A.ptr (bfsEp A) ((t : Int) * A.m) (g4 t) :=
          hr8.congr fun i a1 a2 => r9.2.1 _ _ ⟨Or.inr rfl, a1, by omega⟩
        refine ⟨_, hr9.last, ?_⟩
        refine wpRG_rd (fun _ _ => ExGuar.rfl') fun ga ma ra ia => ⟨_, hrow' ia _ hcl, ?_⟩
        refine wpRG_rd (fun _ _ => ExGuar.rfl') fun gb mb rb ib => ⟨_, hrow ib (A.col n) (by omega), ?_⟩
        have rall : ExRely A.m p t g7 m8 gb mb := (r9.tr ra).tr rb
        have hqb : HoldsQ mb (10 + p) ((t : Int) * A.m) (g4 t ++ [A.col n]) :=
          hq8.congr fun i a1 a2 => rall.2.1 _ _ ⟨Or.inl rfl, a1, by rw [List.length_append, List.length_singleton] at a2; omega⟩
        have hrb : HoldsRP mb A.ptr (bfsEp A) ((t : Int) * A.m) (g4 t) :=
          hr8.congr fun i a1 a2 => rall.2.1 _ _ ⟨Or.inr rfl, a1, by omega⟩
        have hgt : ∀ gc mc, ExRely A.m p t gb mb gc mc → gc t = g4 t ++ [A.col n] := by
          intro gc mc r
          rw [r.1, rall.1, r7.1, r6.1, hg5t]
        have hgrow : Grow g5 gb := (r6.2.2.trans r7.2.2).trans rall.2.2
        have hval : (wS A.ptr (bfsEp A) (g4 t) + ((A.ptr (A.col n + 1) : Int) + base) - ((A.ptr (A.col n) : Int) + base) : Int) =
            wS A.ptr (bfsEp A) (g4 t) + rowWork A.ptr (bfsEp A) (A.col n) := by rw [bfs_work]; omega
        rw [hval]
        intro gc mc rc ic
        have hqc : HoldsQ mc (10 + p) ((t : Int) * A.m) (g4 t ++ [A.col n]) :=
          hqb.congr fun i a1 a2 => rc.2.1 _ _ ⟨Or.inl rfl, a1, by rw [List.length_append, List.length_singleton] at a2; omega⟩
        have hrc : HoldsRP mc A.ptr (bfsEp A) ((t : Int) * A.m) (g4 t) :=
          hrb.congr fun i a1 a2 => rc.2.1 _ _ ⟨Or.inr rfl, a1, by omega⟩
        refine ⟨by omega, by omega, gc, ?_, ic.own (Or.inr rfl) hp, ?_⟩
        · refine ⟨fun _ _ => rfl, fun a i _ ho => ?_, Grow.refl _⟩
          by_cases e : a = bufA
          · subst e
            rw [Mem.get_ne _ _ _ _ _ (fun e => ho ⟨Or.inr rfl, by omega, by omega⟩)]
          · rw [Mem.set_other _ _ _ _ _ e]
        have hgc := hgt gc mc rc
        have hfin : ExSt A p t (((g4 t).length : Int) + 1) gc
            (mc.set bufA ((t : Int) * A.m + (g4 t).length + 1) (wS A.ptr (bfsEp A) (g4 t) + rowWork A.ptr (bfsEp A) (A.col n))) := by
          refine ⟨by rw [hgc, List.length_append, List.length_singleton]; push_cast; rfl, ?_, ?_⟩
          · rw [hgc]
            refine hqc.congr fun i a1 a2 => ?_
            rw [Mem.set_other _ _ _ _ _ (by intro e; injection e with e; omega)]
          · rw [hgc]
            refine HoldsRP.snoc (hrc.congr fun i a1 a2 => ?_) ?_
            · rw [Mem.get_ne _ _ _ _ _ (by omega)]
            · rw [Mem.get_same]
        have ifin := ic.own (a := bufA) (i := (t : Int) * A.m + (g4 t).length + 1)
          (v := (wS A.ptr (bfsEp A) (g4 t) + rowWork A.ptr (bfsEp A) (A.col n) : Int)) (Or.inr rfl) hp
        refine fun gd md rd idd => wpRG_pure fun ge me re ie => ?_
        have r2 := rd.tr re
        have hgrow2 : Grow g5 ge := (hgrow.trans rc.2.2).trans r2.2.2
        exact ⟨n + 1, by omega, by omega, by omega, ie, hfin.stable (ifin.len hs hB ht) r2, h5d.trans hgrow2,
          fun j a b => (h6d j a b).grow hgrow2⟩
  · rintro c' g' m' ⟨n, h1, h2, h3, _, h4, h5, h6⟩
    refine ⟨h4, h5, fun j hj => h6 j hj.2.1 ?_⟩
    have := hj.2.2
    omega

/-- Position (`tt`, `ii`) of the frontier is in the part `r`. -/
def ExItem (qt : Nat → Int) (r : (Int × Int) × (Int × Int)) (tt ii : Int) : Prop :=
  r.1.1 ≤ tt ∧ tt < r.2.1 + 1 ∧ (if tt = r.1.1 then r.1.2 else 0) ≤ ii ∧ ii < (if tt = r.2.1 then r.2.2 else qt tt.toNat)

/-- The neighbours of the node at position (`tt`, `ii`) have been seen. -/
def DoneItem (A : Csr R) (T : Nat) (B : Nat → Prop) (Qs : Nat → List Nat) (g : Nat → List Nat) (tt ii : Int) : Prop :=
  ∀ u, (Qs tt.toNat)[ii.toNat]? = some u → ∀ j, A.InRow u j → Seen T B g (A.col j)

theorem DoneItem.grow {Qs g g' : Nat → List Nat} (hg : Grow g g') {tt ii : Int} (h : DoneItem A T B Qs g tt ii) : DoneItem A T B Qs g' tt ii :=
  fun u hu j hj => (h u hu j hj).grow hg

theorem bfsExpand_rg (wf : A.WF) (hsq : A.n = A.m) (hpat : HoldsPat m1 k base A) (hp : p < 2) {s : Nat} (hs : s < A.m) (hB : B s)
    (hq : (T : Int) * A.m ≤ sz (bfsQ p)) (hrp : (T : Int) * A.m ≤ sz bufA) (hbits : (A.m : Int) ≤ sz bfsBits)
    {p0 : Nat} (hp0 : p0 < 2) (hne : p0 ≠ p) {Qs : Nat → List Nat} (hQs : ∀ t, t < T → HoldsQ m1 (10 + p0) ((t : Int) * A.m) (Qs t))
    {qt : Nat → Int} {r : (Int × Int) × (Int × Int)}
    (hreg : ∀ tt ii, ExItem qt r tt ii → ∃ (tn i u : Nat), tt = tn ∧ ii = i ∧ tn < T ∧ (Qs tn)[i]? = some u)
    (hcand : ∀ t, t < T → ∀ u ∈ Qs t, u < A.m ∧ ∀ j, A.InRow u j → Cand (A.col j))
    (hI : ExInv A T p B Cand m1 (fun _ => []) m1) {t : Nat} (ht : t < T) :
    wpRG sz (ExInv A T p B Cand m1) (ExRely A.m p t) (ExGuar A.m p t) (bfsExpand k base A.m p0 p qt r t) (fun _ => []) m1
      (fun q g m => ExSt A p t q.1 g m ∧ q.2 = wS A.ptr (bfsEp A) (g t) ∧ ∀ tt ii, ExItem qt r tt ii → DoneItem A T B Qs g tt ii) := by
  have hbnd : (t : Int) * A.m + A.m ≤ (T : Int) * A.m := by
    have := Nat.mul_le_mul_right A.m (show t + 1 ≤ T from ht)
    rw [Nat.add_mul] at this
    exact_mod_cast (by omega : t * A.m + A.m ≤ T * A.m)
  have ho0 : 0 ≤ (t : Int) * A.m := Int.mul_nonneg (by omega) (by omega)
  unfold bfsExpand
  refine wpRG_wr fun ga ma hra hia => ⟨by omega, by omega, ga, ?_, hia.own (Or.inr rfl) hp, ?_⟩
  · refine ⟨fun _ _ => rfl, fun a i _ ho => ?_, Grow.refl _⟩
    by_cases e : a = bufA
    · subst e
      rw [Mem.get_ne _ _ _ _ _ (fun e => ho ⟨Or.inr rfl, by omega, by omega⟩)]
    · rw [Mem.set_other _ _ _ _ _ e]
  have hia' := hia.own (a := bufA) (i := (t : Int) * A.m) (v := (0 : Int)) (Or.inr rfl) hp
  have hsta : ExSt A p t 0 ga (ma.set bufA ((t : Int) * A.m) (0 : Int)) := by
    have e : ga t = [] := hra.1
    refine ⟨by rw [e]; rfl, ?_, ?_⟩
    · rw [e]; intro x y hx; simp at hx
    · rw [e]; intro x hx
      obtain rfl : x = 0 := by simpa using hx
      rw [show (t : Int) * A.m + ((0 : Nat) : Int) = (t : Int) * A.m by omega, Mem.get_same]; rfl
  refine wpRG_bind (fun _ _ => ExRely.rfl') (fun _ _ _ _ _ _ => ExRely.tr) hia' ?_
  refine wpRG_forUp (Inv := ExInv A T p B Cand m1) (fun _ _ => ExRely.rfl') (fun _ _ _ _ _ _ => ExRely.tr)
    (fun x c g m => ExInv A T p B Cand m1 g m ∧ ExSt A p t c g m ∧ ∀ tt ii, ExItem qt r tt ii → tt < x → DoneItem A T B Qs g tt ii) ?_ hia' ?_ ?_ ?_
  · rintro x c g1 m1' g2 m2 ⟨h0, h1, h2⟩ hr hi
    exact ⟨hi, h1.stable (h0.len hs hB ht) hr, fun tt ii a b => (h2 tt ii a b).grow hr.2.2⟩
  · refine ⟨hia', hsta, fun tt ii a b => ?_⟩
    have := a.1; omega
  · rintro x c gb mb hxl hxh hib ⟨_, hst1, hd1⟩
    refine wpRG_mono (wpRG_forUp (Inv := ExInv A T p B Cand m1) (fun _ _ => ExRely.rfl') (fun _ _ _ _ _ _ => ExRely.tr)
      (Q := fun c g m => ExInv A T p B Cand m1 g m ∧ ExSt A p t c g m ∧ ∀ tt ii, ExItem qt r tt ii → tt < x + 1 → DoneItem A T B Qs g tt ii)
      (fun y c g m => ExInv A T p B Cand m1 g m ∧ ExSt A p t c g m ∧
        ∀ tt ii, ExItem qt r tt ii → (tt < x ∨ tt = x ∧ ii < y) → DoneItem A T B Qs g tt ii) ?_ hib ?_ ?_ ?_) (fun _ _ _ _ h => h)
    · rintro y c g1 m1' g2 m2 ⟨h0, h1, h2⟩ hr hi
      exact ⟨hi, h1.stable (h0.len hs hB ht) hr, fun tt ii a b => (h2 tt ii a b).grow hr.2.2⟩
    · refine ⟨hib, hst1, fun tt ii a b => ?_⟩
      rcases b with b | ⟨rfl, b⟩
      · exact hd1 tt ii a b
      · have := a.2.2.1; omega
    · rintro y c gc mc hyl hyh hic ⟨_, hst2, hd2⟩
      have hit : ExItem qt r x y := ⟨hxl, hxh, hyl, hyh⟩
      obtain ⟨tn, i, u, rfl, rfl, htn, hu⟩ := hreg x y hit
      obtain ⟨hum, hcu⟩ := hcand tn htn u (List.mem_of_getElem? hu)
      refine wpRG_rd (fun _ _ => ExGuar.rfl') fun gd md hrd hid => ⟨(u : Int), ?_, ?_⟩
      · rw [hid.frame _ _ (by intro e; injection e with e; omega) (by intro e; injection e with e; omega) (by intro e; injection e with e; omega)]
        exact hQs tn htn i u hu
      refine wpRG_mono (bfsRow_rg wf hsq hpat hp hs hB hq hrp hbits ht hum hcu hid (hst2.stable (hic.len hs hB ht) hrd)) ?_
      rintro c' ge me hie ⟨h1, h2, h3⟩
      refine ⟨hie, h1, fun tt ii a b => ?_⟩
      by_cases e : tt = tn ∧ ii = i
      · obtain ⟨rfl, rfl⟩ := e
        intro u' hu'
        simp only [Int.toNat_natCast] at hu'
        rw [hu] at hu'
        injection hu' with hu'
        subst hu'
        exact h3
      · exact ((hd2 tt ii a (by omega)).grow hrd.2.2).grow h2
    · rintro c' g' m' ⟨h0, h1, h2⟩
      refine ⟨h0, h1, fun tt ii a b => h2 tt ii a ?_⟩
      by_cases e : tt < x
      · exact Or.inl e
      · obtain rfl : tt = x := by omega
        refine Or.inr ⟨rfl, ?_⟩
        have := a.2.2.2
        omega
  · rintro c gb mb ⟨h0, h1, h2⟩
    refine wpRG_rd (fun _ _ => ExGuar.rfl') fun gc mc hrc hic => ?_
    have h1' := h1.stable (h0.len hs hB ht) hrc
    refine ⟨wS A.ptr (bfsEp A) (gc t), ?_, wpRG_pure fun gd md hrd hid => ⟨h1'.stable (hic.len hs hB ht) hrd, ?_, ?_⟩⟩
    · have := h1'.sums.last
      rw [← h1'.cnt] at this
      exact this
    · rw [hrd.1]
    · intro tt ii a
      refine ((h2 tt ii a ?_).grow hrc.2.2).grow hrd.2.2
      have := a.2.1; omega

/-- The expansion phase. -/
theorem bfsExpand_ok (wf : A.WF) (hsq : A.n = A.m) (hpat : HoldsPat m1 k base A) (hp : p < 2) {s : Nat} (hs : s < A.m) (hB : B s)
    (hq : (T : Int) * A.m ≤ sz (bfsQ p)) (hrp : (T : Int) * A.m ≤ sz bufA) (hbits : (A.m : Int) ≤ sz bfsBits)
    {p0 : Nat} (hp0 : p0 < 2) (hne : p0 ≠ p) {Qs : Nat → List Nat} (hQs : ∀ t, t < T → HoldsQ m1 (10 + p0) ((t : Int) * A.m) (Qs t))
    (hlt : ∀ t, t < T → ∀ u ∈ Qs t, u < A.m)
    (hone : ∀ x, x < A.m → B x → m1 bfsBits (x : Int) = some (1 : Int)) (hzero : ∀ x, x < A.m → ¬ B x → m1 bfsBits (x : Int) = some (0 : Int))
    {qt : Nat → Int} {r : Nat → (Int × Int) × (Int × Int)}
    (hreg : ∀ t, t < T → ∀ tt ii, ExItem qt (r t) tt ii → ∃ (tn i u : Nat), tt = tn ∧ ii = i ∧ tn < T ∧ (Qs tn)[i]? = some u)
    (hcov : ∀ tn i : Nat, tn < T → i < (Qs tn).length → ∃ t, t < T ∧ ExItem qt (r t) tn i)
    {α : Type} {K : (Nat → Int × Int) → Script (CTy R) α} {Q : α → Mem (CTy R) → Prop}
    (hk : ∀ (q : Nat → Int × Int) (g : Nat → List Nat) (m : Mem (CTy R)),
      (∀ t, t < T → (q t).1 = ((g t).length : Int) ∧ (q t).2 = wS A.ptr (bfsEp A) (g t)) →
      (∀ t, t < T → HoldsQ m (10 + p) ((t : Int) * A.m) (g t) ∧ HoldsRP m A.ptr (bfsEp A) ((t : Int) * A.m) (g t)) →
      ((List.range T).flatMap g).Nodup → (∀ t, t < T → (g t).length < A.m) →
      (∀ x, x ∈ (List.range T).flatMap g ↔ ¬ B x ∧ ∃ u j, u ∈ (List.range T).flatMap Qs ∧ A.InRow u j ∧ A.col j = x) →
      (∀ x, x < A.m → (B x ∨ x ∈ (List.range T).flatMap g) → m bfsBits (x : Int) = some (1 : Int)) →
      (∀ x, x < A.m → ¬ (B x ∨ x ∈ (List.range T).flatMap g) → m bfsBits (x : Int) = some (0 : Int)) →
      (∀ a i, a ≠ bfsQ p → a ≠ bufA → a ≠ bfsBits → m a i = m1 a i) → (K q).Ok m Q) :
    (Script.phase sz T (fun t => bfsExpand k base A.m p0 p qt (r t) t) K).Ok m1 Q := by
  let Cand : Nat → Prop := fun x => ∃ u j, u ∈ (List.range T).flatMap Qs ∧ A.InRow u j ∧ A.col j = x
  have hseen : ∀ (g : Nat → List Nat) x, Seen T B g x ↔ B x ∨ x ∈ (List.range T).flatMap g := by
    intro g x
    simp only [Seen, List.mem_flatMap, List.mem_range]
  have hI : ExInv A T p B Cand m1 (fun _ => []) m1 := by
    refine ⟨fun _ _ _ _ _ => rfl, ?_, ?_, ?_, ?_⟩
    · rintro x hx (h | ⟨_, _, h⟩)
      · exact hone x hx h
      · simp at h
    · intro x hx h; exact hzero x hx (fun hb => h (Or.inl hb))
    · rw [List.flatMap_eq_nil_iff.2 (fun _ _ => rfl)]; exact List.nodup_nil
    · intro t _ x hx; simp at hx
  refine rg_rule (Γ := Nat → List Nat) (ExInv A T p B Cand m1) (ExRely A.m p) (ExGuar A.m p)
    (fun t q g m => ExSt A p t q.1 g m ∧ q.2 = wS A.ptr (bfsEp A) (g t) ∧ ∀ tt ii, ExItem qt (r t) tt ii → DoneItem A T B Qs g tt ii)
    (fun _ => []) hI (fun _ _ _ => ExRely.rfl') (fun _ _ _ _ _ _ _ => ExRely.tr) ?_ ?_ ?_
  · rintro t u g m g' m' _ _ htu _ _ ⟨h1, h2, h3⟩
    refine ⟨h1 u (Ne.symm htu), fun a i ho => ?_, h3⟩
    refine h2 a i ?_ (fun h => exOwn_disj htu h ho)
    rintro rfl
    rcases ho.1 with e | e
    · injection e with e; omega
    · injection e with e; omega
  · intro t ht
    refine bfsExpand_rg wf hsq hpat hp hs hB hq hrp hbits hp0 hne hQs (hreg t ht) ?_ hI ht
    intro tn htn u hu
    refine ⟨hlt tn htn u hu, fun j hj => ⟨u, j, ?_, hj, rfl⟩⟩
    rw [List.mem_flatMap]; exact ⟨tn, List.mem_range.2 htn, hu⟩
  · intro q g m hi hq
    refine hk q g m (fun t ht => ⟨(hq t ht).1.cnt, (hq t ht).2.1⟩) (fun t ht => ⟨(hq t ht).1.queue, (hq t ht).1.sums⟩) hi.nodup
      (fun t ht => hi.len hs hB ht) ?_ (fun x hx h => hi.one x hx ((hseen g x).2 h)) (fun x hx h => hi.zero x hx (fun h' => h ((hseen g x).1 h'))) hi.frame
    intro x
    constructor
    · intro hx
      rw [List.mem_flatMap] at hx
      obtain ⟨t, ht, hx⟩ := hx
      exact (hi.new t (List.mem_range.1 ht) x hx).2
    · rintro ⟨hb, u, j, hu, hj, rfl⟩
      rw [List.mem_flatMap] at hu
      obtain ⟨tn, htn, hu⟩ := hu
      obtain ⟨i, hil, hiu⟩ := List.getElem_of_mem hu
      obtain ⟨t, ht, hit⟩ := hcov tn i (List.mem_range.1 htn) hil
      have := (hq t ht).2.2 _ _ hit u (by simp only [Int.toNat_natCast]; rw [List.getElem?_eq_getElem hil, hiu]) j hj
      rcases (hseen g _).1 this with h | h
      · exact absurd h hb
      · exact h

end SpMP
