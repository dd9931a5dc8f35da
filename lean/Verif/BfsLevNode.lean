import Verif.BfsLev
import Verif.BfsLevel
import Verif.OwnTeam
/-
The expansion of a level of the breadth-first search that stores levels and marks nodes without atomic operations, for every
interleaving: every new queue is free of repetitions and holds nodes of the next level, and together they hold all of them.
-/

namespace SpMP
open Spec

variable {R : Type}

/-- The team that expands level `l` from queues `p0` into queues `p`. -/
structure LvEnv (R : Type) where
  sz : CArr → Int
  k : Nat
  base : Nat
  T : Nat
  p : Nat
  p0 : Nat
  sl : Bool
  l : Nat
  A : Csr R
  s : Nat
  m0 : Mem (CTy R)

/-- What a thread knows: the nodes it has claimed, nodes whose level is stored, nodes that are marked. -/
structure LvKn where
  L : List Nat
  P : Nat → Prop
  S : Nat → Prop

namespace LvEnv

variable (E : LvEnv R)

/-- The nodes of the next level. -/
abbrev Nx (x : Nat) : Prop := IsDist E.A E.s x (E.l + 1)

def Const (a : CArr) (i : Int) : Prop :=
  a ≠ bfsQ E.p ∧ a ≠ bufA ∧ ¬ ((a = bfsBits ∨ a = bfsLev) ∧ ∃ x : Nat, E.Nx x ∧ i = (x : Int))

/-- `g t` are the nodes claimed by thread `t`. -/
structure Inv (g : Nat → List Nat) (m : Mem (CTy R)) : Prop where
  const : ∀ a i, E.Const a i → m a i = E.m0 a i
  bit : ∀ x, E.Nx x → m bfsBits (x : Int) = some (0 : Int) ∨ (m bfsBits (x : Int) = some (1 : Int) ∧ ∃ t, t < E.T ∧ x ∈ g t)

structure X (t : Nat) (g : Nat → List Nat) (m : Mem (CTy R)) (g' : Nat → List Nat) (m' : Mem (CTy R)) : Prop where
  own : g' t = g t
  bit : ∀ x, E.Nx x → m bfsBits (x : Int) = some (1 : Int) → m' bfsBits (x : Int) = some (1 : Int)
  lev : ∀ x, E.Nx x → m bfsLev (x : Int) = some ((E.l + 1 : Nat) : Int) → m' bfsLev (x : Int) = some ((E.l + 1 : Nat) : Int)

structure K (t : Nat) (x : LvKn) (g : Nat → List Nat) (m : Mem (CTy R)) : Prop where
  own : g t = x.L
  bit : ∀ v, x.S v → E.Nx v ∧ m bfsBits (v : Int) = some (1 : Int)
  lev : ∀ v, x.P v → E.Nx v ∧ m bfsLev (v : Int) = some ((E.l + 1 : Nat) : Int)

def env : OwnEnv (CTy R) (Nat → List Nat) LvKn where
  sz := E.sz
  T := E.T
  m0 := E.m0
  Own := ExOwn E.A.m E.p
  Loc := ExOwn E.A.m E.p
  Const := E.Const
  Inv := E.Inv
  X := E.X
  K := E.K

structure Start : Prop where
  wf : E.A.WF
  sq : E.A.n = E.A.m
  src : E.s < E.A.m
  hp : E.p < 2
  hp0 : E.p0 < 2
  hne : E.p0 ≠ E.p
  pat : HoldsPat E.m0 E.k E.base E.A
  bit1 : ∀ x, Near E.A E.s E.l x → E.m0 bfsBits (x : Int) = some (1 : Int)
  bit0 : ∀ x, E.Nx x → E.m0 bfsBits (x : Int) = some (0 : Int)
  lev : E.sl = true → ∀ x, IsDist E.A E.s x E.l → E.m0 bfsLev (x : Int) = some (E.l : Int)
  sz_q : (E.T : Int) * E.A.m ≤ E.sz (bfsQ E.p)
  sz_r : (E.T : Int) * E.A.m ≤ E.sz bufA
  sz_b : (E.A.m : Int) ≤ E.sz bfsBits
  sz_l : E.sl = true → (E.A.m : Int) ≤ E.sz bfsLev

variable {E}

theorem ne_bits (hp : E.p < 2) : bfsBits ≠ bfsQ E.p := by intro e; injection e with e; omega
theorem ne_lev (hp : E.p < 2) : bfsLev ≠ bfsQ E.p := by intro e; injection e with e; omega

/-- A write to an own cell changes no shared cell. -/
theorem own_other (hp : E.p < 2) {t : Nat} {a : CArr} {i : Int} {v : CTy R a} (ho : ExOwn E.A.m E.p t a i) (m : Mem (CTy R)) (b : CArr) (j : Int)
    (hb : b = bfsBits ∨ b = bfsLev) : m.set a i v b j = m b j := by
  rw [Mem.set_other]
  rintro rfl
  rcases ho.1 with rfl | rfl
  · rcases hb with h | h
    · exact ne_bits hp h.symm
    · exact ne_lev hp h.symm
  · simp at hb

theorem own_const {t : Nat} {a : CArr} {i : Int} (ho : ExOwn E.A.m E.p t a i) (hc : E.Const a i) : False := by
  rcases ho.1 with e | e
  · exact hc.1 e
  · exact hc.2.1 e

theorem Start.ok (h : E.Start) : E.env.Ok where
  disj _ _ _ _ _ _ hne h1 h2 := exOwn_disj hne h1 h2
  con_own _ _ _ _ hc ho := own_const ho hc
  const _ _ a i hI hc := Inv.const hI a i hc
  refl _ _ _ := ⟨rfl, fun _ _ h => h, fun _ _ h => h⟩
  trans _ _ _ _ _ _ _ h1 h2 := ⟨h2.own.trans h1.own, fun x hx hb => h2.bit x hx (h1.bit x hx hb), fun x hx hb => h2.lev x hx (h1.lev x hx hb)⟩
  stable _ _ _ _ _ _ _ _ _ hk hr :=
    have hx : E.X _ _ _ _ _ := hr.2
    have hk : E.K _ _ _ _ := hk
    ⟨hx.own.trans hk.own, fun v hv => ⟨(hk.bit v hv).1, hx.bit v (hk.bit v hv).1 (hk.bit v hv).2⟩,
      fun v hv => ⟨(hk.lev v hv).1, hx.lev v (hk.lev v hv).1 (hk.lev v hv).2⟩⟩
  loc_own _ _ _ h := h
  loc_inv t g m a i v _ hI hl := by
    have hI : E.Inv g m := hI
    refine ⟨fun b j hc => ?_, fun x hx => ?_⟩
    · rcases Mem.set_cases m a i v b j with ⟨rfl, rfl⟩ | e
      · exact (own_const hl hc).elim
      · rw [e]; exact hI.const b j hc
    · rw [own_other h.hp hl m _ _ (Or.inl rfl)]; exact hI.bit x hx
  loc_X t u g m a i v _ _ _ _ hl := by
    refine ⟨rfl, fun x _ hb => ?_, fun x _ hb => ?_⟩
    · rw [own_other h.hp hl m _ _ (Or.inl rfl)]; exact hb
    · rw [own_other h.hp hl m _ _ (Or.inr rfl)]; exact hb
  loc_K t x g m a i v _ _ hk hl := by
    have hk : E.K t x g m := hk
    refine ⟨hk.own, fun w hw => ⟨(hk.bit w hw).1, ?_⟩, fun w hw => ⟨(hk.lev w hw).1, ?_⟩⟩
    · rw [own_other h.hp hl m _ _ (Or.inl rfl)]; exact (hk.bit w hw).2
    · rw [own_other h.hp hl m _ _ (Or.inr rfl)]; exact (hk.lev w hw).2

/-- Progress of thread `t`: its view `m1`, its knowledge `x`, its counter `c`. -/
structure St (E : LvEnv R) (t : Nat) (c : Int) (m1 : Mem (CTy R)) (x : LvKn) : Prop where
  cnt : c = (x.L.length : Int)
  queue : HoldsQ m1 (10 + E.p) ((t : Int) * E.A.m) x.L
  sums : HoldsRP m1 E.A.ptr (bfsEp E.A) ((t : Int) * E.A.m) x.L
  nodup : x.L.Nodup
  nx : ∀ v ∈ x.L, E.Nx v
  lev : E.sl = true → ∀ v ∈ x.L, x.P v
  bit : ∀ v ∈ x.L, x.S v
  const : ∀ a i, E.Const a i → m1 a i = E.m0 a i

theorem Start.lt (h : E.Start) {x d : Nat} (hx : IsDist E.A E.s x d) : x < E.A.m := hx.1.lt h.wf h.src h.sq

/-- The source is on no later level, so a queue of the next level has room for one more sum. -/
theorem Start.len (h : E.Start) {l : List Nat} (hn : l.Nodup) (hx : ∀ v ∈ l, E.Nx v) : l.length < E.A.m := by
  have h1 : (E.s :: l).Nodup := List.nodup_cons.2 ⟨fun hm => by have := (hx _ hm).unique (isDist_zero (A := E.A) (s := E.s)); omega, hn⟩
  have h2 : (E.s :: l) ⊆ List.range E.A.m := by
    intro x hx'
    rcases List.mem_cons.1 hx' with rfl | hx'
    · exact List.mem_range.2 h.src
    · exact List.mem_range.2 (h.lt (hx x hx'))
  have := (List.subperm_of_subset h1 h2).length_le
  rw [List.length_range, List.length_cons] at this
  omega

theorem const_row (i : Int) : E.Const (.rowptr E.k) i := ⟨by simp, by simp, by simp⟩
theorem const_col (i : Int) : E.Const (.colidx E.k) i := ⟨by simp, by simp, by simp⟩

theorem Start.const_bit (h : E.Start) {v : Nat} (hn : ¬ E.Nx v) : E.Const bfsBits (v : Int) :=
  ⟨ne_bits h.hp, by simp, fun ⟨_, x, hx, e⟩ => hn (by rw [show v = x by omega]; exact hx)⟩

theorem Start.const_lev (h : E.Start) {v : Nat} (hn : ¬ E.Nx v) : E.Const bfsLev (v : Int) :=
  ⟨ne_lev h.hp, by simp, fun ⟨_, x, hx, e⟩ => hn (by rw [show v = x by omega]; exact hx)⟩

theorem near_not_nx {v : Nat} (h : Near E.A E.s E.l v) : ¬ E.Nx v := by
  rintro hx
  obtain ⟨d, h1, h2⟩ := h
  have := h2.unique hx
  omega

section
variable (h : E.Start) {t : Nat} (ht : t < E.T)
include h ht

theorem bnd : (t : Int) * E.A.m + E.A.m ≤ (E.T : Int) * E.A.m ∧ 0 ≤ (t : Int) * E.A.m := by
  have := Nat.mul_le_mul_right E.A.m (show t + 1 ≤ E.T from ht)
  rw [Nat.add_mul] at this
  exact ⟨by exact_mod_cast (by omega : t * E.A.m + E.A.m ≤ E.T * E.A.m), Int.mul_nonneg (by omega) (by omega)⟩

/-- Appending a claimed node to the queue. -/
theorem wp_push {c : Int} {m1 : Mem (CTy R)} {L : List Nat} {v : Nat} (hv : v < E.A.m) (hlen : L.length + 1 < E.A.m) (hc : c = (L.length : Int))
    (hq : HoldsQ m1 (10 + E.p) ((t : Int) * E.A.m) L) (hr : HoldsRP m1 E.A.ptr (bfsEp E.A) ((t : Int) * E.A.m) L)
    (hm : ∀ a i, E.Const a i → m1 a i = E.m0 a i) {Q : Unit → Mem (CTy R) → Prop}
    (hQ : ∀ m, HoldsQ m (10 + E.p) ((t : Int) * E.A.m) (L ++ [v]) → HoldsRP m E.A.ptr (bfsEp E.A) ((t : Int) * E.A.m) (L ++ [v]) →
      (∀ a i, E.Const a i → m a i = E.m0 a i) → Q () m) :
    wp E.sz (ExOwn E.A.m E.p t) (fun a i => ExOwn E.A.m E.p t a i ∨ E.Const a i) (bfsPush E.k E.p ((t : Int) * E.A.m) c (v : Int)) m1 Q := by
  obtain ⟨b1, b2⟩ := bnd h ht
  have z1 := h.sz_q
  have z2 := h.sz_r
  have hp := h.hp
  subst hc
  unfold bfsPush
  refine wp_wr ⟨Or.inl rfl, by omega, by omega⟩ ⟨by omega, by omega⟩ ?_
  generalize hm2 : m1.set (bfsQ E.p) ((t : Int) * E.A.m + (L.length : Int)) (v : Int) = m2
  have f2 : ∀ a i, E.Const a i → m2 a i = E.m0 a i := by
    intro a i hc
    rw [← hm2, Mem.set_other _ _ _ _ _ hc.1]; exact hm a i hc
  have r2 : HoldsRP m2 E.A.ptr (bfsEp E.A) ((t : Int) * E.A.m) L := hr.congr fun i _ _ => by
    rw [← hm2, Mem.set_other _ _ _ _ _ (by intro e; injection e with e; omega)]
  have q2 : HoldsQ m2 (10 + E.p) ((t : Int) * E.A.m) (L ++ [v]) := by
    refine HoldsQ.snoc (hq.congr fun i _ a2 => ?_) ?_
    · rw [← hm2, Mem.get_ne _ _ _ _ _ (by omega)]
    · rw [← hm2, Mem.get_same]
  refine wp_rd _ (Or.inl ⟨Or.inr rfl, by omega, by omega⟩) r2.last ?_
  refine wp_rd ((E.A.ptr (v + 1) : Int) + E.base) (Or.inr (const_row _))
    (by rw [f2 _ _ (const_row _)]; exact_mod_cast h.pat.rowptr (v + 1) (by omega)) ?_
  refine wp_rd ((E.A.ptr v : Int) + E.base) (Or.inr (const_row _)) (by rw [f2 _ _ (const_row _)]; exact h.pat.rowptr v (by omega)) ?_
  have hval : (wS E.A.ptr (bfsEp E.A) L + ((E.A.ptr (v + 1) : Int) + E.base) - ((E.A.ptr v : Int) + E.base) : Int) =
      wS E.A.ptr (bfsEp E.A) L + rowWork E.A.ptr (bfsEp E.A) v := by rw [bfs_work]; omega
  rw [hval]
  refine wp_wr1 ⟨Or.inr rfl, by omega, by omega⟩ ⟨by omega, by omega⟩ ?_
  refine hQ _ ?_ ?_ ?_
  · exact q2.congr fun i _ _ => by rw [Mem.set_other _ _ _ _ _ (by intro e; injection e with e; omega)]
  · refine HoldsRP.snoc (r2.congr fun i _ a2 => ?_) ?_
    · rw [Mem.get_ne _ _ _ _ _ (by omega)]
    · rw [Mem.get_same]
  · intro a i hc
    rw [Mem.set_other _ _ _ _ _ hc.2.1]; exact f2 a i hc

/-- One neighbour. -/
theorem LB_node {c : Int} {m1 : Mem (CTy R)} {x : LvKn} (hst : E.St t c m1 x) {v : Nat} (hv : Near E.A E.s E.l v ∨ E.Nx v) :
    E.env.LB t (bfsLevNode E.k E.p E.sl (E.l + 1) ((t : Int) * E.A.m) (v : Int) c) m1 x
      (fun c' m' x' => E.St t c' m' x' ∧ (∀ w, x.S w → x'.S w) ∧ (Near E.A E.s E.l v ∨ x'.S v)) := by
  have eok := h.ok
  unfold bfsLevNode
  rcases hv with hv | hv
  · refine OwnEnv.LB_rd eok ht (1 : Int) (Or.inr (h.const_bit (near_not_nx hv))) (by rw [hst.const _ _ (h.const_bit (near_not_nx hv))]; exact h.bit1 v hv) ?_
    have q : ¬ ((1 : Int) = 0) := by omega
    rw [if_neg q]
    exact OwnEnv.LB_pure eok ht ⟨hst, fun _ h => h, Or.inl hv⟩
  · have hvm := h.lt hv
    have hvb : 0 ≤ (v : Int) ∧ (v : Int) < E.sz bfsBits := ⟨by omega, by have := h.sz_b; omega⟩
    have hvl : E.sl = true → 0 ≤ (v : Int) ∧ (v : Int) < E.sz bfsLev := fun e => ⟨by omega, by have := h.sz_l e; omega⟩
    refine OwnEnv.LB_rdx eok ht ?_
    intro g m hI hk _
    have hI : E.Inv g m := hI
    have hk : E.K t x g m := hk
    rcases hI.bit v hv with hb | ⟨hb, _⟩
    · refine ⟨_, hb, x, hk, ?_⟩
      rw [if_pos rfl]
      have hvL : v ∉ x.L := by
        intro hm
        have := (hk.bit v (hst.bit v hm)).2
        rw [hb] at this
        have e : (0 : Int) = 1 := by injection this
        omega
      have hnd : (x.L ++ [v]).Nodup := by
        rw [List.nodup_append]
        exact ⟨hst.nodup, List.nodup_singleton _, fun a ha b hb e => hvL (by rw [← List.mem_singleton.1 hb, ← e]; exact ha)⟩
      have hnx : ∀ w ∈ x.L ++ [v], E.Nx w := by
        intro w hw
        rcases List.mem_append.1 hw with hw | hw
        · exact hst.nx w hw
        · rw [List.mem_singleton.1 hw]; exact hv
      have hlen := h.len hnd hnx
      rw [List.length_append, List.length_singleton] at hlen
      -- mark
      refine OwnEnv.LB_bind eok ?_
      unfold bfsMark
      refine OwnEnv.LB_rdx eok ht ?_
      intro g m hI hk _
      have hI : E.Inv g m := hI
      have hrd : ∃ b : Int, m bfsBits (v : Int) = some b := by
        rcases hI.bit v hv with hb | ⟨hb, _⟩
        · exact ⟨_, hb⟩
        · exact ⟨_, hb⟩
      obtain ⟨b, hb⟩ := hrd
      refine ⟨b, hb, x, hk, ?_⟩
      show E.env.LB t (Prog.write bfsBits (v : Int) (1 : Int) >>= fun _ => pure ()) m1 x _
      refine OwnEnv.LB_wrx eok ht m1 ⟨x.L ++ [v], x.P, fun w => x.S w ∨ w = v⟩ hvb ?_ ?_
      · intro g m hI hk ha
        have hI : E.Inv g m := hI
        have hk : E.K t x g m := hk
        refine ⟨Function.update g t (x.L ++ [v]), ⟨?_, ?_⟩, ?_, ⟨Function.update_self _ _ _, ?_, ?_⟩, ?_⟩
        · intro a i hc
          rcases Mem.set_cases m bfsBits (v : Int) (1 : Int) a i with ⟨rfl, rfl⟩ | e
          · exact absurd ⟨Or.inl rfl, v, hv, rfl⟩ hc.2.2
          · rw [e]; exact hI.const a i hc
        · intro w hw
          by_cases e : w = v
          · subst e
            exact Or.inr ⟨Mem.get_same _ _ _ _, t, ht, by rw [Function.update_self]; simp⟩
          · rw [Mem.get_ne _ _ _ _ _ (by omega)]
            rcases hI.bit w hw with hb | ⟨hb, u, hu, hm⟩
            · exact Or.inl hb
            · refine Or.inr ⟨hb, u, hu, ?_⟩
              by_cases e : u = t
              · subst e; rw [Function.update_self]; rw [hk.own] at hm; exact List.mem_append_left _ hm
              · rw [Function.update_of_ne e]; exact hm
        · intro u hu hne
          refine ⟨fun a i ho => ?_, ⟨Function.update_of_ne hne _ _, fun w _ hb => ?_, fun w _ hb => ?_⟩⟩
          · refine congrFun (Mem.set_other _ _ _ _ _ ?_) i
            rcases ho.1 with e | e
            · rw [e]; exact Ne.symm (ne_bits h.hp)
            · rw [e]; simp
          · by_cases e : w = v
            · subst e; exact Mem.get_same _ _ _ _
            · rw [Mem.get_ne _ _ _ _ _ (by omega)]; exact hb
          · rw [Mem.set_other _ _ _ _ _ (by simp)]; exact hb
        · rintro w (hw | rfl)
          · refine ⟨(hk.bit w hw).1, ?_⟩
            by_cases e : w = v
            · subst e; exact Mem.get_same _ _ _ _
            · rw [Mem.get_ne _ _ _ _ _ (by omega)]; exact (hk.bit w hw).2
          · exact ⟨hv, Mem.get_same _ _ _ _⟩
        · intro w hw
          rw [Mem.set_other _ _ _ _ _ (by simp)]; exact hk.lev w hw
        · intro a i hoc
          rcases Mem.set_cases m bfsBits (v : Int) (1 : Int) a i with ⟨rfl, rfl⟩ | e
          · rcases hoc with ho | hc
            · rcases ho.1 with e | e
              · exact absurd e (ne_bits h.hp)
              · simp at e
            · exact absurd ⟨Or.inl rfl, v, hv, rfl⟩ hc.2.2
          · rw [e]; exact ha a i hoc
      refine OwnEnv.LB_pure eok ht ?_
      -- level
      refine OwnEnv.LB_bind eok ?_
      have hlevel : E.env.LB t (if E.sl then Prog.write (ty := CTy R) bfsLev (v : Int) ((E.l + 1 : Nat) : Int) else pure () : Prog (CTy R) Unit) m1
          ⟨x.L ++ [v], x.P, fun w => x.S w ∨ w = v⟩
          (fun _ m' x' => m' = m1 ∧ x'.L = x.L ++ [v] ∧ x'.S = (fun w => x.S w ∨ w = v) ∧ (E.sl = true → ∀ w, x.P w ∨ w = v → x'.P w)) := by
        cases hsl : E.sl with
        | false =>
          rw [if_neg (by simp)]
          exact OwnEnv.LB_pure eok ht ⟨rfl, rfl, rfl, fun e => by cases e⟩
        | true =>
          rw [if_pos rfl]
          show E.env.LB t (Prog.write bfsLev (v : Int) ((E.l + 1 : Nat) : Int) >>= fun _ => pure ()) m1 _ _
          refine OwnEnv.LB_wrx eok ht m1 ⟨x.L ++ [v], fun w => x.P w ∨ w = v, fun w => x.S w ∨ w = v⟩ (hvl hsl) ?_
            (OwnEnv.LB_pure eok ht ⟨rfl, rfl, rfl, fun _ _ h => h⟩)
          · intro g m hI hk ha
            have hI : E.Inv g m := hI
            have hk : E.K t _ g m := hk
            refine ⟨g, ⟨?_, ?_⟩, ?_, ⟨hk.own, ?_, ?_⟩, ?_⟩
            · intro a i hc
              rcases Mem.set_cases m bfsLev (v : Int) ((E.l + 1 : Nat) : Int) a i with ⟨rfl, rfl⟩ | e
              · exact absurd ⟨Or.inr rfl, v, hv, rfl⟩ hc.2.2
              · rw [e]; exact hI.const a i hc
            · intro w hw
              rw [Mem.set_other _ _ _ _ _ (by simp)]; exact hI.bit w hw
            · intro u hu hne
              refine ⟨fun a i ho => ?_, ⟨rfl, fun w _ hb => ?_, fun w _ hb => ?_⟩⟩
              · refine congrFun (Mem.set_other _ _ _ _ _ ?_) i
                rcases ho.1 with e | e
                · rw [e]; exact Ne.symm (ne_lev h.hp)
                · rw [e]; simp
              · rw [Mem.set_other _ _ _ _ _ (by simp)]; exact hb
              · by_cases e : w = v
                · subst e; exact Mem.get_same _ _ _ _
                · rw [Mem.get_ne _ _ _ _ _ (by omega)]; exact hb
            · intro w hw
              rw [Mem.set_other _ _ _ _ _ (by simp)]; exact hk.bit w hw
            · rintro w (hw | rfl)
              · refine ⟨(hk.lev w hw).1, ?_⟩
                by_cases e : w = v
                · subst e; exact Mem.get_same _ _ _ _
                · rw [Mem.get_ne _ _ _ _ _ (by omega)]; exact (hk.lev w hw).2
              · exact ⟨hv, Mem.get_same _ _ _ _⟩
            · intro a i hoc
              rcases Mem.set_cases m bfsLev (v : Int) ((E.l + 1 : Nat) : Int) a i with ⟨rfl, rfl⟩ | e
              · rcases hoc with ho | hc
                · rcases ho.1 with e | e
                  · exact absurd e (ne_lev h.hp)
                  · simp at e
                · exact absurd ⟨Or.inr rfl, v, hv, rfl⟩ hc.2.2
              · rw [e]; exact ha a i hoc
      refine OwnEnv.LB_mono hlevel ?_
      rintro _ m1' x1 ⟨rfl, e1, e2, e3⟩
      -- push
      refine OwnEnv.LB_seq eok ht ?_
      refine wp_push h ht hvm hlen hst.cnt hst.queue hst.sums hst.const ?_
      intro m2 q1 q2 q3
      refine OwnEnv.LB_pure eok ht ⟨⟨?_, by rw [e1]; exact q1, by rw [e1]; exact q2, by rw [e1]; exact hnd, by rw [e1]; exact hnx, ?_, ?_, q3⟩,
        fun w hw => by rw [e2]; exact Or.inl hw, Or.inr (by rw [e2]; exact Or.inr rfl)⟩
      · rw [e1, List.length_append, List.length_singleton, hst.cnt]; push_cast; rfl
      · intro hsl w hw
        rw [e1] at hw
        refine e3 hsl w ?_
        rcases List.mem_append.1 hw with hw | hw
        · exact Or.inl (hst.lev hsl w hw)
        · exact Or.inr (List.mem_singleton.1 hw)
      · intro w hw
        rw [e1] at hw
        rw [e2]
        rcases List.mem_append.1 hw with hw | hw
        · exact Or.inl (hst.bit w hw)
        · exact Or.inr (List.mem_singleton.1 hw)
    · refine ⟨_, hb, ⟨x.L, x.P, fun w => x.S w ∨ w = v⟩, ⟨hk.own, ?_, hk.lev⟩, ?_⟩
      · rintro w (hw | rfl)
        · exact hk.bit w hw
        · exact ⟨hv, hb⟩
      have q : ¬ ((1 : Int) = 0) := by omega
      rw [if_neg q]
      exact OwnEnv.LB_pure eok ht ⟨⟨hst.cnt, hst.queue, hst.sums, hst.nodup, hst.nx, hst.lev, fun w hw => Or.inl (hst.bit w hw), hst.const⟩,
        fun w hw => Or.inl hw, Or.inr (Or.inr rfl)⟩

end

end LvEnv

end SpMP
