import Verif.OwnTeam
import Verif.Pipe
import Verif.RcmSeq
/-
The pipelined placing of a large component: which cells a thread owns, the invariant of the shared cells, and what a thread knows.
-/

namespace SpMP
open Spec

variable {R : Type}

/-- The team that places the component of `s` in the rows of `A`: the matrix is object `k`, `D` are the levels and `N` the nodes of the
component, `off` is its first position, `m0` the memory when the loop over levels starts. -/
structure PipeEnv (R : Type) where
  sz : CArr → Int
  k : Nat
  T : Nat
  nl : Nat
  md : Nat
  off : Nat
  A : Csr R
  s : Nat
  D : Nat → Nat
  N : List Nat
  srt : List (Int × Int) → List (Int × Int)
  m0 : Mem (CTy R)

namespace PipeEnv

variable (E : PipeEnv R)

/-- The order in which the nodes are placed. -/
def L : List Nat := cmAll E.A E.s E.D E.N E.srt

/-- The nodes placed when the children of the first `r` positions have been placed. -/
def outs (r : Nat) : List Nat := cmOuts E.A E.s E.D E.srt r

/-- First position of level `l`. -/
def pf (l : Nat) : Nat := cmPf E.D E.N l

/-- Position of the `j`-th node in inversePerm. -/
def ix (j : Nat) : Int := (E.A.m : Int) - ((E.off + j : Nat) : Int) - 1

/-- The cells thread `t` writes: those of the nodes on the levels after its own, and its own children. -/
inductive Own (t : Nat) : CArr → Int → Prop
  | lev (j x l : Nat) : E.L[j]? = some x → E.D x = l + 1 → l % E.T = t → Own t bfsLev (x : Int)
  | inv (j x l : Nat) : E.L[j]? = some x → E.D x = l + 1 → l % E.T = t → Own t bfsInv (E.ix j)
  | prm (j x l : Nat) : E.L[j]? = some x → E.D x = l + 1 → l % E.T = t → Own t bfsPrm (x : Int)
  | wo (l : Nat) : l % E.T = t → Own t rcmWo (16 * ((l : Int) + 1))
  | chd (i : Nat) : i < E.md → Own t rcmChd ((t : Int) * E.md + i)

/-- Level `l` is published up to position `w`. -/
structure Pub (m : Mem (CTy R)) (l w : Nat) : Prop where
  wo : m rcmWo (16 * (l : Int)) = some ((E.off + w : Nat) : Int)
  lo : E.pf l ≤ w
  hi : w ≤ E.pf (l + 1)
  inv : ∀ j x : Nat, E.pf l ≤ j → j < w → E.L[j]? = some x → m bfsInv (E.ix j) = some (x : Int)
  prm : ∀ j x : Nat, E.pf l ≤ j → j < w → E.L[j]? = some x → m bfsPrm (x : Int) = some (E.ix j)

/-- The invariant of the shared cells. -/
structure Inv (m : Mem (CTy R)) : Prop where
  const : ∀ a i, (∀ t, t < E.T → ¬ E.Own t a i) → m a i = E.m0 a i
  lev : ∀ x, Reaches E.A E.s x → m bfsLev (x : Int) = some (-1 : Int) ∨ m bfsLev (x : Int) = some (E.D x : Int)
  pub : ∀ l, l ≤ E.nl → ∃ w, E.Pub m l w

/-- Position `q` of level `l` is published, or everything below it is. -/
def Know (l q : Nat) (m : Mem (CTy R)) : Prop := ∃ w : Nat, m rcmWo (16 * (l : Int)) = some ((E.off + w : Nat) : Int) ∧ q ≤ w

def env : OwnEnv (CTy R) Unit (Nat × Nat) where
  sz := E.sz
  T := E.T
  m0 := E.m0
  Own := E.Own
  Loc t a i := a = rcmChd ∧ E.Own t a i
  Const a i := ∀ t, t < E.T → ¬ E.Own t a i
  Inv _ m := E.Inv m
  X _ _ m _ m' := ∀ l q, E.Know l q m → E.Know l q m'
  K _ x _ m := E.Know x.1 x.2 m

/-- The starting state. -/
structure Start : Prop where
  cm : CmCtx E.A E.s E.D E.N E.srt
  team : 1 ≤ E.T
  levels : ∀ x, Reaches E.A E.s x → E.D x + 1 ≤ E.nl
  room : E.off + E.N.length ≤ E.A.m
  deg : ∀ u, u < E.A.m → degree E.A u ≤ E.md
  pat : HoldsPat E.m0 E.k 0 E.A
  pfx : ∀ l : Nat, l ≤ E.nl → E.m0 rcmPfx (l : Int) = some (E.pf l : Int)
  lev : ∀ x, Reaches E.A E.s x → E.m0 bfsLev (x : Int) = some (E.D x : Int)
  src_inv : E.m0 bfsInv (E.ix 0) = some (E.s : Int)
  src_prm : E.m0 bfsPrm (E.s : Int) = some (E.ix 0)
  wo_zero : E.m0 rcmWo 0 = some ((E.off + 1 : Nat) : Int)
  wo : ∀ l : Nat, l < E.nl → E.m0 rcmWo (16 * ((l : Int) + 1)) = some ((E.off + E.pf (l + 1) : Nat) : Int)
  sz_lev : (E.A.m : Int) ≤ E.sz bfsLev
  sz_inv : (E.A.m : Int) ≤ E.sz bfsInv
  sz_prm : (E.A.m : Int) ≤ E.sz bfsPrm
  sz_wo : 16 * (E.nl : Int) < E.sz rcmWo
  sz_chd : (E.T : Int) * E.md ≤ E.sz rcmChd

variable {E}

theorem own_lev {t : Nat} {i : Int} (h : E.Own t bfsLev i) : ∃ j x l : Nat, E.L[j]? = some x ∧ E.D x = l + 1 ∧ l % E.T = t ∧ i = (x : Int) := by
  generalize e : bfsLev = a at h
  cases h <;> simp at e
  exact ⟨_, _, _, by assumption, by assumption, by assumption, rfl⟩

theorem own_inv {t : Nat} {i : Int} (h : E.Own t bfsInv i) : ∃ j x l : Nat, E.L[j]? = some x ∧ E.D x = l + 1 ∧ l % E.T = t ∧ i = E.ix j := by
  generalize e : bfsInv = a at h
  cases h <;> simp at e
  exact ⟨_, _, _, by assumption, by assumption, by assumption, rfl⟩

theorem own_prm {t : Nat} {i : Int} (h : E.Own t bfsPrm i) : ∃ j x l : Nat, E.L[j]? = some x ∧ E.D x = l + 1 ∧ l % E.T = t ∧ i = (x : Int) := by
  generalize e : bfsPrm = a at h
  cases h <;> simp at e
  exact ⟨_, _, _, by assumption, by assumption, by assumption, rfl⟩

theorem own_wo {t : Nat} {i : Int} (h : E.Own t rcmWo i) : ∃ l : Nat, l % E.T = t ∧ i = 16 * ((l : Int) + 1) := by
  generalize e : rcmWo = a at h
  cases h <;> simp at e
  exact ⟨_, by assumption, rfl⟩

theorem own_chd {t : Nat} {i : Int} (h : E.Own t rcmChd i) : ∃ q : Nat, q < E.md ∧ i = (t : Int) * E.md + q := by
  generalize e : rcmChd = a at h
  cases h <;> simp at e
  exact ⟨_, by assumption, rfl⟩

theorem own_arr {t : Nat} {a : CArr} {i : Int} (h : E.Own t a i) : a = bfsLev ∨ a = bfsInv ∨ a = bfsPrm ∨ a = rcmWo ∨ a = rcmChd := by
  cases h <;> simp

theorem Know.mono {l q q' : Nat} {m : Mem (CTy R)} (h : E.Know l q m) (hq : q' ≤ q) : E.Know l q' m := by
  obtain ⟨w, h1, h2⟩ := h
  exact ⟨w, h1, by omega⟩

theorem Know.set {l q : Nat} {m : Mem (CTy R)} {a : CArr} {i : Int} {v : CTy R a} (ha : a ≠ rcmWo) (h : E.Know l q m) : E.Know l q (m.set a i v) := by
  obtain ⟨w, h1, h2⟩ := h
  exact ⟨w, by rw [Mem.set_other _ _ _ _ _ (Ne.symm ha)]; exact h1, h2⟩

theorem Pub.know {m : Mem (CTy R)} {l w q : Nat} (h : E.Pub m l w) (hq : q ≤ w) : E.Know l q m := ⟨w, h.wo, hq⟩

theorem ix_inj {j j' : Nat} (h : E.ix j = E.ix j') : j = j' := by unfold ix at h; omega

namespace Start
variable (h : E.Start)
include h

theorem reach {j x : Nat} (hj : E.L[j]? = some x) : Reaches E.A E.s x := (h.cm.all_mem x).1 (List.mem_of_getElem? hj)

theorem at_pos {x : Nat} (hx : Reaches E.A E.s x) : ∃ j : Nat, E.L[j]? = some x := List.mem_iff_getElem?.1 ((h.cm.all_mem x).2 hx)

theorem len : E.L.length = E.N.length := h.cm.all_length

theorem nodup : E.L.Nodup := h.cm.all_list.nodup

theorem pos_eq {j j' x : Nat} (h1 : E.L[j]? = some x) (h2 : E.L[j']? = some x) : j = j' := by
  obtain ⟨a, b⟩ := List.getElem?_eq_some_iff.1 h1
  obtain ⟨c, d⟩ := List.getElem?_eq_some_iff.1 h2
  exact (List.Nodup.getElem_inj_iff h.nodup).1 (b.trans d.symm)

theorem pos_lt {j x : Nat} (hj : E.L[j]? = some x) : j < E.N.length := by rw [← h.len]; exact (List.getElem?_eq_some_iff.1 hj).1

theorem pf_one : E.pf 1 = 1 := by
  have := h.cm.outs_start 0
  rw [cmPf_zero] at this
  exact this.symm

theorem pf_nl : E.pf E.nl = E.N.length := by
  unfold pf cmPf
  rw [List.countP_eq_length]
  intro x hx
  have := h.levels x ((h.cm.mem x).1 hx)
  exact decide_eq_true (by omega)

theorem nl_pos : 1 ≤ E.nl := by have := h.levels _ (.refl E.s); omega

theorem ix_bounds {j : Nat} (hj : j < E.N.length) : 0 ≤ E.ix j ∧ E.ix j < E.A.m := by
  have := h.room
  unfold ix
  omega

omit h in
theorem no_own_zero (t : Nat) : ¬ E.Own t rcmWo 0 := by
  intro ho
  obtain ⟨l, _, e⟩ := own_wo ho
  omega

omit h in
theorem disj {t u : Nat} {a : CArr} {i : Int} (hne : t ≠ u) (ht : E.Own t a i) (hu : E.Own u a i) : False := by
  rcases own_arr ht with rfl | rfl | rfl | rfl | rfl
  · obtain ⟨_, x, l, _, h2, h3, h4⟩ := own_lev ht
    obtain ⟨_, x', l', _, g2, g3, g4⟩ := own_lev hu
    have : x = x' := by omega
    subst this
    have : l = l' := by omega
    subst this; omega
  · obtain ⟨j, x, l, h1, h2, h3, h4⟩ := own_inv ht
    obtain ⟨j', x', l', g1, g2, g3, g4⟩ := own_inv hu
    have := ix_inj (h4.symm.trans g4)
    subst this
    rw [h1] at g1; cases g1
    have : l = l' := by omega
    subst this; omega
  · obtain ⟨_, x, l, _, h2, h3, h4⟩ := own_prm ht
    obtain ⟨_, x', l', _, g2, g3, g4⟩ := own_prm hu
    have : x = x' := by omega
    subst this
    have : l = l' := by omega
    subst this; omega
  · obtain ⟨l, h3, h4⟩ := own_wo ht
    obtain ⟨l', g3, g4⟩ := own_wo hu
    have : l = l' := by omega
    subst this; omega
  · obtain ⟨q, h3, h4⟩ := own_chd ht
    obtain ⟨q', g3, g4⟩ := own_chd hu
    have e : t * E.md + q = u * E.md + q' := by
      have := h4.symm.trans g4
      exact_mod_cast this
    rcases Nat.lt_or_gt_of_ne hne with hlt | hlt
    · have : (t + 1) * E.md ≤ u * E.md := Nat.mul_le_mul_right _ hlt
      rw [Nat.add_mul] at this
      omega
    · have : (u + 1) * E.md ≤ t * E.md := Nat.mul_le_mul_right _ hlt
      rw [Nat.add_mul] at this
      omega

omit h in
/-- A write to a cell of `levels`, `inversePerm`, `perm` or `children` that keeps what the invariant says. -/
theorem inv_set {m : Mem (CTy R)} {t : Nat} {a : CArr} {i : Int} {v : CTy R a} (ht : t < E.T) (hI : E.Inv m) (ho : E.Own t a i) (ha : a ≠ rcmWo)
    (hl : ∀ x, Reaches E.A E.s x → a = bfsLev → i = (x : Int) → (m.set a i v) bfsLev (x : Int) = some (-1 : Int))
    (hi : ∀ j x : Nat, E.L[j]? = some x → a = bfsInv → i = E.ix j → (m.set a i v) bfsInv (E.ix j) = some (x : Int))
    (hp : ∀ j x : Nat, E.L[j]? = some x → a = bfsPrm → i = (x : Int) → (m.set a i v) bfsPrm (x : Int) = some (E.ix j)) : E.Inv (m.set a i v) := by
  refine ⟨?_, ?_, ?_⟩
  · intro b j hb
    rcases Mem.set_cases m a i v b j with ⟨rfl, rfl⟩ | e
    · exact absurd ho (hb t ht)
    · rw [e]; exact hI.const b j hb
  · intro x hx
    by_cases e : a = bfsLev ∧ i = (x : Int)
    · exact Or.inl (hl x hx e.1 e.2)
    · rcases Mem.set_cases m a i v bfsLev (x : Int) with ⟨e1, e2⟩ | e'
      · exact absurd ⟨e1.symm, e2.symm⟩ e
      · rw [e']; exact hI.lev x hx
  · intro l hle
    obtain ⟨w, hw⟩ := hI.pub l hle
    refine ⟨w, by rw [Mem.set_other _ _ _ _ _ (Ne.symm ha)]; exact hw.wo, hw.lo, hw.hi, ?_, ?_⟩
    · intro j x h1 h2 h3
      rcases Mem.set_cases m a i v bfsInv (E.ix j) with ⟨e1, e2⟩ | e'
      · exact hi j x h3 e1.symm e2.symm
      · rw [e']; exact hw.inv j x h1 h2 h3
    · intro j x h1 h2 h3
      rcases Mem.set_cases m a i v bfsPrm (x : Int) with ⟨e1, e2⟩ | e'
      · exact hp j x h3 e1.symm e2.symm
      · rw [e']; exact hw.prm j x h1 h2 h3

omit h in
theorem ok : E.env.Ok where
  disj t u a i _ _ hne h1 h2 := Start.disj hne h1 h2
  con_own t a i ht hc := hc t ht
  const _ m a i hI hc := hI.const a i hc
  refl _ _ _ _ _ hk := hk
  trans _ _ _ _ _ _ _ h1 h2 l q hk := h2 l q (h1 l q hk)
  stable t x _ m _ m' _ _ _ hk hr := hr.2 x.1 x.2 hk
  loc_own _ _ _ hl := hl.2
  loc_inv t _ m a i v ht hI hl := by
    obtain ⟨rfl, ho⟩ := hl
    exact Start.inv_set ht hI ho (by simp) (fun _ _ e => by simp at e) (fun _ _ _ e => by simp at e) (fun _ _ _ e => by simp at e)
  loc_X t u _ m a i v _ _ _ _ hl := by
    obtain ⟨rfl, ho⟩ := hl
    intro l q hk
    exact hk.set (by simp)
  loc_K t x _ m a i v _ _ hk hl := by
    obtain ⟨rfl, ho⟩ := hl
    exact Know.set (by simp) hk

theorem start_inv : E.Inv E.m0 := by
  refine ⟨fun _ _ _ => rfl, fun x hx => Or.inr (h.lev x hx), ?_⟩
  intro l hl
  rcases Nat.eq_zero_or_pos l with rfl | hp
  · refine ⟨1, by simpa using h.wo_zero, by rw [pf, cmPf_zero]; omega, by rw [h.pf_one], ?_, ?_⟩
    · intro j x _ h2 h3
      have : j = 0 := by omega
      subst this
      have e : E.L[0]? = some E.s := h.cm.all_list.zero
      rw [e] at h3; cases h3
      exact h.src_inv
    · intro j x _ h2 h3
      have : j = 0 := by omega
      subst this
      have e : E.L[0]? = some E.s := h.cm.all_list.zero
      rw [e] at h3; cases h3
      exact h.src_prm
  · obtain ⟨l, rfl⟩ : ∃ l', l = l' + 1 := ⟨l - 1, by omega⟩
    refine ⟨E.pf (l + 1), by have := h.wo l (by omega); push_cast at this ⊢; exact this, Nat.le_refl _, cmPf_mono (by omega), ?_, ?_⟩
    · intro j x a b; omega
    · intro j x a b; omega

end Start

end PipeEnv

end SpMP
