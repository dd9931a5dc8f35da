import Verif.Components
import Verif.Spec.Components
import Verif.SlotRule
import Verif.Wlp
import Mathlib.Logic.Relation
/-
The union phase of findConnectedComponents_: for every interleaving, every parent pointer stays inside its component and points
down; one thread alone leaves the two ends of every edge joined.
-/

namespace SpMP
open Spec

section
variable {A : Type} [DecidableEq A] {ty : A → Type} {α β σ Γ : Type} {sz : A → Int}
  {Inv : Γ → Mem ty → Prop} {Rely Guar : Γ → Mem ty → Γ → Mem ty → Prop}

theorem wpRG_rd {a : A} {i : Int} {f : ty a → Prog ty β} {g : Γ} {m : Mem ty} {Q : β → Γ → Mem ty → Prop}
    (hG : ∀ g m, Guar g m g m)
    (h : ∀ g' m', Rely g m g' m' → Inv g' m' → ∃ v, m' a i = some v ∧ wpRG sz Inv Rely Guar (f v) g' m' Q) :
    wpRG sz Inv Rely Guar (Prog.read a i >>= f) g m Q := by
  intro g' m' h1 h2
  obtain ⟨v, h3, h4⟩ := h g' m' h1 h2
  exact ⟨v, h3, g', hG _ _, h2, h4⟩

theorem wpRG_wr {a : A} {i : Int} {v : ty a} {f : Unit → Prog ty β} {g : Γ} {m : Mem ty} {Q : β → Γ → Mem ty → Prop}
    (h : ∀ g' m', Rely g m g' m' → Inv g' m' → 0 ≤ i ∧ i < sz a ∧ ∃ g2, Guar g' m' g2 (m'.set a i v) ∧ Inv g2 (m'.set a i v) ∧
      wpRG sz Inv Rely Guar (f ()) g2 (m'.set a i v) Q) :
    wpRG sz Inv Rely Guar (Prog.write a i v >>= f) g m Q := h

theorem wpRG_rmw {a : A} {i : Int} {F : ty a → ty a} {f : ty a → Prog ty β} {g : Γ} {m : Mem ty} {Q : β → Γ → Mem ty → Prop}
    (h : ∀ g' m', Rely g m g' m' → Inv g' m' → 0 ≤ i ∧ i < sz a ∧ ∃ v, m' a i = some v ∧ ∃ g2, Guar g' m' g2 (m'.set a i (F v)) ∧
      Inv g2 (m'.set a i (F v)) ∧ wpRG sz Inv Rely Guar (f v) g2 (m'.set a i (F v)) Q) :
    wpRG sz Inv Rely Guar (Prog.atomic a i F >>= f) g m Q := h

theorem wpRG_assert {c : Prop} [Decidable c] {f : Unit → Prog ty β} {g : Γ} {m : Mem ty} {Q : β → Γ → Mem ty → Prop} (hc : c)
    (h : wpRG sz Inv Rely Guar (f ()) g m Q) : wpRG sz Inv Rely Guar (Prog.assert c >>= f) g m Q := by
  unfold Prog.assert; rw [if_pos hc]; exact h

end

variable {R : Type} {sz : CArr → Int} {A : Csr R} {k base T : Nat} {wb : Bool} {bv : Nat → Bool}

/-- The nodes to be classified. -/
def ccV (wb : Bool) (bv : Nat → Bool) (m x : Nat) : Prop := x < m ∧ (wb = true → bv x = false)

/-- `nd 0 < nd 1 < … < nd (mm-1)` are the nodes to be classified. -/
structure CcNodes (wb : Bool) (bv : Nat → Bool) (m mm : Nat) (nd : Nat → Nat) : Prop where
  val : ∀ i, i < mm → ccV wb bv m (nd i)
  mono : ∀ i j, i < j → j < mm → nd i < nd j
  mem : ∀ x, ccV wb bv m x → ∃ i, i < mm ∧ nd i = x
  idn : wb = false → mm = m ∧ ∀ i, nd i = i

/-- The array nodesToFind. -/
def NodesAt (wb : Bool) (mm : Nat) (nd : Nat → Nat) (m : Mem (CTy R)) : Prop :=
  wb = true → ∀ i : Nat, i < mm → m (.itmp 6) (i : Int) = some (nd i : Int)

theorem wp_ccNode {W Rd : CArr → Int → Prop} {m mm : Nat} {nd : Nat → Nat} {mem : Mem (CTy R)} (hn : CcNodes wb bv m mm nd)
    (ha : NodesAt wb mm nd mem) {i : Nat} (hi : i < mm) (hR : ∀ i, Rd (.itmp 6) i) {Q : Int → Mem (CTy R) → Prop}
    (hQ : Q (nd i : Int) mem) : wp sz W Rd (ccNode wb (i : Int)) mem Q := by
  unfold ccNode
  cases wb with
  | true => rw [if_pos rfl, wp_read]; exact ⟨hR _, _, ha rfl i hi, hQ⟩
  | false => rw [if_neg (by simp), wp_pure]; rw [(hn.idn rfl).2 i] at hQ; exact hQ

/-- What holds throughout the union phase. -/
structure UfInv (A : Csr R) (V : Nat → Prop) (m1 m : Mem (CTy R)) : Prop where
  frame : ∀ a i, a ≠ .itmp 0 → m a i = m1 a i
  par : ∀ x, V x → ∃ v : Nat, m (.itmp 0) (x : Int) = some (v : Int) ∧ v ≤ x ∧ V v ∧ Linked A V x v

/-- A node that has a parent keeps having one. -/
def UfStep (V : Nat → Prop) (m m' : Mem (CTy R)) : Prop :=
  ∀ x : Nat, V x → m (.itmp 0) (x : Int) ≠ some (x : Int) → m' (.itmp 0) (x : Int) ≠ some (x : Int)

theorem UfStep.rfl' {V : Nat → Prop} {m : Mem (CTy R)} : UfStep V m m := fun _ _ h => h

theorem UfStep.tr {V : Nat → Prop} {m1 m2 m3 : Mem (CTy R)} (h1 : UfStep V m1 m2) (h2 : UfStep V m2 m3) : UfStep V m1 m3 :=
  fun x hx h => h2 x hx (h1 x hx h)

/-- Nodes without a parent weigh one. -/
noncomputable def ufW (m : Mem (CTy R)) (x : Nat) : Nat :=
  haveI := Classical.propDecidable (m (.itmp 0) (x : Int) = some (x : Int))
  if m (.itmp 0) (x : Int) = some (x : Int) then 1 else 0

theorem ufW_le (m : Mem (CTy R)) (x : Nat) : ufW m x ≤ 1 := by unfold ufW; split <;> omega
theorem ufW_one {m : Mem (CTy R)} {x : Nat} (h : m (.itmp 0) (x : Int) = some (x : Int)) : ufW m x = 1 := by
  unfold ufW; rw [if_pos h]
theorem ufW_zero {m : Mem (CTy R)} {x : Nat} (h : m (.itmp 0) (x : Int) ≠ some (x : Int)) : ufW m x = 0 := by
  unfold ufW; rw [if_neg h]
theorem ufW_step {V : Nat → Prop} {m m' : Mem (CTy R)} (h : UfStep V m m') {x : Nat} (hx : V x) : ufW m' x ≤ ufW m x := by
  by_cases h1 : m (.itmp 0) (x : Int) = some (x : Int)
  · rw [ufW_one h1]; exact ufW_le _ _
  · rw [ufW_zero h1, ufW_zero (h x hx h1)]

theorem UfInv.write {V : Nat → Prop} {m1 m : Mem (CTy R)} (h : UfInv A V m1 m) {x q : Nat} (hqx : q < x) (hq : V q)
    (hl : Linked A V x q) : UfInv A V m1 (m.set (.itmp 0) (x : Int) (q : Int)) ∧
      UfStep V m (m.set (.itmp 0) (x : Int) (q : Int)) ∧ (m.set (.itmp 0) (x : Int) (q : Int)) (.itmp 0) (x : Int) ≠ some (x : Int) := by
  have hne : (m.set (.itmp 0) (x : Int) (q : Int)) (.itmp 0) (x : Int) ≠ some (x : Int) := by
    rw [Mem.get_same]; intro e
    have e : (q : Int) = x := Option.some.inj e
    omega
  refine ⟨⟨?_, ?_⟩, ?_, hne⟩
  · intro a i ha
    rw [Mem.set_other _ _ _ _ _ ha]; exact h.frame a i ha
  · intro y hy
    by_cases e : y = x
    · subst e; exact ⟨q, Mem.get_same _ _ _ _, by omega, hq, hl⟩
    · obtain ⟨v, h1, h2⟩ := h.par y hy
      exact ⟨v, by rw [Mem.get_ne _ _ _ _ _ (by omega)]; exact h1, h2⟩
  · intro y hy hh
    by_cases e : y = x
    · subst e; exact hne
    · rw [Mem.get_ne _ _ _ _ _ (by omega)]; exact hh

theorem Mem.set_self {m : Mem (CTy R)} {a : CArr} {i : Int} {v : CTy R a} (h : m a i = some v) : m.set a i v = m := by
  funext b j
  by_cases hb : b = a
  · subst hb
    by_cases hj : j = i
    · subst hj; rw [Mem.get_same, h]
    · rw [Mem.get_ne _ _ _ _ _ hj]
  · rw [Mem.set_other _ _ _ _ _ hb]

theorem ccUnion_rg {V : Nat → Prop} {m1 : Mem (CTy R)} {N : Nat} (hV : ∀ x, V x → x < N) (hsz : (N : Int) ≤ sz (.itmp 0)) :
    ∀ (fuel rx ry : Nat) (m : Mem (CTy R)), V rx → V ry → Linked A V rx ry → 3 * (rx + ry) + ufW m rx + ufW m ry < fuel →
      wpRG (Γ := Unit) sz (fun _ m => UfInv A V m1 m) (fun _ m _ m' => UfStep V m m') (fun _ m _ m' => UfStep V m m')
        (ccUnion fuel (rx : Int) (ry : Int)) () m (fun _ _ _ => True) := by
  intro fuel
  induction fuel with
  | zero => intro _ _ _ _ _ _ h; omega
  | succ fuel ih =>
    intro rx ry m hrx hry hl hf
    unfold ccUnion
    refine wpRG_rd (fun _ _ => UfStep.rfl') fun _ ma hra hia => ?_
    obtain ⟨px, hpx, hpx1, hpx2, hpx3⟩ := hia.par rx hrx
    refine ⟨_, hpx, ?_⟩
    refine wpRG_rd (fun _ _ => UfStep.rfl') fun _ mb hrb hib => ?_
    obtain ⟨py, hpy, hpy1, hpy2, hpy3⟩ := hib.par ry hry
    refine ⟨_, hpy, ?_⟩
    by_cases hne : (px : Int) = py
    · rw [if_pos hne]; exact fun _ _ _ _ => trivial
    rw [if_neg hne]
    have hmb : UfStep V m mb := hra.tr hrb
    -- the body for the ordered pair
    have key : ∀ x y p q : Nat, V x → V y → Linked A V x y → V p → V q → Linked A V x p → Linked A V y q → p ≤ x → q < p →
        (p = x → ufW m x = 1) → 3 * (x + y) + ufW m x + ufW m y < fuel + 1 →
        wpRG (Γ := Unit) sz (fun _ m => UfInv A V m1 m) (fun _ m _ m' => UfStep V m m') (fun _ m _ m' => UfStep V m m')
        (if (p : Int) = x then do
          let old ← Prog.atomic (ty := CTy R) (.itmp 0) (x : Int) (fun v : Int => if v = (x : Int) then (q : Int) else v)
          if (old : Int) = x then pure () else do
            Prog.write (ty := CTy R) (.itmp 0) (x : Int) (q : Int)
            ccUnion fuel (p : Int) (y : Int)
        else do
          Prog.write (ty := CTy R) (.itmp 0) (x : Int) (q : Int)
          ccUnion fuel (p : Int) (y : Int)) () mb (fun _ _ _ => True) := by
      intro x y p q hx hy hxy hp hq hxp hyq hpx hqp hroot hfu
      have hxN := hV x hx
      have hxq : Linked A V x q := hxy.trans hyq
      have hpy : Linked A V p y := hxp.symm.trans hxy
      by_cases hpe : (p : Int) = x
      · rw [if_pos hpe]
        obtain rfl : p = x := by omega
        refine wpRG_rmw fun _ mc hrc hic => ⟨by omega, by omega, ?_⟩
        obtain ⟨v, hv, hv1, hv2, hv3⟩ := hic.par p hx
        refine ⟨_, hv, (), ?_⟩
        by_cases hvx : (v : Int) = p
        · have e1 : (if (v : Int) = (p : Int) then (q : Int) else (v : Int)) = (q : Int) := if_pos hvx
          obtain ⟨w1, w2, _⟩ := hic.write hqp hq hxq
          show UfStep V mc (mc.set (.itmp 0) (p : Int) (if (v : Int) = (p : Int) then (q : Int) else (v : Int) : Int)) ∧ _
          refine ⟨by rw [e1]; exact w2, by show UfInv A V m1 (mc.set (.itmp 0) (p : Int) (if (v : Int) = (p : Int) then (q : Int) else (v : Int) : Int)); rw [e1]; exact w1, ?_⟩
          rw [if_pos hvx]; exact fun _ _ _ _ => trivial
        · have e1 : (if (v : Int) = (p : Int) then (q : Int) else (v : Int)) = (v : Int) := if_neg hvx
          have e2 : mc.set (.itmp 0) (p : Int) (if (v : Int) = (p : Int) then (q : Int) else (v : Int) : Int) = mc := by
            rw [e1]; exact Mem.set_self hv
          show UfStep V mc (mc.set (.itmp 0) (p : Int) (if (v : Int) = (p : Int) then (q : Int) else (v : Int) : Int)) ∧
            UfInv A V m1 (mc.set (.itmp 0) (p : Int) (if (v : Int) = (p : Int) then (q : Int) else (v : Int) : Int)) ∧
            wpRG (Γ := Unit) sz _ _ _ _ _ (mc.set (.itmp 0) (p : Int) (if (v : Int) = (p : Int) then (q : Int) else (v : Int) : Int)) _
          rw [e2]
          refine ⟨UfStep.rfl', hic, ?_⟩
          rw [if_neg hvx]
          refine wpRG_wr fun _ md hrd hid => ⟨by omega, by omega, (), ?_⟩
          obtain ⟨w1, w2, w3⟩ := hid.write hqp hq hxq
          refine ⟨w2, w1, ?_⟩
          refine ih p y _ hp hy hpy ?_
          have a1 := hroot rfl
          have a2 := ufW_zero w3
          have a3 := ufW_step (((hmb.tr hrc).tr hrd).tr w2) hy
          omega
      · rw [if_neg hpe]
        refine wpRG_wr fun _ md hrd hid => ⟨by omega, by omega, (), ?_⟩
        obtain ⟨w1, w2, w3⟩ := hid.write (show q < x by omega) hq hxq
        refine ⟨w2, w1, ?_⟩
        refine ih p y _ hp hy hpy ?_
        have a2 := ufW_le (md.set (.itmp 0) (x : Int) (q : Int)) p
        have a3 := ufW_step ((hmb.tr hrd).tr w2) hy
        omega
    have hbk : ∀ {m m' : Mem (CTy R)} {x : Nat}, UfStep V m m' → V x → m' (.itmp 0) (x : Int) = some (x : Int) → ufW m x = 1 := by
      intro m m' x h hx he
      have := ufW_step h hx
      rw [ufW_one he] at this
      have := ufW_le m x
      omega
    by_cases hgt : (px : Int) > py
    · simp only [gt_iff_lt] at hgt
      simp only [gt_iff_lt, if_pos hgt]
      refine key rx ry px py hrx hry hl hpx2 hpy2 hpx3 hpy3 hpx1 (by omega) ?_ (by omega)
      intro e; subst e; exact hbk hra hrx hpx
    · simp only [gt_iff_lt] at hgt
      simp only [gt_iff_lt, if_neg hgt]
      refine key ry rx py px hry hrx hl.symm hpy2 hpx2 hpy3 hpx3 hpy1 (by omega) ?_ (by omega)
      intro e; subst e; exact hbk hmb hry hpy

/-! ### One edge, one row, one thread, the team -/

/-- The entries of classified nodes lead to classified nodes. -/
def CcClosed (A : Csr R) (V : Nat → Prop) : Prop := ∀ x j, V x → A.InRow x j → V (A.col j)

theorem ccRow_rg {m1 m : Mem (CTy R)} (hwf : A.WF) (hp : HoldsPat m1 k base A) (hcl : CcClosed A (ccV wb bv A.m))
    (hsz : (A.m : Int) ≤ sz (.itmp 0)) {x : Nat} (hx : ccV wb bv A.m x) (hi : UfInv A (ccV wb bv A.m) m1 m) :
    wpRG (Γ := Unit) sz (fun _ m => UfInv A (ccV wb bv A.m) m1 m) (fun _ m _ m' => UfStep (ccV wb bv A.m) m m')
      (fun _ m _ m' => UfStep (ccV wb bv A.m) m m') (ccRow k base wb bv (6 * A.m + 3) (x : Int)) () m (fun _ _ _ => True) := by
  unfold ccRow
  have hG : ∀ (_ : Unit) (m : Mem (CTy R)), UfStep (ccV wb bv A.m) m m := fun _ _ => UfStep.rfl'
  have hx1 := hx.1
  have hpm := hwf.ptr_step x hx1
  refine wpRG_rd hG fun _ ma _ hia => ⟨_, (hia.frame _ _ (by simp)).trans (hp.rowptr x (by omega)), ?_⟩
  refine wpRG_rd hG fun _ mb _ hib => ⟨_, (hib.frame _ _ (by simp)).trans (hp.rowptr (x + 1) hx1), ?_⟩
  have htr : ∀ (_ : Unit) (m1 : Mem (CTy R)) (_ : Unit) m2 (_ : Unit) m3, UfStep (ccV wb bv A.m) m1 m2 → UfStep (ccV wb bv A.m) m2 m3 →
    UfStep (ccV wb bv A.m) m1 m3 := fun _ _ _ _ _ _ => UfStep.tr
  refine wpRG_forUp (Inv := fun (_ : Unit) m => UfInv A (ccV wb bv A.m) m1 m) hG htr
    (fun _ _ _ _ => True) (fun _ _ _ _ _ _ _ _ _ => trivial) hib trivial ?_ (fun _ _ _ _ => trivial)
  intro j _ _ mc h1 h2 hic _
  rw [Int.add_sub_cancel] at h1 h2
  obtain ⟨j, rfl⟩ := Int.eq_ofNat_of_zero_le (a := j) (by omega)
  have hrow : A.InRow x j := ⟨hx1, by omega, by omega⟩
  have hy := hcl x j hx hrow
  refine wpRG_rd hG fun _ md _ hid => ⟨_, (hid.frame _ _ (by simp)).trans (hp.colidx j (hrow.lt_nnz hwf)), ?_⟩
  have ey : (((A.col j : Int) + base : Int) - base) = (A.col j : Int) := by omega
  show wpRG (Γ := Unit) sz _ _ _ (Prog.assert (ty := CTy R) (wb = true → bv (((A.col j : Int) + base : Int) - base).toNat = false) >>= fun _ => do
    let a ← Prog.read (ty := CTy R) (.itmp 0) (x : Int)
    let b ← Prog.read (ty := CTy R) (.itmp 0) (((A.col j : Int) + base : Int) - base)
    if (a : Int) = b then pure () else ccUnion (6 * A.m + 3) (x : Int) (((A.col j : Int) + base : Int) - base)) () md _
  rw [ey]
  refine wpRG_assert (by rw [Int.toNat_natCast]; exact hy.2) ?_
  refine wpRG_rd hG fun _ me _ hie => ?_
  obtain ⟨a, ha, _⟩ := hie.par x hx
  refine ⟨_, ha, ?_⟩
  refine wpRG_rd hG fun _ mf _ hif => ?_
  obtain ⟨b, hb, _⟩ := hif.par _ hy
  refine ⟨_, hb, ?_⟩
  by_cases hab : (a : Int) = b
  · rw [if_pos hab]; exact fun _ _ _ _ => trivial
  · rw [if_neg hab]
    refine ccUnion_rg (N := A.m) (fun _ h => h.1) hsz _ _ _ _ hx hy (Linked.edge hx hrow hy) ?_
    have := ufW_le mf x
    have := ufW_le mf (A.col j)
    have := hy.1
    omega

theorem wp_ccRange {m0 : Mem (CTy R)} {mm t : Nat} {nd : Nat → Nat} (hwf : A.WF) (hp : HoldsPat m0 k base A)
    (hn : CcNodes wb bv A.m mm nd) (ht : t < T) :
    wp sz (fun _ _ => False) (fun a _ => a ≠ .itmp 0) (ccRange k wb A.m mm T t) m0
      (fun x m => (∃ b e : Nat, x = ((b : Int), (e : Int)) ∧ b ≤ e ∧ e ≤ mm ∧ (T = 1 → b = 0 ∧ e = mm)) ∧ m = m0) := by
  unfold ccRange
  have hT : 1 ≤ T := by omega
  cases hwb : wb with
  | true =>
    rw [if_pos rfl, wp_pure, rowCut_eq hT, rowCut_end hT]
    refine ⟨⟨_, _, rfl, rowCut_mono hT mm (by omega), rowCut_le hT mm _, ?_⟩, rfl⟩
    rintro rfl
    obtain rfl : t = 0 := by omega
    exact ⟨rowCut_zero mm, rowCut_last hT mm⟩
  | false =>
    rw [if_neg (by simp)]
    obtain ⟨rfl, _⟩ := hn.idn hwb
    refine wp_mono (wp_relax (wp_lbPart ht hwf hp.rowptr) (fun _ _ h => h.elim) (fun a i h => by rw [h]; simp)) ?_
    rintro ⟨b, e⟩ m ⟨hx, rfl⟩
    refine ⟨?_, rfl⟩
    have h1 : 0 ≤ b := hx.1.1
    have h2 : e ≤ A.m := hx.2.2.1
    have h3 : b ≤ e := IsCut.mono (by omega) (by omega) (A.iptr_mono hwf base) hx.1 hx.2 (by omega) (by omega) (by omega)
    obtain ⟨b, rfl⟩ := Int.eq_ofNat_of_zero_le h1
    obtain ⟨e, rfl⟩ := Int.eq_ofNat_of_zero_le (show 0 ≤ e by omega)
    refine ⟨b, e, rfl, by omega, by omega, ?_⟩
    rintro rfl
    obtain rfl : t = 0 := by omega
    obtain ⟨cut, c0, c1, c2, _⟩ := cut_fun (T := 1) (r := fun _ => ((b : Int), (e : Int))) (Nat.le_refl _) (A.iptr_mono hwf base)
      (by intro t ht; obtain rfl : t = 0 := by omega
          exact hx)
    have := c2 0 (by omega)
    obtain ⟨e1, e2⟩ := Prod.mk.inj this
    rw [c0] at e1
    rw [show 0 + 1 = 1 from rfl, c1] at e2
    omega

theorem ccUnions_rg {m1 : Mem (CTy R)} {mm t : Nat} {nd : Nat → Nat} (hwf : A.WF) (hp : HoldsPat m1 k base A)
    (hn : CcNodes wb bv A.m mm nd) (ha : NodesAt wb mm nd m1) (hcl : CcClosed A (ccV wb bv A.m))
    (hsz : (A.m : Int) ≤ sz (.itmp 0)) (ht : t < T) (hmm : mm ≤ A.m) (hi : UfInv A (ccV wb bv A.m) m1 m1) :
    wpRG (Γ := Unit) sz (fun _ m => UfInv A (ccV wb bv A.m) m1 m) (fun _ m _ m' => UfStep (ccV wb bv A.m) m m')
      (fun _ m _ m' => UfStep (ccV wb bv A.m) m m') (ccUnions k base wb bv A.m mm T t) () m1 (fun _ _ _ => True) := by
  have hG : ∀ (_ : Unit) (m : Mem (CTy R)), UfStep (ccV wb bv A.m) m m := fun _ _ => UfStep.rfl'
  have htr : ∀ (_ : Unit) (m1 : Mem (CTy R)) (_ : Unit) m2 (_ : Unit) m3, UfStep (ccV wb bv A.m) m1 m2 → UfStep (ccV wb bv A.m) m2 m3 →
    UfStep (ccV wb bv A.m) m1 m3 := fun _ _ _ _ _ _ => UfStep.tr
  unfold ccUnions
  refine wpRG_bind hG htr hi ?_
  refine wpRG_mono (wpRG_ro (Rd := fun a _ => a ≠ .itmp 0) htr hG (fun _ m hm a i h => hm.frame a i h)
    (wp_mono (wp_ccRange hwf hp hn ht) (fun _ _ h => h.1))) ?_
  rintro x _ ma hia ⟨⟨b, e, rfl, hbe, hem, _⟩, _⟩
  dsimp only
  refine wpRG_assert (by omega) (wpRG_assert (by omega) (wpRG_assert (by omega) ?_))
  refine wpRG_forUp hG htr (fun _ _ _ _ => True) (fun _ _ _ _ _ _ _ _ _ => trivial) hia trivial ?_ (fun _ _ _ _ => trivial)
  intro i _ _ mb h1 h2 hib _
  obtain ⟨i, rfl⟩ := Int.eq_ofNat_of_zero_le (a := i) (by omega)
  have him : i < mm := by omega
  refine wpRG_bind hG htr hib ?_
  refine wpRG_mono (wpRG_ro (Rd := fun a _ => a ≠ .itmp 0) (Q := fun v => v = (nd i : Int)) htr hG (fun _ m hm a i h => hm.frame a i h)
    (wp_ccNode hn ha him (fun _ => by simp) rfl)) ?_
  rintro _ _ mc hic ⟨rfl, _⟩
  exact ccRow_rg hwf hp hcl hsz (hn.val i him) hic

/-! ### One thread alone -/

/-- Joined by parent pointers between nodes of `P`. -/
def Conn (P : Int → Prop) (m : Mem (CTy R)) : Int → Int → Prop :=
  Relation.EqvGen fun a b : Int => P a ∧ P b ∧ m (.itmp 0) a = some b

/-- Nothing is separated. -/
def ConnLe (P : Int → Prop) (m m' : Mem (CTy R)) : Prop := ∀ a b, Conn P m a b → Conn P m' a b

/-- Parents of nodes of `P` are in `P`. -/
def ParIn (P : Int → Prop) (m : Mem (CTy R)) : Prop := ∀ a b : Int, P a → m (.itmp 0) a = some b → P b

theorem ConnLe.tr {P : Int → Prop} {m1 m2 m3 : Mem (CTy R)} (h1 : ConnLe P m1 m2) (h2 : ConnLe P m2 m3) : ConnLe P m1 m3 :=
  fun a b h => h2 a b (h1 a b h)

theorem ConnLe.of {P : Int → Prop} {m m' : Mem (CTy R)}
    (h : ∀ a b : Int, P a → P b → m (.itmp 0) a = some b → Conn P m' a b) : ConnLe P m m' := by
  intro a b hab
  unfold Conn at hab
  induction hab with
  | rel a b h1 => exact h a b h1.1 h1.2.1 h1.2.2
  | refl a => exact .refl a
  | symm a b _ ih => exact .symm _ _ ih
  | trans a b c _ _ i1 i2 => exact .trans _ _ _ i1 i2

theorem Conn.one {P : Int → Prop} {m : Mem (CTy R)} {a b : Int} (ha : P a) (hb : P b) (h : m (.itmp 0) a = some b) : Conn P m a b :=
  .rel _ _ ⟨ha, hb, h⟩
theorem Conn.sy {P : Int → Prop} {m : Mem (CTy R)} {a b : Int} (h : Conn P m a b) : Conn P m b a := .symm _ _ h
theorem Conn.tr {P : Int → Prop} {m : Mem (CTy R)} {a b c : Int} (h : Conn P m a b) (h' : Conn P m b c) : Conn P m a c :=
  .trans _ _ _ h h'

theorem wlp_ccUnion {P : Int → Prop} : ∀ (fuel : Nat) (rx ry : Int) (m : Mem (CTy R)), P rx → P ry → ParIn P m →
    wlp (ccUnion fuel rx ry) m (fun _ m' => ConnLe P m m' ∧ Conn P m' rx ry ∧ ParIn P m' ∧ ∀ a i, a ≠ .itmp 0 → m' a i = m a i) := by
  intro fuel
  induction fuel with
  | zero => intro rx ry m _ _ _; exact trivial
  | succ fuel ih =>
    intro rx ry m hrx hry hcl
    unfold ccUnion
    intro px hpx py hpy
    show wlp (if (px : Int) = (py : Int) then (pure () : Prog (CTy R) Unit) else _) m _
    have hPx := hcl rx px hrx hpx
    have hPy := hcl ry py hry hpy
    by_cases hne : (px : Int) = (py : Int)
    · rw [if_pos hne]
      have hpx : m (.itmp 0) rx = some (px : Int) := hpx
      have c2 : Conn P m ry py := Conn.one hry hPy hpy
      rw [← hne] at c2
      exact ⟨fun _ _ h => h, (Conn.one hrx hPx hpx).tr c2.sy, hcl, fun _ _ _ => rfl⟩
    rw [if_neg hne]
    have hxy : rx ≠ ry := by rintro rfl; rw [hpx] at hpy; exact hne (Option.some.inj hpy)
    have key : ∀ x y p q : Int, P x → P y → P p → P q → m (.itmp 0) x = some p → m (.itmp 0) y = some q → x ≠ y →
        wlp (if p = x then do
          let old ← Prog.atomic (ty := CTy R) (.itmp 0) x (fun v : Int => if v = x then q else v)
          if (old : Int) = x then pure () else do
            Prog.write (ty := CTy R) (.itmp 0) x q
            ccUnion fuel p y
        else do
          Prog.write (ty := CTy R) (.itmp 0) x q
          ccUnion fuel p y) m (fun _ m' => ConnLe P m m' ∧ Conn P m' x y ∧ ParIn P m' ∧ ∀ a i, a ≠ .itmp 0 → m' a i = m a i) := by
      intro x y p q hx hy hPp hPq hp hq hxy
      have e1 : (m.set (.itmp 0) x (q : Int)) (.itmp 0) x = some (q : Int) := Mem.get_same _ _ _ _
      have e2 : (m.set (.itmp 0) x (q : Int)) (.itmp 0) y = some (q : Int) := by
        rw [Mem.get_ne _ _ _ _ _ (Ne.symm hxy)]; exact hq
      have e3 : ∀ a i, a ≠ .itmp 0 → (m.set (.itmp 0) x (q : Int)) a i = m a i := fun a i ha => by
        rw [Mem.set_other _ _ _ _ _ ha]
      have eo : ∀ a b : Int, a ≠ x → m (.itmp 0) a = some b → (m.set (.itmp 0) x (q : Int)) (.itmp 0) a = some b := by
        intro a b ha h; rw [Mem.get_ne _ _ _ _ _ ha]; exact h
      have ecl : ParIn P (m.set (.itmp 0) x (q : Int)) := by
        intro a b ha h
        by_cases e : a = x
        · subst e; rw [e1] at h; obtain rfl : q = b := Option.some.inj h; exact hPq
        · rw [Mem.get_ne _ _ _ _ _ e] at h; exact hcl a b ha h
      by_cases hpe : p = x
      · rw [if_pos hpe]
        subst hpe
        intro v hv
        obtain rfl : (v : Int) = p := by rw [hp] at hv; exact (Option.some.inj hv).symm
        show wlp (if (v : Int) = v then (pure () : Prog (CTy R) Unit) else _) (m.set (.itmp 0) (v : Int) (if (v : Int) = v then q else v : Int)) _
        have ev : (if (v : Int) = v then q else v : Int) = q := if_pos rfl
        rw [if_pos rfl, ev]
        refine ⟨ConnLe.of ?_, (Conn.one hx hPq e1).tr (Conn.one hy hPq e2).sy, ecl, e3⟩
        intro a b pa pb hab
        by_cases ha : a = (v : Int)
        · subst ha
          obtain rfl : b = a := by rw [hp] at hab; exact (Option.some.inj hab).symm
          exact .refl _
        · exact Conn.one pa pb (eo a b ha hab)
      · rw [if_neg hpe]
        show wlp (ccUnion fuel p y) (m.set (.itmp 0) x (q : Int)) _
        refine wlp_mono ?_ (ih p y _ hPp hy ecl)
        rintro _ m' ⟨h1, h2, h3, h4⟩
        have c1 : Conn P m' x q := h1 _ _ (Conn.one hx hPq e1)
        have c2 : Conn P m' y q := h1 _ _ (Conn.one hy hPq e2)
        refine ⟨ConnLe.of ?_, c1.tr c2.sy, h3, fun a i ha => (h4 a i ha).trans (e3 a i ha)⟩
        intro a b pa pb hab
        by_cases ha : a = x
        · subst ha
          obtain rfl : b = p := by rw [hp] at hab; exact (Option.some.inj hab).symm
          exact (c1.tr c2.sy).tr h2.sy
        · exact h1 _ _ (Conn.one pa pb (eo a b ha hab))
    by_cases hgt : (px : Int) > py
    · simp only [gt_iff_lt] at hgt
      simp only [gt_iff_lt, if_pos hgt]
      exact key rx ry px py hrx hry hPx hPy hpx hpy hxy
    · simp only [gt_iff_lt] at hgt
      simp only [gt_iff_lt, if_neg hgt]
      refine wlp_mono ?_ (key ry rx py px hry hrx hPy hPx hpy hpx (Ne.symm hxy))
      rintro _ m' ⟨h1, h2, h3⟩
      exact ⟨h1, h2.sy, h3⟩

theorem wlp_of_wp {α : Type} {W Rd : CArr → Int → Prop} {p : Prog (CTy R) α} {Q : α → Mem (CTy R) → Prop} :
    ∀ {m : Mem (CTy R)}, wp sz W Rd p m Q → wlp p m Q := by
  induction p with
  | ret a => intro m h; exact wp_ret.1 h
  | rd a i k ih =>
    intro m h v hv
    unfold wp at h
    obtain ⟨_, v', h1, h2⟩ := h
    obtain rfl : v = v' := by rw [hv] at h1; exact Option.some.inj h1
    exact ih v h2
  | wr a i v k ih => intro m h; unfold wp at h; exact ih h.2.2.2
  | rmw a i f k ih =>
    intro m h v hv
    unfold wp at h
    obtain ⟨_, _, _, _, v', h1, h2⟩ := h
    obtain rfl : v = v' := by rw [hv] at h1; exact Option.some.inj h1
    exact ih v h2
  | fail => intro m _; exact trivial

theorem HoldsPat.of_frame {m1 m : Mem (CTy R)} (hp : HoldsPat m1 k base A) (h : ∀ a i, a ≠ .itmp 0 → m a i = m1 a i) :
    HoldsPat m k base A :=
  ⟨fun i hi => (h _ _ (by simp)).trans (hp.rowptr i hi), fun j hj => (h _ _ (by simp)).trans (hp.colidx j hj)⟩

theorem wlp_ccRow {P : Int → Prop} {m : Mem (CTy R)} (hwf : A.WF) (hp : HoldsPat m k base A) {fuel x : Nat} (hx : x < A.m)
    (hPx : P (x : Int)) (hPc : ∀ j, A.InRow x j → P (A.col j : Int)) (hcl : ParIn P m) :
    wlp (ccRow k base wb bv fuel (x : Int)) m (fun _ m' => ConnLe P m m' ∧ (∀ j, A.InRow x j → Conn P m' (x : Int) (A.col j : Int)) ∧
      ParIn P m' ∧ ∀ a i, a ≠ .itmp 0 → m' a i = m a i) := by
  unfold ccRow
  intro lo hlo hi hhi
  have hlo : (lo : Int) = (A.ptr x : Int) + base := by
    rw [hp.rowptr x (by omega)] at hlo; exact (Option.some.inj hlo).symm
  have hhi : (hi : Int) = (A.ptr (x + 1) : Int) + base := by
    have := hp.rowptr (x + 1) hx
    have h' : m (.rowptr k) ((x : Int) + 1) = some (hi : Int) := hhi
    rw [show ((x + 1 : Nat) : Int) = (x : Int) + 1 by push_cast; rfl, h'] at this
    exact Option.some.inj this
  have hpm := hwf.ptr_step x hx
  subst hlo hhi
  show wlp (Prog.forUp ((((A.ptr x : Int) + base) : Int) - base) (((A.ptr (x + 1) : Int) + base : Int) - base) () _) m _
  rw [Int.add_sub_cancel, Int.add_sub_cancel]
  refine wlp_forUp (fun j _ m' => ConnLe P m m' ∧ (∀ j' : Nat, A.InRow x j' → (j' : Int) < j → Conn P m' (x : Int) (A.col j' : Int)) ∧
      ParIn P m' ∧ ∀ a i, a ≠ .itmp 0 → m' a i = m a i) ?_ ?_ ?_
  · refine ⟨fun _ _ h => h, ?_, hcl, fun _ _ _ => rfl⟩
    intro j' h1 h2; have := h1.2.1; omega
  · rintro j _ m' h1 h2 ⟨g1, g2, gc, g3⟩
    obtain ⟨j, rfl⟩ := Int.eq_ofNat_of_zero_le (a := j) (by omega)
    have hrow : A.InRow x j := ⟨hx, by omega, by omega⟩
    intro c hc
    have hc : (c : Int) = (A.col j : Int) + base := by
      have := (hp.of_frame g3).colidx j (hrow.lt_nnz hwf)
      rw [this] at hc; exact (Option.some.inj hc).symm
    subst hc
    show wlp (Prog.assert (ty := CTy R) (wb = true → bv (((A.col j : Int) + base : Int) - base).toNat = false) >>= fun _ => do
      let a ← Prog.read (ty := CTy R) (.itmp 0) (x : Int)
      let b ← Prog.read (ty := CTy R) (.itmp 0) (((A.col j : Int) + base : Int) - base)
      if (a : Int) = b then pure () else ccUnion fuel (x : Int) (((A.col j : Int) + base : Int) - base)) m' _
    rw [Int.add_sub_cancel]
    refine wlp_bind ?_
    unfold Prog.assert
    split
    · intro a ha b hb
      show wlp (if (a : Int) = b then (pure () : Prog (CTy R) Unit) else _) m' _
      have fin : ∀ m'' : Mem (CTy R), ConnLe P m' m'' → Conn P m'' (x : Int) (A.col j : Int) → ParIn P m'' → (∀ a i, a ≠ .itmp 0 → m'' a i = m' a i) →
          ConnLe P m m'' ∧ (∀ j' : Nat, A.InRow x j' → (j' : Int) < (j : Int) + 1 → Conn P m'' (x : Int) (A.col j' : Int)) ∧
          ParIn P m'' ∧ ∀ a i, a ≠ .itmp 0 → m'' a i = m a i := by
        intro m'' c1 c2 cc c3
        refine ⟨g1.tr c1, ?_, cc, fun a i ha => (c3 a i ha).trans (g3 a i ha)⟩
        intro j' q1 q2
        by_cases e : j' = j
        · subst e; exact c2
        · exact c1 _ _ (g2 j' q1 (by omega))
      by_cases hab : (a : Int) = b
      · rw [if_pos hab]
        have ha : m' (.itmp 0) (x : Int) = some (a : Int) := ha
        have c1 : Conn P m' (x : Int) a := Conn.one hPx (gc _ _ hPx ha) ha
        have c2 : Conn P m' (A.col j : Int) b := Conn.one (hPc j hrow) (gc _ _ (hPc j hrow) hb) hb
        rw [← hab] at c2
        exact fin m' (fun _ _ h => h) (c1.tr c2.sy) gc (fun _ _ _ => rfl)
      · rw [if_neg hab]
        refine wlp_mono ?_ (wlp_ccUnion fuel (x : Int) (A.col j : Int) m' hPx (hPc j hrow) gc)
        rintro _ m'' ⟨c1, c2, cc, c3⟩
        exact fin m'' c1 c2 cc c3
    · exact trivial
  · rintro _ m' ⟨g1, g2, gc, g3⟩
    refine ⟨g1, ?_, gc, g3⟩
    intro j hj
    refine g2 j hj ?_
    have := hj.2.2
    omega

theorem wlp_ccUnions {P : Int → Prop} {m : Mem (CTy R)} {mm : Nat} {nd : Nat → Nat} (hwf : A.WF) (hp : HoldsPat m k base A)
    (hn : CcNodes wb bv A.m mm nd) (ha : NodesAt wb mm nd m)
    (hP : ∀ x, ccV wb bv A.m x → P (x : Int)) (hcc : CcClosed A (ccV wb bv A.m)) (hcl : ParIn P m) :
    wlp (ccUnions k base wb bv A.m mm 1 0) m (fun _ m' => ∀ x j, ccV wb bv A.m x → A.InRow x j → Conn P m' (x : Int) (A.col j : Int)) := by
  unfold ccUnions
  refine wlp_bind (wlp_mono ?_ (wlp_of_wp (sz := fun _ => 0) (wp_ccRange (T := 1) (t := 0) hwf hp hn (by omega))))
  rintro _ m2 ⟨⟨b, e, rfl, _, _, h⟩, hm2⟩
  subst hm2
  obtain ⟨rfl, rfl⟩ := h rfl
  dsimp only
  have has : ∀ (c : Prop) [Decidable c] {f : Unit → Prog (CTy R) Unit} {m : Mem (CTy R)} {Q : Unit → Mem (CTy R) → Prop},
      wlp (f ()) m Q → wlp (Prog.assert c >>= f) m Q := by
    intro c _ f m Q h
    refine wlp_bind ?_
    unfold Prog.assert
    split
    · exact h
    · exact trivial
  refine has _ (has _ (has _ ?_))
  refine wlp_forUp (fun i _ m' => ConnLe P m2 m' ∧ (∀ i' : Nat, i' < e → (i' : Int) < i → ∀ j, A.InRow (nd i') j →
      Conn P m' (nd i' : Int) (A.col j : Int)) ∧
      ParIn P m' ∧ ∀ a i, a ≠ .itmp 0 → m' a i = m2 a i) ?_ ?_ ?_
  · exact ⟨fun _ _ h => h, fun i' _ h => by omega, hcl, fun _ _ _ => rfl⟩
  · rintro i _ m' h1 h2 ⟨g1, g2, gc, g3⟩
    obtain ⟨i, rfl⟩ := Int.eq_ofNat_of_zero_le (a := i) (by omega)
    have him : i < e := by omega
    refine wlp_bind (wlp_mono ?_ (wlp_of_wp (sz := fun _ => 0) (W := fun _ _ => True) (Rd := fun _ _ => True)
      (wp_ccNode (Q := fun v m2 => v = (nd i : Int) ∧ m2 = m') hn ?_ him (fun _ => trivial) ⟨rfl, rfl⟩)))
    · rintro _ _ ⟨rfl, rfl⟩
      refine wlp_mono ?_ (wlp_ccRow (P := P) hwf (hp.of_frame g3) (hn.val i him).1 (hP _ (hn.val i him))
        (fun j hj => hP _ (hcc _ _ (hn.val i him) hj)) gc)
      rintro _ m'' ⟨c1, c2, cc, c3⟩
      refine ⟨g1.tr c1, ?_, cc, fun a i ha => (c3 a i ha).trans (g3 a i ha)⟩
      intro i' q1 q2 j hj
      by_cases ee : i' = i
      · subst ee; exact c2 j hj
      · exact c1 _ _ (g2 i' q1 (by omega) j hj)
    · intro hw i' hi'
      rw [g3 _ _ (by simp)]; exact ha hw i' hi'
  · rintro _ m' ⟨g1, g2, _, g3⟩ x j hx hj
    obtain ⟨i, hi, rfl⟩ := hn.mem x hx
    exact g2 i hi (by omega) j hj

end SpMP
