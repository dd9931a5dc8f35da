import Verif.RowTeam
import Verif.Reduction
/-
CSR::getBandwidth, getAverageWidth, getMaxDegree (/repo/CSR.cpp:631-707).
-/

namespace SpMP
open Spec

set_option linter.unusedSectionVars false

variable {R : Type} [Races CArr]

/-- INT_MIN and INT_MAX. -/
def intMin : Int := -2147483648
def intMax : Int := 2147483647

/-- Thread body of getBandwidth (CSR.cpp:640-652) with private `bw = INT_MIN` (the identity of the reduction). -/
def bandwidthThread (k base m T t : Nat) : Prog (CTy R) Int := do
  let be ← lbPart k m T t
  Prog.forUp (ty := CTy R) (be.1 + base) (be.2 + base) intMin fun i bw => do
    let lo ← Prog.read (ty := CTy R) (.rowptr k) (i - base)
    let hi ← Prog.read (ty := CTy R) (.rowptr k) (i + 1 - base)
    Prog.forUp (ty := CTy R) (lo : Int) (hi : Int) bw fun j bw => do
      let c ← Prog.read (ty := CTy R) (.colidx k) (j - base)
      let temp := (c : Int) - i
      let temp := if temp < 0 then -temp else temp
      pure (max temp bw)

/-- CSR::getBandwidth (CSR.cpp:631-656); `tr` is the order in which the runtime combines the thread results. -/
def getBandwidth (sz : CArr → Int) (T k m : Nat) (tr : RedTree) : Script (CTy R) Int :=
  .seq sz (Prog.read (ty := CTy R) (.rowptr k) 0) fun (base : Int) =>
  .phase sz T (fun t => bandwidthThread k base.toNat m T t) fun r => .done (tr.eval max (redVals T intMin r))

/-- One iteration of the sorted loop of getAverageWidth (CSR.cpp:666-671); `continue` contributes nothing. -/
def widthSortedRow (k base : Nat) (i : Int) : Prog (CTy R) Int := do
  let lo ← Prog.read (ty := CTy R) (.rowptr k) (i - base)
  let hi ← Prog.read (ty := CTy R) (.rowptr k) (i + 1 - base)
  if (lo : Int) = hi then pure 0
  else do
    let a ← Prog.read (ty := CTy R) (.colidx k) ((hi : Int) - 1 - base)
    let b ← Prog.read (ty := CTy R) (.colidx k) ((lo : Int) - base)
    pure ((a : Int) - b)

/-- One row of the unsorted loop (CSR.cpp:682-692). -/
def widthRow (k base : Nat) (i : Int) : Prog (CTy R) Int := do
  let lo ← Prog.read (ty := CTy R) (.rowptr k) (i - base)
  let hi ← Prog.read (ty := CTy R) (.rowptr k) (i + 1 - base)
  if (lo : Int) = hi then pure 0
  else do
    let mm ← Prog.forUp (ty := CTy R) (lo : Int) (hi : Int) (intMax, intMin) fun j mm => do
      let c ← Prog.read (ty := CTy R) (.colidx k) (j - base)
      pure (min (c : Int) mm.1, max (c : Int) mm.2)
    pure (mm.2 - mm.1)

/-- CSR::getAverageWidth (CSR.cpp:658-698). The 64-bit total cannot overflow (fewer than 2^31 rows of width below 2^31),
it is modelled as an integer; the final division is exact. In the sorted loop every iteration is one operand of the
reduction (grouping iterations by thread is a grouping of the tree). -/
def getAverageWidth (sz : CArr → Int) (T k m : Nat) (sorted : Bool) (tr : RedTree) : Script (CTy R) Rat :=
  .seq sz (Prog.read (ty := CTy R) (.rowptr k) 0) fun (base : Int) =>
  if sorted then
    .phase sz m (fun i => widthSortedRow k base.toNat ((i : Int) + base)) fun r =>
      .done (((tr.eval (· + ·) (redVals m 0 r) : Int) : Rat) / m)
  else
    .phase sz T (fun t => do
      let be ← lbPart k m T t
      Prog.forUp (ty := CTy R) (be.1 + base) (be.2 + base) 0 fun i s => do
        let w ← widthRow k base.toNat i
        pure (s + w)) fun r =>
      .done (((tr.eval (· + ·) (redVals T 0 r) : Int) : Rat) / m)

/-- CSR::getMaxDegree (CSR.cpp:700-707). -/
def getMaxDegree (k m : Nat) : Prog (CTy R) Int :=
  Prog.forUp (ty := CTy R) 0 m 0 fun i d => do
    let hi ← Prog.read (ty := CTy R) (.rowptr k) (i + 1)
    let lo ← Prog.read (ty := CTy R) (.rowptr k) i
    pure (max d ((hi : Int) - lo))

/-- `b` bounds the distance from the diagonal of the entries `ptr r ..< j`, and is attained or minimal. -/
def BwUpto (A : Csr R) (P : Nat → Nat → Prop) (b : Int) : Prop :=
  (∀ i j, P i j → ((A.col j : Int) - i).natAbs ≤ b) ∧ (b = intMin ∨ ∃ i j, P i j ∧ b = ((A.col j : Int) - i).natAbs)

theorem wp_bandwidthThread {sz : CArr → Int} {W Rd : CArr → Int → Prop} {k base T t : Nat} {A : Csr R} {m0 : Mem (CTy R)}
    (ht : t < T) (hwf : A.WF) (hp : HoldsPat m0 k base A) (hR : ∀ a i, Rd a i) :
    wp sz W Rd (bandwidthThread k base A.m T t) m0 (fun v _ => ∃ x, CutRng (A.iptr base) T A.m t x ∧
      BwUpto A (fun i j => A.InRow i j ∧ x.1 ≤ i ∧ i < x.2) v) := by
  unfold bandwidthThread
  rw [wp_bind]
  refine wp_mono (wp_relax (wp_lbPart ht hwf hp.rowptr) (fun _ _ h => h.elim) (fun a i _ => hR a i)) ?_
  rintro x m ⟨hx, rfl⟩
  have hrg : 0 ≤ x.1 ∧ x.2 ≤ A.m := ⟨hx.1.1, hx.2.2.1⟩
  refine wp_forUp (I := fun p b mm => mm = m ∧ BwUpto A (fun i j => A.InRow i j ∧ x.1 ≤ i ∧ (i : Int) + base < p) b) ?_ ?_ ?_
  · refine ⟨rfl, ?_, Or.inl rfl⟩
    rintro i j ⟨_, _, _⟩; omega
  · rintro p b mm h1 h2 ⟨rfl, h3⟩
    obtain ⟨r, hr⟩ := Int.eq_ofNat_of_zero_le (a := p - base) (by omega)
    obtain rfl : p = (r : Int) + base := by omega
    have hrm : r < A.m := by omega
    have hst := hwf.ptr_step r hrm
    simp only [wp_bind, wp_read]
    refine ⟨hR _ _, _, by rw [← hp.rowptr r (by omega)]; congr 1, hR _ _, _,
      by rw [← hp.rowptr (r + 1) (by omega)]; congr 1; push_cast; omega, ?_⟩
    refine wp_forUp (I := fun q b m' => m' = mm ∧ ∃ l : Nat, q = (l : Int) + base ∧ A.ptr r ≤ l ∧ l ≤ A.ptr (r + 1) ∧
      BwUpto A (fun i j => A.InRow i j ∧ x.1 ≤ i ∧ (i < r ∨ (i = r ∧ j < l))) b) ?_ ?_ ?_
    · refine ⟨rfl, A.ptr r, rfl, Nat.le_refl _, hst, ?_⟩
      have hiff : ∀ i j, (A.InRow i j ∧ x.1 ≤ i ∧ (i < r ∨ (i = r ∧ j < A.ptr r))) ↔
          (A.InRow i j ∧ x.1 ≤ i ∧ (i : Int) + base < (r : Int) + base) := by
        intro i j
        constructor
        · rintro ⟨g1, g2, g3⟩
          refine ⟨g1, g2, ?_⟩
          rcases g3 with g3 | ⟨rfl, g3⟩
          · omega
          · have := g1.2.1; omega
        · rintro ⟨g1, g2, g3⟩; exact ⟨g1, g2, Or.inl (by omega)⟩
      simp only [BwUpto, hiff]; exact h3
    · rintro q b m' g1 g2 ⟨rfl, l, rfl, g3, g4, g5, g6⟩
      have hin : A.InRow r l := ⟨hrm, g3, by omega⟩
      simp only [wp_bind, wp_read, wp_pure]
      refine ⟨hR _ _, _, by rw [← hp.colidx l (hin.lt_nnz hwf)]; congr 1; omega, trivial, l + 1, by push_cast; omega,
        by omega, by omega, ?_⟩
      have hval : (if ((A.col l : Int) + base) - ((r : Int) + base) < 0 then -(((A.col l : Int) + base) - ((r : Int) + base))
          else ((A.col l : Int) + base) - ((r : Int) + base)) = (((A.col l : Int) - r).natAbs : Int) := by
        split <;> omega
      show BwUpto A _ (max (if ((A.col l : Int) + base) - ((r : Int) + base) < 0 then
        -(((A.col l : Int) + base) - ((r : Int) + base)) else ((A.col l : Int) + base) - ((r : Int) + base)) b)
      rw [hval]
      refine ⟨?_, ?_⟩
      · rintro i j ⟨d1, d2, d3⟩
        by_cases hlast : i = r ∧ j = l
        · obtain ⟨rfl, rfl⟩ := hlast; omega
        · have := g5 i j ⟨d1, d2, by omega⟩; omega
      · by_cases hmax : (((A.col l : Int) - r).natAbs : Int) ≤ b
        · rw [Int.max_eq_right hmax]
          rcases g6 with g6 | ⟨i, j, ⟨d1, d2, d3⟩, d4⟩
          · exact Or.inl g6
          · exact Or.inr ⟨i, j, ⟨d1, d2, by omega⟩, d4⟩
        · rw [Int.max_eq_left (by omega)]
          exact Or.inr ⟨r, l, ⟨hin, by omega, by omega⟩, rfl⟩
    · rintro b m' ⟨rfl, l, g1, g2, g3, g4⟩
      have : l = A.ptr (r + 1) := by omega
      subst this
      refine ⟨rfl, ?_⟩
      have hiff : ∀ i j, (A.InRow i j ∧ x.1 ≤ i ∧ (i < r ∨ (i = r ∧ j < A.ptr (r + 1)))) ↔
          (A.InRow i j ∧ x.1 ≤ i ∧ (i : Int) + base < (r : Int) + base + 1) := by
        intro i j
        constructor
        · rintro ⟨g1, g2, g3⟩; exact ⟨g1, g2, by omega⟩
        · rintro ⟨e1, e2, e3⟩
          refine ⟨e1, e2, ?_⟩
          by_cases hir : i = r
          · subst hir; exact Or.inr ⟨rfl, e1.2.2⟩
          · exact Or.inl (by omega)
      simp only [BwUpto, hiff] at g4; exact g4
  · rintro b mm ⟨_, h1, h2⟩
    refine ⟨x, hx, ?_, ?_⟩
    · rintro i j ⟨d1, d2, d3⟩; exact h1 i j ⟨d1, d2, by omega⟩
    · rcases h2 with h2 | ⟨i, j, ⟨d1, d2, d3⟩, d4⟩
      · exact Or.inl h2
      · exact Or.inr ⟨i, j, ⟨d1, d2, by omega⟩, d4⟩

theorem getBandwidth_ok {sz : CArr → Int} {T k base : Nat} {A : Csr R} {m0 : Mem (CTy R)} {tr : RedTree} (hT : 1 ≤ T)
    (htr : tr.Admissible T) (hwf : A.WF) (hp : HoldsPat m0 k base A) :
    (getBandwidth sz T k A.m tr).Ok m0 (fun b m' => m' = m0 ∧ BwUpto A A.InRow b) := by
  have hptr0 := hp.rowptr 0 (by omega)
  rw [hwf.ptr_zero] at hptr0
  unfold getBandwidth
  refine seq_rule ?_
  rw [wp_read]
  refine ⟨trivial, ((0 : Nat) : Int) + base, hptr0, ?_⟩
  have e : ((0 : Nat) : Int) + (base : Int) = base := by omega
  rw [e]
  refine par_rule (W := fun _ _ _ => False) (R := fun _ _ _ => True)
    (Q := fun t v _ => ∃ x, CutRng (A.iptr base) T A.m t x ∧ BwUpto A (fun i j => A.InRow i j ∧ x.1 ≤ i ∧ i < x.2) v) ?_ ?_ ?_
  · intro _ _ _ _ _ _ _ h; exact h.elim
  · intro t ht; exact wp_bandwidthThread ht hwf hp (fun _ _ => trivial)
  · intro r m hq hf
    refine ⟨by funext a i; exact hf a i (fun _ _ h => h), ?_⟩
    have hsel : ∀ t, ∃ x, t < T → CutRng (A.iptr base) T A.m t x ∧
        BwUpto A (fun i j => A.InRow i j ∧ x.1 ≤ i ∧ i < x.2) (r t) := by
      intro t
      by_cases ht : t < T
      · obtain ⟨_, ⟨x, h⟩, _⟩ := hq t ht; exact ⟨x, fun _ => h⟩
      · exact ⟨(0, 0), fun h => absurd h ht⟩
    choose sel hsel using hsel
    obtain ⟨h1, h2, h3⟩ := RedTree.eval_max_eq htr intMin r
    refine ⟨?_, ?_⟩
    · intro i j hij
      obtain ⟨t, ht, g1, g2⟩ := (lbRng hwf base T hT).cover sel (fun t ht => (hsel t ht).1) i (by omega)
        (by have := hij.1; omega)
      have := (hsel t ht).2.1 i j ⟨hij, g1, g2⟩
      have := h1 t ht
      omega
    · rcases h3 with h3 | ⟨t, ht, h3⟩
      · exact Or.inl h3
      · rw [h3]
        rcases (hsel t ht).2.2 with h | ⟨i, j, ⟨g1, _, _⟩, g2⟩
        · exact Or.inl h
        · exact Or.inr ⟨i, j, g1, g2⟩

/-- `w` is the width of row `i`: 0 if empty, otherwise largest minus smallest column. -/
def IsRowWidth (A : Csr R) (i w : Nat) : Prop :=
  (A.ptr i = A.ptr (i + 1) ∧ w = 0) ∨
  ∃ a b, A.InRow i a ∧ A.InRow i b ∧ (∀ j, A.InRow i j → A.col a ≤ A.col j ∧ A.col j ≤ A.col b) ∧ A.col a + w = A.col b

theorem IsRowWidth.unique {A : Csr R} {i w w' : Nat} (h : IsRowWidth A i w) (h' : IsRowWidth A i w') : w = w' := by
  rcases h with ⟨h1, h2⟩ | ⟨a, b, h1, h2, h3, h4⟩
  · rcases h' with ⟨g1, g2⟩ | ⟨a', _, g1, _⟩
    · omega
    · have := g1.2; omega
  · rcases h' with ⟨g1, g2⟩ | ⟨a', b', g1, g2, g3, g4⟩
    · have := h1.2; omega
    · have := h3 a' g1; have := h3 b' g2; have := g3 a h1; have := g3 b h2; omega

theorem wp_widthSortedRow {sz : CArr → Int} {W Rd : CArr → Int → Prop} {k base r : Nat} {A : Csr R} {m0 : Mem (CTy R)}
    (hwf : A.WF) (hp : HoldsPat m0 k base A) (hr : r < A.m) (hs : A.RowSorted r) (hR : ∀ a i, Rd a i) :
    wp sz W Rd (widthSortedRow k base ((r : Int) + base)) m0 (fun v m => m = m0 ∧ ∃ w : Nat, v = w ∧ IsRowWidth A r w) := by
  have hst := hwf.ptr_step r hr
  unfold widthSortedRow
  simp only [wp_bind, wp_read]
  refine ⟨hR _ _, _, by rw [← hp.rowptr r (by omega)]; congr 1; omega, hR _ _, _,
      by rw [← hp.rowptr (r + 1) (by omega)]; congr 1; push_cast; omega, ?_⟩
  rw [wp_ite]
  refine ⟨fun h => ?_, fun h => ?_⟩
  · have h : (A.ptr r : Int) + base = (A.ptr (r + 1) : Int) + base := h
    rw [wp_pure]; exact ⟨rfl, 0, rfl, Or.inl ⟨by omega, rfl⟩⟩
  · have h : ¬ (A.ptr r : Int) + base = (A.ptr (r + 1) : Int) + base := h
    have h1 : A.InRow r (A.ptr r) := ⟨hr, Nat.le_refl _, by omega⟩
    have h2 : A.InRow r (A.ptr (r + 1) - 1) := ⟨hr, by omega, by omega⟩
    have hmono : ∀ a b, A.InRow r a → A.InRow r b → a ≤ b → A.col a ≤ A.col b := by
      intro a b ha hb hab
      rcases Nat.lt_or_ge a b with hlt | hge
      · exact Nat.le_of_lt_succ (Nat.lt_succ_of_le (by have := hs a b ha.2.1 hlt hb.2.2; omega))
      · have : a = b := by omega
        rw [this]
    simp only [wp_bind, wp_read, wp_pure]
    refine ⟨hR _ _, _, by rw [← hp.colidx _ (h2.lt_nnz hwf)]; congr 1; omega, hR _ _, _,
      by rw [← hp.colidx _ (h1.lt_nnz hwf)]; congr 1; omega, trivial, A.col (A.ptr (r + 1) - 1) - A.col (A.ptr r), ?_, ?_⟩
    · have := hmono _ _ h1 h2 (by omega); omega
    · refine Or.inr ⟨_, _, h1, h2, ?_, ?_⟩
      · intro j hj
        exact ⟨hmono _ _ h1 hj hj.2.1, hmono _ _ hj h2 (by have := hj.2.2; omega)⟩
      · have := hmono _ _ h1 h2 (by omega); omega

theorem wp_widthRow {sz : CArr → Int} {W Rd : CArr → Int → Prop} {k base r : Nat} {A : Csr R} {m0 : Mem (CTy R)}
    (hwf : A.WF) (hp : HoldsPat m0 k base A) (hr : r < A.m) (hn : (A.n : Int) + base ≤ intMax + 1) (hR : ∀ a i, Rd a i) :
    wp sz W Rd (widthRow k base ((r : Int) + base)) m0 (fun v m => m = m0 ∧ ∃ w : Nat, v = w ∧ IsRowWidth A r w) := by
  have hst := hwf.ptr_step r hr
  unfold widthRow
  simp only [wp_bind, wp_read]
  refine ⟨hR _ _, _, by rw [← hp.rowptr r (by omega)]; congr 1; omega, hR _ _, _,
      by rw [← hp.rowptr (r + 1) (by omega)]; congr 1; push_cast; omega, ?_⟩
  rw [wp_ite]
  refine ⟨fun h => ?_, fun h => ?_⟩
  · have h : (A.ptr r : Int) + base = (A.ptr (r + 1) : Int) + base := h
    rw [wp_pure]; exact ⟨rfl, 0, rfl, Or.inl ⟨by omega, rfl⟩⟩
  · have h : ¬ (A.ptr r : Int) + base = (A.ptr (r + 1) : Int) + base := h
    rw [wp_bind]
    refine wp_forUp (I := fun q s m' => m' = m0 ∧ ∃ l : Nat, q = (l : Int) + base ∧ A.ptr r ≤ l ∧ l ≤ A.ptr (r + 1) ∧
      ((l = A.ptr r ∧ s = (intMax, intMin)) ∨ ∃ a b, A.ptr r ≤ a ∧ a < l ∧ A.ptr r ≤ b ∧ b < l ∧
        s = ((A.col a : Int) + base, (A.col b : Int) + base) ∧
        ∀ j, A.ptr r ≤ j → j < l → A.col a ≤ A.col j ∧ A.col j ≤ A.col b)) ?_ ?_ ?_
    · exact ⟨rfl, A.ptr r, rfl, Nat.le_refl _, hst, Or.inl ⟨rfl, rfl⟩⟩
    · rintro q s m' g1 g2 ⟨rfl, l, rfl, g3, g4, g5⟩
      have hin : A.InRow r l := ⟨hr, g3, by omega⟩
      have hcl := hwf.col_lt l (hin.lt_nnz hwf)
      simp only [wp_bind, wp_read, wp_pure]
      refine ⟨hR _ _, _, by rw [← hp.colidx l (hin.lt_nnz hwf)]; congr 1; omega, trivial, l + 1, by push_cast; omega,
        by omega, by omega, Or.inr ?_⟩
      rcases g5 with ⟨rfl, rfl⟩ | ⟨a, b, d1, d2, d3, d4, rfl, d5⟩
      · refine ⟨A.ptr r, A.ptr r, by omega, by omega, by omega, by omega, ?_, ?_⟩
        · have e1 : min ((A.col (A.ptr r) : Int) + base) intMax = (A.col (A.ptr r) : Int) + base := by omega
          have e2 : max ((A.col (A.ptr r) : Int) + base) intMin = (A.col (A.ptr r) : Int) + base := by
            unfold intMin; omega
          show (min ((A.col (A.ptr r) : Int) + base) intMax, max ((A.col (A.ptr r) : Int) + base) intMin) = _
          rw [e1, e2]
        · intro j h1 h2
          have : j = A.ptr r := by omega
          subst this; omega
      · show ∃ a' b', _ ∧ _ ∧ _ ∧ _ ∧ (min ((A.col l : Int) + base) ((A.col a : Int) + base),
          max ((A.col l : Int) + base) ((A.col b : Int) + base)) = _ ∧ _
        refine ⟨if A.col l ≤ A.col a then l else a, if A.col b ≤ A.col l then l else b, ?_, ?_, ?_, ?_, ?_, ?_⟩
        · split <;> omega
        · split <;> omega
        · split <;> omega
        · split <;> omega
        · refine Prod.ext ?_ ?_
          · show min _ _ = _
            split <;> omega
          · show max _ _ = ((A.col (if A.col b ≤ A.col l then l else b) : Int) + base)
            split <;> omega
        · intro j h1 h2
          have hj : (A.col a ≤ A.col j ∧ A.col j ≤ A.col b) ∨ j = l := by
            by_cases hjl : j = l
            · exact Or.inr hjl
            · exact Or.inl (d5 j h1 (by omega))
          have hl := d5 a d1 d2
          split <;> split <;> rcases hj with hj | rfl <;> omega
    · rintro s m' ⟨rfl, l, g1, g2, g3, g4⟩
      have : l = A.ptr (r + 1) := by omega
      subst this
      rw [wp_pure]
      rcases g4 with ⟨g4, _⟩ | ⟨a, b, d1, d2, d3, d4, rfl, d5⟩
      · omega
      · have := d5 a d1 d2
        refine ⟨rfl, A.col b - A.col a, ?_, Or.inr ⟨a, b, ⟨hr, d1, d2⟩, ⟨hr, d3, d4⟩, ?_, by omega⟩⟩
        · show (A.col b : Int) + base - ((A.col a : Int) + base) = _
          omega
        · intro j hj; exact d5 j hj.2.1 hj.2.2

theorem sum_ranges {T m : Nat} {Rng : Nat → Int × Int → Prop} (hpr : PartRng T m Rng) {sel : Nat → Int × Int}
    (hsel : ∀ t, t < T → Rng t (sel t)) (w : Nat → Nat) :
    ∑ t ∈ Finset.range T, (∑ i ∈ Finset.range m, if (sel t).1 ≤ (i : Int) ∧ (i : Int) < (sel t).2 then (w i : Int) else 0) =
      ∑ i ∈ Finset.range m, (w i : Int) := by
  rw [Finset.sum_comm]
  refine Finset.sum_congr rfl ?_
  intro i hi
  simp only [Finset.mem_range] at hi
  obtain ⟨t, ht, g1, g2⟩ := hpr.cover sel hsel i (by omega) (by omega)
  rw [Finset.sum_eq_single t]
  · rw [if_pos ⟨g1, g2⟩]
  · intro u hu hne
    simp only [Finset.mem_range] at hu
    rw [if_neg]
    rintro ⟨h1, h2⟩
    exact hne (hpr.owner hu ht (hsel u hu) (hsel t ht) h1 h2 g1 g2)
  · intro h; simp at h; omega

theorem sum_natCast (w : Nat → Nat) (n : Nat) :
    ∑ i ∈ Finset.range n, (w i : Int) = ((∑ i ∈ Finset.range n, w i : Nat) : Int) := by
  induction n with
  | zero => simp
  | succ n ih => rw [Finset.sum_range_succ, Finset.sum_range_succ, ih]; push_cast; rfl

/-- Every row has a width. -/
theorem exists_rowWidth {A : Csr R} (hwf : A.WF) (i : Nat) (hi : i < A.m) : ∃ w, IsRowWidth A i w := by
  have hst := hwf.ptr_step i hi
  by_cases he : A.ptr i = A.ptr (i + 1)
  · exact ⟨0, Or.inl ⟨he, rfl⟩⟩
  · have hfin : ∀ l, A.ptr i < l → l ≤ A.ptr (i + 1) → ∃ a b, A.ptr i ≤ a ∧ a < l ∧ A.ptr i ≤ b ∧ b < l ∧
        ∀ j, A.ptr i ≤ j → j < l → A.col a ≤ A.col j ∧ A.col j ≤ A.col b := by
      intro l
      induction l with
      | zero => intro h; omega
      | succ l ih =>
        intro h1 h2
        by_cases hl : l = A.ptr i
        · exact ⟨l, l, by omega, by omega, by omega, by omega, fun j g1 g2 => by
            have : j = l := by omega
            subst this; omega⟩
        · obtain ⟨a, b, d1, d2, d3, d4, d5⟩ := ih (by omega) (by omega)
          refine ⟨if A.col l ≤ A.col a then l else a, if A.col b ≤ A.col l then l else b, ?_, ?_, ?_, ?_, ?_⟩
          · split <;> omega
          · split <;> omega
          · split <;> omega
          · split <;> omega
          · intro j h1 h2
            have hj : (A.col a ≤ A.col j ∧ A.col j ≤ A.col b) ∨ j = l := by
              by_cases hjl : j = l
              · exact Or.inr hjl
              · exact Or.inl (d5 j h1 (by omega))
            have hl := d5 a d1 d2
            split <;> split <;> rcases hj with hj | rfl <;> omega
    obtain ⟨a, b, d1, d2, d3, d4, d5⟩ := hfin (A.ptr (i + 1)) (by omega) (Nat.le_refl _)
    have := d5 a d1 d2
    exact ⟨A.col b - A.col a, Or.inr ⟨a, b, ⟨hi, d1, d2⟩, ⟨hi, d3, d4⟩, fun j hj => d5 j hj.2.1 hj.2.2, by omega⟩⟩

theorem getAverageWidth_ok {sz : CArr → Int} {T k base : Nat} {A : Csr R} {m0 : Mem (CTy R)} {tr : RedTree} {sorted : Bool}
    (hT : 1 ≤ T) (htr : tr.Admissible (if sorted then A.m else T)) (hwf : A.WF) (hp : HoldsPat m0 k base A)
    (hs : sorted = true → ∀ i, i < A.m → A.RowSorted i) (hn : (A.n : Int) + base ≤ intMax + 1) {w : Nat → Nat}
    (hw : ∀ i, i < A.m → IsRowWidth A i (w i)) :
    (getAverageWidth sz T k A.m sorted tr).Ok m0 (fun q m' => m' = m0 ∧
      q = ((∑ i ∈ Finset.range A.m, w i : Nat) : Rat) / A.m) := by
  have hptr0 := hp.rowptr 0 (by omega)
  rw [hwf.ptr_zero] at hptr0
  unfold getAverageWidth
  refine seq_rule ?_
  rw [wp_read]
  refine ⟨trivial, ((0 : Nat) : Int) + base, hptr0, ?_⟩
  have e : ((0 : Nat) : Int) + (base : Int) = base := by omega
  rw [e]
  cases sorted with
  | true =>
    simp only [if_true]
    refine par_rule (W := fun _ _ _ => False) (R := fun _ _ _ => True) (Q := fun t v _ => v = (w t : Int)) ?_ ?_ ?_
    · intro _ _ _ _ _ _ _ h; exact h.elim
    · intro t ht
      refine wp_mono (wp_widthSortedRow hwf hp ht (hs rfl t ht) (fun _ _ => trivial)) ?_
      rintro v m ⟨_, w', rfl, h⟩
      rw [h.unique (hw t ht)]
    · intro r m hq hf
      refine ⟨by funext a i; exact hf a i (fun _ _ h => h), ?_⟩
      simp only [if_true] at htr
      rw [RedTree.eval_add_eq htr, Finset.sum_congr rfl (g := fun t => (w t : Int))]
      · rw [sum_natCast, Int.add_zero, Int.cast_natCast]
      · intro t ht
        simp only [Finset.mem_range] at ht
        obtain ⟨_, h, _⟩ := hq t ht; exact h
  | false =>
    simp only [Bool.false_eq_true, if_false]
    refine par_rule (W := fun _ _ _ => False) (R := fun _ _ _ => True)
      (Q := fun t v _ => ∃ x, CutRng (A.iptr base) T A.m t x ∧
        v = ∑ i ∈ Finset.range A.m, if x.1 ≤ (i : Int) ∧ (i : Int) < x.2 then (w i : Int) else 0) ?_ ?_ ?_
    · intro _ _ _ _ _ _ _ h; exact h.elim
    · intro t ht
      rw [wp_bind]
      refine wp_mono (wp_relax (wp_lbPart ht hwf hp.rowptr) (fun _ _ h => h.elim) (fun a i _ => trivial)) ?_
      rintro x m ⟨hx, rfl⟩
      have hrg : 0 ≤ x.1 ∧ x.2 ≤ A.m := ⟨hx.1.1, hx.2.2.1⟩
      refine wp_forUp (I := fun p s mm => mm = m ∧
        s = ∑ i ∈ Finset.range A.m, if x.1 ≤ (i : Int) ∧ (i : Int) + base < p then (w i : Int) else 0) ?_ ?_ ?_
      · refine ⟨rfl, ?_⟩
        symm; refine Finset.sum_eq_zero ?_
        intro i _; rw [if_neg]; omega
      · rintro p s mm h1 h2 ⟨rfl, rfl⟩
        obtain ⟨r, hr⟩ := Int.eq_ofNat_of_zero_le (a := p - base) (by omega)
        obtain rfl : p = (r : Int) + base := by omega
        have hrm : r < A.m := by omega
        rw [wp_bind]
        refine wp_mono (wp_widthRow hwf hp hrm hn (fun _ _ => trivial)) ?_
        rintro v m' ⟨rfl, w', rfl, h⟩
        rw [wp_pure]
        refine ⟨rfl, ?_⟩
        rw [h.unique (hw r hrm)]
        rw [show (w r : Int) = ∑ i ∈ Finset.range A.m, if i = r then (w i : Int) else 0 by
          rw [Finset.sum_ite_eq']; simp [hrm], ← Finset.sum_add_distrib]
        refine Finset.sum_congr rfl ?_
        intro i _
        by_cases hir : i = r
        · subst hir
          rw [if_neg (by omega), if_pos rfl, if_pos (by omega)]; omega
        · rw [if_neg hir]
          by_cases hc : x.1 ≤ (i : Int) ∧ (i : Int) + base < (r : Int) + base
          · rw [if_pos hc, if_pos (by omega)]; omega
          · rw [if_neg hc, if_neg (by omega)]; omega
      · rintro s mm ⟨_, rfl⟩
        refine ⟨x, hx, ?_⟩
        refine Finset.sum_congr rfl ?_
        intro i _
        by_cases hc : x.1 ≤ (i : Int) ∧ (i : Int) < x.2
        · rw [if_pos hc, if_pos (by omega)]
        · rw [if_neg hc, if_neg (by omega)]
    · intro r m hq hf
      refine ⟨by funext a i; exact hf a i (fun _ _ h => h), ?_⟩
      have hsel : ∀ t, ∃ x, t < T → CutRng (A.iptr base) T A.m t x ∧
          r t = ∑ i ∈ Finset.range A.m, if x.1 ≤ (i : Int) ∧ (i : Int) < x.2 then (w i : Int) else 0 := by
        intro t
        by_cases ht : t < T
        · obtain ⟨_, ⟨x, h⟩, _⟩ := hq t ht; exact ⟨x, fun _ => h⟩
        · exact ⟨(0, 0), fun h => absurd h ht⟩
      choose sel hsel using hsel
      simp only [Bool.false_eq_true, if_false] at htr
      rw [RedTree.eval_add_eq htr, Finset.sum_congr rfl (fun t ht => (hsel t (by simpa using ht)).2),
        sum_ranges (lbRng hwf base T hT) (fun t ht => (hsel t ht).1) w]
      rw [sum_natCast, Int.add_zero, Int.cast_natCast]

theorem wp_getMaxDegree {sz : CArr → Int} {W Rd : CArr → Int → Prop} {k base : Nat} {A : Csr R} {m0 : Mem (CTy R)}
    (hwf : A.WF) (hp : HoldsPat m0 k base A) (hR : ∀ a i, Rd a i) :
    wp sz W Rd (getMaxDegree k A.m) m0 (fun d m => m = m0 ∧ (∀ i, i < A.m → (A.ptr (i + 1) : Int) - A.ptr i ≤ d) ∧
      (A.m = 0 → d = 0) ∧ (0 < A.m → ∃ i, i < A.m ∧ d = (A.ptr (i + 1) : Int) - A.ptr i)) := by
  unfold getMaxDegree
  refine wp_forUp (I := fun p d mm => mm = m0 ∧ ∃ r : Nat, p = r ∧ r ≤ A.m ∧
    (∀ i, i < r → (A.ptr (i + 1) : Int) - A.ptr i ≤ d) ∧ (r = 0 → d = 0) ∧
    (0 < r → ∃ i, i < r ∧ d = (A.ptr (i + 1) : Int) - A.ptr i)) ?_ ?_ ?_
  · exact ⟨rfl, 0, rfl, by omega, by omega, fun _ => rfl, by omega⟩
  · rintro p d mm h1 h2 ⟨rfl, r, rfl, h3, h4, h5, h6⟩
    have hr : r < A.m := by omega
    have hst := hwf.ptr_step r hr
    simp only [wp_bind, wp_read, wp_pure]
    refine ⟨hR _ _, _, by have := hp.rowptr (r + 1) (by omega); push_cast at this; exact this, hR _ _, _,
      hp.rowptr r (by omega), trivial, r + 1, by push_cast; rfl, by omega, ?_, by omega, ?_⟩
    · intro i hi
      show _ ≤ max d (((A.ptr (r + 1) : Int) + base) - ((A.ptr r : Int) + base))
      by_cases hir : i = r
      · subst hir; omega
      · have := h4 i (by omega); omega
    · intro _
      show ∃ i, i < r + 1 ∧ max d (((A.ptr (r + 1) : Int) + base) - ((A.ptr r : Int) + base)) = _
      by_cases hmax : d ≤ (A.ptr (r + 1) : Int) - A.ptr r
      · exact ⟨r, by omega, by omega⟩
      · by_cases hr0 : r = 0
        · have := h5 hr0; omega
        · obtain ⟨i, g1, g2⟩ := h6 (by omega)
          exact ⟨i, by omega, by omega⟩
  · rintro d mm ⟨rfl, r, h1, h2, h3, h4, h5⟩
    have : r = A.m := by omega
    subst this
    exact ⟨rfl, h3, h4, h5⟩

end SpMP
