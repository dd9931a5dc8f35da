import Verif.CompSort
/-
findConnectedComponents_: initialisation, path compression, numbering of the roots.
-/

namespace SpMP
open Spec

variable {R : Type} {sz : CArr → Int} {T : Nat} {wb : Bool} {bv : Nat → Bool}

/-- Follow the parent pointers. -/
def ufRoot (f : Nat → Nat) (x : Nat) : Nat := if f x < x then ufRoot f (f x) else x
termination_by x

/-- `ρ` gives the roots of the forest `f` on `V`. -/
structure IsRoots (V : Nat → Prop) (f ρ : Nat → Nat) : Prop where
  fle : ∀ x, V x → f x ≤ x
  fV : ∀ x, V x → V (f x)
  le : ∀ x, V x → ρ x ≤ x
  mem : ∀ x, V x → V (ρ x)
  idem : ∀ x, V x → ρ (ρ x) = ρ x
  step : ∀ x, V x → ρ (f x) = ρ x
  fix : ∀ x, V x → f x = x → ρ x = x
  top : ∀ x, V x → f (ρ x) = ρ x

theorem ufRoot_isRoots {V : Nat → Prop} {f : Nat → Nat} (hf : ∀ x, V x → f x ≤ x ∧ V (f x)) : IsRoots V f (ufRoot f) := by
  have e1 : ∀ x, f x < x → ufRoot f x = ufRoot f (f x) := fun x h => by rw [ufRoot, if_pos h]
  have e2 : ∀ x, ¬ f x < x → ufRoot f x = x := fun x h => by rw [ufRoot, if_neg h]
  have key : ∀ x, V x → ufRoot f x ≤ x ∧ V (ufRoot f x) ∧ f (ufRoot f x) = ufRoot f x := by
    intro x
    induction x using Nat.strongRecOn with
    | ind x ih =>
      intro hx
      by_cases h : f x < x
      · rw [e1 x h]
        obtain ⟨h1, h2⟩ := ih (f x) h (hf x hx).2
        exact ⟨by omega, h2⟩
      · rw [e2 x h]
        have := (hf x hx).1
        exact ⟨Nat.le_refl _, hx, by omega⟩
  refine ⟨fun x h => (hf x h).1, fun x h => (hf x h).2, fun x h => (key x h).1, fun x h => (key x h).2.1, ?_, ?_, ?_,
    fun x h => (key x h).2.2⟩
  · intro x hx
    exact e2 _ (by rw [(key x hx).2.2]; omega)
  · intro x hx
    by_cases h : f x < x
    · exact (e1 x h).symm
    · have := (hf x hx).1
      rw [show f x = x by omega]
  · intro x _ h; exact e2 x (by omega)

/-- Number of roots among the first `i` nodes. -/
def ccRk (ρ nd : Nat → Nat) : Nat → Nat
  | 0 => 0
  | i + 1 => ccRk ρ nd i + if ρ (nd i) = nd i then 1 else 0

theorem ccRk_mono (ρ nd : Nat → Nat) {i j : Nat} (h : i ≤ j) : ccRk ρ nd i ≤ ccRk ρ nd j := by
  induction j with
  | zero => obtain rfl : i = 0 := by omega
            exact Nat.le_refl _
  | succ j ih =>
    by_cases he : i = j + 1
    · subst he; exact Nat.le_refl _
    · have := ih (by omega)
      have e : ccRk ρ nd (j + 1) = ccRk ρ nd j + if ρ (nd j) = nd j then 1 else 0 := rfl
      omega

theorem ccRk_lt {ρ nd : Nat → Nat} {i j : Nat} (h : i < j) (hr : ρ (nd i) = nd i) : ccRk ρ nd i < ccRk ρ nd j := by
  have := ccRk_mono ρ nd (i := i + 1) (j := j) h
  have e : ccRk ρ nd (i + 1) = ccRk ρ nd i + if ρ (nd i) = nd i then 1 else 0 := rfl
  rw [if_pos hr] at e; omega

/-- Every number below the count is the rank of a root. -/
theorem ccRk_find {ρ nd : Nat → Nat} {c : Nat} : ∀ {i : Nat}, c < ccRk ρ nd i → ∃ j, j < i ∧ ρ (nd j) = nd j ∧ ccRk ρ nd j = c
  | 0, h => by simp [ccRk] at h
  | i + 1, h => by
    have e : ccRk ρ nd (i + 1) = ccRk ρ nd i + if ρ (nd i) = nd i then 1 else 0 := rfl
    by_cases hc : c < ccRk ρ nd i
    · obtain ⟨j, h1, h2⟩ := ccRk_find hc
      exact ⟨j, by omega, h2⟩
    · by_cases hr : ρ (nd i) = nd i
      · rw [if_pos hr] at e; exact ⟨i, by omega, hr, by omega⟩
      · rw [if_neg hr] at e; omega

/-! ### Initialisation -/

theorem ccInit_ok {mm m : Nat} {nd : Nat → Nat} {m0 : Mem (CTy R)} {α : Type} {Q : α → Mem (CTy R) → Prop}
    {f : (Nat → Unit) → Script (CTy R) α} (hn : CcNodes wb bv m mm nd) (ha : NodesAt wb mm nd m0)
    (hT : 1 ≤ T) (hsz : (m : Int) ≤ sz (.itmp 0))
    (hf : ∀ u m', (∀ x, ccV wb bv m x → m' (.itmp 0) (x : Int) = some (x : Int)) →
      (∀ a i, a ≠ .itmp 0 → m' a i = m0 a i) → (f u).Ok m' Q) :
    (Script.phase sz T (ccInit wb mm T) f).Ok m0 Q := by
  have hinj : ∀ i j, i < mm → j < mm → nd i = nd j → i = j := by
    intro i j hi hj e
    rcases Nat.lt_trichotomy i j with h | h | h
    · have := hn.mono i j h hj; omega
    · exact h
    · have := hn.mono j i h hi; omega
  let Own : Nat → CArr → Int → Prop := fun t a i => a = .itmp 0 ∧ ∃ j : Nat, rowCut T mm t ≤ j ∧ j < rowCut T mm (t + 1) ∧ i = (nd j : Int)
  refine par_rule (W := Own) (R := fun t a i => a ≠ .itmp 0 ∨ Own t a i)
    (Q := fun t _ m => ∀ j, rowCut T mm t ≤ j → j < rowCut T mm (t + 1) → m (.itmp 0) (nd j : Int) = some (nd j : Int)) ?_ ?_ ?_
  · rintro t u a i ht hu htu h1 (h2 | h2)
    · exact h2 h1.1
    · obtain ⟨_, j, a1, a2, rfl⟩ := h1
      obtain ⟨_, j', b1, b2, e⟩ := h2
      have l1 := rowCut_le hT mm (t + 1)
      have l2 := rowCut_le hT mm (u + 1)
      obtain rfl := hinj j j' (by omega) (by omega) (by omega)
      rcases Nat.lt_trichotomy t u with h | h | h
      · have := rowCut_mono hT mm (show t + 1 ≤ u from h); omega
      · exact htu h
      · have := rowCut_mono hT mm (show u + 1 ≤ t from h); omega
  · intro t ht
    show wp sz _ _ (ccInit wb mm T t) m0 _
    unfold ccInit
    rw [rowCut_eq hT, rowCut_end hT]
    refine wp_forN (b := 0) (lo := rowCut T mm t) (hi := rowCut T mm (t + 1))
      (fun x _ m' => (∀ j, rowCut T mm t ≤ j → j < x → m' (.itmp 0) (nd j : Int) = some (nd j : Int)) ∧
        ∀ a i, a ≠ .itmp 0 → m' a i = m0 a i) (rowCut_mono hT mm (by omega)) ⟨fun j h1 h2 => by omega, fun _ _ _ => rfl⟩ ?_
      (fun _ _ h => h.1) (Int.add_zero _).symm (Int.add_zero _).symm
    rintro x _ m' h1 h2 ⟨g1, g2⟩
    rw [Int.add_zero, wp_bind]
    have hx : x < mm := Nat.lt_of_lt_of_le h2 (rowCut_le hT mm _)
    have hv := (hn.val x hx).1
    refine wp_ccNode hn (fun hw i hi => (g2 _ _ (by simp)).trans (ha hw i hi)) hx (fun _ => Or.inl (by simp)) ?_
    refine wp_wr1 ⟨rfl, x, h1, h2, rfl⟩ ⟨by omega, by omega⟩ ⟨?_, ?_⟩
    · intro j p1 p2
      by_cases e : j = x
      · subst e; exact Mem.get_same _ _ _ _
      · have := hn.mono j x (by omega) hx
        rw [Mem.get_ne _ _ _ _ _ (by omega)]; exact g1 j p1 (by omega)
    · intro a i ha'
      rw [Mem.set_other _ _ _ _ _ ha']; exact g2 a i ha'
  · intro u m' hq hfr
    refine hf u m' ?_ fun a i ha' => hfr a i fun t _ h => ha' h.1
    intro x hx
    obtain ⟨i, hi, rfl⟩ := hn.mem x hx
    obtain ⟨t, ht, g1, g2⟩ := rowCut_find hT hi
    obtain ⟨mt, h, hR⟩ := hq t ht
    rw [hR _ _ (Or.inr ⟨rfl, i, g1, g2, rfl⟩)]
    exact h i g1 g2

/-! ### Path compression -/

/-- What holds throughout the path compression. -/
structure CpInv (V : Nat → Prop) (f ρ : Nat → Nat) (m1 m : Mem (CTy R)) : Prop where
  frame : ∀ a i, a ≠ .itmp 0 → a ≠ .itmp 1 → m a i = m1 a i
  zero : m (.itmp 1) 0 = m1 (.itmp 1) 0
  par : ∀ x, V x → m (.itmp 0) (x : Int) = some (f x : Int) ∨ m (.itmp 0) (x : Int) = some (ρ x : Int)

/-- Cells of thread `t`. -/
def CpOwn (T mm : Nat) (nd : Nat → Nat) (t : Nat) (a : CArr) (i : Int) : Prop :=
  (a = .itmp 0 ∧ ∃ j : Nat, rowCut T mm t ≤ j ∧ j < rowCut T mm (t + 1) ∧ i = (nd j : Int)) ∨ (a = .itmp 1 ∧ i = (t : Int) + 1)

theorem ccFind_rg {V : Nat → Prop} {f ρ : Nat → Nat} {m1 : Mem (CTy R)} {Own : CArr → Int → Prop} (hr : IsRoots V f ρ)
    (hVb : ∀ x, V x → (wb = true → bv x = false)) :
    ∀ (fuel x : Nat) (m : Mem (CTy R)), V x → x < fuel →
      wpRG (Γ := Unit) sz (fun _ m => CpInv V f ρ m1 m) (fun _ m _ m' => ∀ a i, Own a i → m' a i = m a i)
        (fun _ m _ m' => ∀ a i, ¬ Own a i → m' a i = m a i) (ccFind wb bv fuel (x : Int)) () m
        (fun r _ m' => r = (ρ x : Int) ∧ ∀ a i, Own a i → m' a i = m a i) := by
  intro fuel
  induction fuel with
  | zero => intro _ _ _ h; omega
  | succ fuel ih =>
    intro x m hx hlt
    unfold ccFind
    have hval : ∀ m, CpInv V f ρ m1 m → ∃ v : Nat, m (.itmp 0) (x : Int) = some (v : Int) ∧ V v ∧ v ≤ x ∧ ρ v = ρ x ∧
        (v = x → ρ x = x) ∧ (ρ x ≠ x → v < x) := by
      intro m hm
      rcases hm.par x hx with h | h
      · refine ⟨f x, h, hr.fV x hx, hr.fle x hx, hr.step x hx, hr.fix x hx, fun hne => ?_⟩
        have := hr.fle x hx
        have : f x ≠ x := fun e => hne (hr.fix x hx e)
        omega
      · refine ⟨ρ x, h, hr.mem x hx, hr.le x hx, hr.idem x hx, fun e => e, fun hne => ?_⟩
        have := hr.le x hx
        omega
    refine wpRG_rd (fun _ _ _ _ _ => rfl) fun _ ma hra hia => ?_
    obtain ⟨v, h1, h2, h3, h4, h5, h6⟩ := hval ma hia
    refine ⟨_, h1, ?_⟩
    by_cases hvx : (v : Int) = x
    · rw [if_pos hvx]
      intro _ mb hrb _
      refine ⟨?_, fun a i h => (hrb a i h).trans (hra a i h)⟩
      have := h5 (by omega)
      rw [this]
    · rw [if_neg hvx]
      have hne : ρ x ≠ x := by
        intro e
        have := hr.top x hx
        rw [e] at this
        rcases hia.par x hx with h | h
        · rw [h1] at h; have := Option.some.inj h; omega
        · rw [h1] at h; have : (v : Int) = (ρ x : Int) := Option.some.inj h
          omega
      refine wpRG_rd (fun _ _ _ _ _ => rfl) fun _ mb hrb hib => ?_
      obtain ⟨w, w1, w2, w3, w4, w5, w6⟩ := hval mb hib
      refine ⟨_, w1, ?_⟩
      refine wpRG_assert (hVb w w2) ?_
      refine wpRG_mono (ih w mb w2 (by have := w6 hne; omega)) ?_
      rintro r _ mc _ ⟨q1, q2⟩
      exact ⟨by rw [q1, w4], fun a i h => (q2 a i h).trans ((hrb a i h).trans (hra a i h))⟩

theorem ccCompress_ok {mm m : Nat} {nd f ρ : Nat → Nat} {m1 : Mem (CTy R)} {α : Type} {Q : α → Mem (CTy R) → Prop}
    {k : (Nat → Unit) → Script (CTy R) α} (hn : CcNodes wb bv m mm nd) (ha : NodesAt wb mm nd m1) (hr : IsRoots (ccV wb bv m) f ρ)
    (hT : 1 ≤ T) (hsz : (m : Int) ≤ sz (.itmp 0)) (hs1 : (T : Int) + 1 ≤ sz (.itmp 1))
    (hp : ∀ x, ccV wb bv m x → m1 (.itmp 0) (x : Int) = some (f x : Int))
    (hk : ∀ u m', (∀ x, ccV wb bv m x → m' (.itmp 0) (x : Int) = some (ρ x : Int)) →
      (∀ t : Nat, t < T → m' (.itmp 1) ((t : Int) + 1) = some ((ccRk ρ nd (rowCut T mm (t + 1)) : Int) - ccRk ρ nd (rowCut T mm t))) →
      m' (.itmp 1) 0 = m1 (.itmp 1) 0 →
      (∀ a i, a ≠ .itmp 0 → a ≠ .itmp 1 → m' a i = m1 a i) → (k u).Ok m' Q) :
    (Script.phase sz T (ccCompress wb bv m mm T) k).Ok m1 Q := by
  have hinj : ∀ i j, i < mm → j < mm → nd i = nd j → i = j := by
    intro i j hi hj e
    rcases Nat.lt_trichotomy i j with h | h | h
    · have := hn.mono i j h hj; omega
    · exact h
    · have := hn.mono j i h hi; omega
  have hdis : ∀ t u a i, t ≠ u → CpOwn T mm nd t a i → ¬ CpOwn T mm nd u a i := by
    rintro t u a i htu h1 h2
    rcases h1 with ⟨rfl, j, a1, a2, rfl⟩ | ⟨rfl, rfl⟩
    · rcases h2 with ⟨_, j', b1, b2, e⟩ | ⟨h, _⟩
      · have l1 := rowCut_le hT mm (t + 1)
        have l2 := rowCut_le hT mm (u + 1)
        obtain rfl := hinj j j' (by omega) (by omega) (by omega)
        rcases Nat.lt_trichotomy t u with h | h | h
        · have := rowCut_mono hT mm (show t + 1 ≤ u from h); omega
        · exact htu h
        · have := rowCut_mono hT mm (show u + 1 ≤ t from h); omega
      · simp at h
    · rcases h2 with ⟨h, _⟩ | ⟨_, h⟩
      · simp at h
      · omega
  let V := ccV wb bv m
  let Inv : Unit → Mem (CTy R) → Prop := fun _ m => CpInv V f ρ m1 m
  let Rely : Nat → Unit → Mem (CTy R) → Unit → Mem (CTy R) → Prop := fun t _ m _ m' => ∀ a i, CpOwn T mm nd t a i → m' a i = m a i
  let Guar : Nat → Unit → Mem (CTy R) → Unit → Mem (CTy R) → Prop := fun t _ m _ m' => ∀ a i, ¬ CpOwn T mm nd t a i → m' a i = m a i
  have hrefl : ∀ t g m, Rely t g m g m := fun _ _ _ _ _ _ => rfl
  have hG : ∀ t g m, Guar t g m g m := fun _ _ _ _ _ _ => rfl
  have htr : ∀ t g1 m1 g2 m2 g3 m3, Rely t g1 m1 g2 m2 → Rely t g2 m2 g3 m3 → Rely t g1 m1 g3 m3 :=
    fun _ _ _ _ _ _ _ h1 h2 a i h => (h2 a i h).trans (h1 a i h)
  have hI1 : Inv () m1 := ⟨fun _ _ _ _ => rfl, rfl, fun x hx => Or.inl (hp x hx)⟩
  refine rg_rule (Γ := Unit) Inv Rely Guar
    (fun t _ _ m => (∀ j, rowCut T mm t ≤ j → j < rowCut T mm (t + 1) → m (.itmp 0) (nd j : Int) = some (ρ (nd j) : Int)) ∧
      m (.itmp 1) ((t : Int) + 1) = some ((ccRk ρ nd (rowCut T mm (t + 1)) : Int) - ccRk ρ nd (rowCut T mm t))) () hI1 hrefl htr
    (fun t u _ _ _ _ _ _ htu _ _ h a i ho => h a i (hdis u t a i (Ne.symm htu) ho)) ?_ ?_
  · intro t ht
    show wpRG sz _ _ _ (ccCompress wb bv m mm T t) _ _ _
    unfold ccCompress
    rw [rowCut_eq hT, rowCut_end hT]
    refine wpRG_bind (hrefl t) (htr t) hI1 ?_
    refine wpRG_forUp (Inv := Inv) (hrefl t) (htr t)
      (fun i c _ m => ∃ n : Nat, i = (n : Int) ∧ rowCut T mm t ≤ n ∧ n ≤ rowCut T mm (t + 1) ∧
        c = (ccRk ρ nd n : Int) - ccRk ρ nd (rowCut T mm t) ∧
        ∀ j, rowCut T mm t ≤ j → j < n → m (.itmp 0) (nd j : Int) = some (ρ (nd j) : Int)) ?_ hI1 ?_ ?_ ?_
    · rintro i c _ m _ m' ⟨n, h1, h2, h3, h4, h5⟩ hre _
      refine ⟨n, h1, h2, h3, h4, fun j q1 q2 => ?_⟩
      rw [hre _ _ (Or.inl ⟨rfl, j, q1, by omega, rfl⟩)]; exact h5 j q1 q2
    · exact ⟨_, rfl, Nat.le_refl _, rowCut_mono hT mm (by omega), (Int.sub_self _).symm, fun j q1 q2 => by omega⟩
    · rintro i c _ ma h1 h2 hia ⟨n, rfl, h3, h4, rfl, h5⟩
      have hnm : n < mm := by have := rowCut_le hT mm (t + 1); omega
      have hVn := hn.val n hnm
      have hVm := hVn.1
      refine wpRG_bind (hrefl t) (htr t) hia ?_
      refine wpRG_mono (wpRG_ro (Rd := fun a _ => a = .itmp 6) (Q := fun v => v = (nd n : Int)) (htr t) (hG t)
        (fun _ m hm a i h => hm.frame a i (by rw [h]; simp) (by rw [h]; simp)) (wp_ccNode hn ha hnm (fun _ => rfl) rfl)) ?_
      rintro _ _ mb hib ⟨rfl, hrb⟩
      refine wpRG_bind (hrefl t) (htr t) hib ?_
      refine wpRG_mono (ccFind_rg (Own := CpOwn T mm nd t) hr (fun x hx => hx.2) (m + 1) (nd n) mb hVn (by omega)) ?_
      rintro _ _ mc hic ⟨rfl, hrc⟩
      refine wpRG_wr fun _ md hrd hid => ⟨by omega, by omega, (), ?_, ?_, ?_⟩
      · intro a i ho
        by_cases e : a = .itmp 0
        · subst e
          rw [Mem.get_ne _ _ _ _ _ (fun e => ho (Or.inl ⟨rfl, n, h3, by omega, e⟩))]
        · rw [Mem.set_other _ _ _ _ _ e]
      · refine ⟨fun a i e1 e2 => by rw [Mem.set_other _ _ _ _ _ e1]; exact hid.frame a i e1 e2,
          by rw [Mem.set_other _ _ _ _ _ (by simp)]; exact hid.zero, fun x hx => ?_⟩
        by_cases e : x = nd n
        · subst e; exact Or.inr (Mem.get_same _ _ _ _)
        · rw [Mem.get_ne _ _ _ _ _ (by omega)]; exact hid.par x hx
      · intro _ me hre _
        refine ⟨n + 1, by push_cast; rfl, by omega, by omega, ?_, fun j q1 q2 => ?_⟩
        · have es : ccRk ρ nd (n + 1) = ccRk ρ nd n + if ρ (nd n) = nd n then 1 else 0 := rfl
          by_cases e : ρ (nd n) = nd n
          · rw [es, if_pos e, if_pos (show (ρ (nd n) : Int) = (nd n : Int) by omega)]; push_cast; omega
          · rw [es, if_neg e, if_neg (show ¬ (ρ (nd n) : Int) = (nd n : Int) by omega)]; rfl
        · have ho : CpOwn T mm nd t (.itmp 0) (nd j : Int) := Or.inl ⟨rfl, j, q1, by omega, rfl⟩
          rw [hre _ _ ho]
          by_cases e : j = n
          · subst e; exact Mem.get_same _ _ _ _
          · have := hn.mono j n (by omega) hnm
            rw [Mem.get_ne _ _ _ _ _ (by omega), hrd _ _ ho, hrc _ _ ho, hrb _ _ ho]
            exact h5 j q1 (by omega)
    · rintro c _ ma ⟨n, h1, h2, h3, rfl, h5⟩
      obtain rfl : n = rowCut T mm (t + 1) := by have := rowCut_mono hT mm (show t ≤ t + 1 by omega); omega
      intro _ mb hrb hib
      refine ⟨by omega, by omega, (), ?_, ?_, ?_⟩
      · intro a i ho
        by_cases e : a = .itmp 1
        · subst e
          rw [Mem.get_ne _ _ _ _ _ (fun e => ho (Or.inr ⟨rfl, e⟩))]
        · rw [Mem.set_other _ _ _ _ _ e]
      · refine ⟨fun a i e1 e2 => by rw [Mem.set_other _ _ _ _ _ e2]; exact hib.frame a i e1 e2,
          by rw [Mem.get_ne _ _ _ _ _ (by omega)]; exact hib.zero, fun x hx => ?_⟩
        rw [Mem.set_other _ _ _ _ _ (by simp)]; exact hib.par x hx
      · intro _ mc hrc _
        refine ⟨fun j q1 q2 => ?_, ?_⟩
        · have ho : CpOwn T mm nd t (.itmp 0) (nd j : Int) := Or.inl ⟨rfl, j, q1, by omega, rfl⟩
          rw [hrc _ _ ho, Mem.set_other _ _ _ _ _ (by simp), hrb _ _ ho]
          exact h5 j q1 q2
        · rw [hrc _ _ (Or.inr ⟨rfl, rfl⟩)]; exact Mem.get_same _ _ _ _
  · intro u _ m' hI hq
    refine hk u m' ?_ (fun t ht => (hq t ht).2) hI.zero hI.frame
    intro x hx
    obtain ⟨i, hi, rfl⟩ := hn.mem x hx
    obtain ⟨t, ht, g1, g2⟩ := rowCut_find hT hi
    exact (hq t ht).1 i g1 g2

/-! ### Prefix sums and numbering -/

theorem wp_ccSum {j : Nat} {F : Nat → Nat} {W Rd : CArr → Int → Prop} {m0 : Mem (CTy R)} {Q : Int → Mem (CTy R) → Prop} (hT : 1 ≤ T)
    (hW : ∀ a i, W a i) (hRd : ∀ a i, Rd a i) (hsz : (T : Int) + 1 ≤ sz (.itmp j)) (hF : F 0 = 0) (h0 : m0 (.itmp j) 0 = some (0 : Int))
    (h1 : ∀ t : Nat, t < T → m0 (.itmp j) ((t : Int) + 1) = some ((F (t + 1) : Int) - F t))
    (hQ : ∀ m, (∀ t : Nat, t ≤ T → m (.itmp j) (t : Int) = some (F t : Int)) → (∀ a i, a ≠ .itmp j → m a i = m0 a i) → Q (F T : Int) m) :
    wp sz W Rd (ccSum j T) m0 Q := by
  unfold ccSum
  rw [wp_bind]
  refine wp_forN (b := 0) (lo := 1) (hi := T)
    (fun n _ m => (∀ t : Nat, t ≤ n → m (.itmp j) (t : Int) = some (F t : Int)) ∧
      (∀ t : Nat, n ≤ t → t < T → m (.itmp j) ((t : Int) + 1) = some ((F (t + 1) : Int) - F t)) ∧
      ∀ a i, a ≠ .itmp j → m a i = m0 a i) hT ⟨?_, fun t _ ht => h1 t ht, fun _ _ _ => rfl⟩ ?_ ?_ (by simp) (by simp)
  · intro t ht
    by_cases e : t = 0
    · subst e; rw [hF]; exact h0
    · obtain rfl : t = 1 := by omega
      have := h1 0 (by omega)
      rw [hF] at this
      rw [show ((1 : Nat) : Int) = ((0 : Nat) : Int) + 1 by simp, this]
      simp
  · rintro n _ m g1 g2 ⟨p1, p2, p3⟩
    rw [Int.add_zero]
    refine wp_rd _ (hRd _ _) (p2 n (Nat.le_refl _) g2) ?_
    refine wp_rd _ (hRd _ _) (p1 n (Nat.le_refl _)) ?_
    have e : ((F (n + 1) : Int) - F n + F n : Int) = F (n + 1) := by omega
    show wp sz W Rd (Prog.write (ty := CTy R) (.itmp j) ((n : Int) + 1) ((F (n + 1) : Int) - F n + F n : Int)) m _
    rw [e]
    refine wp_wr1 (hW _ _) ⟨by omega, by omega⟩ ⟨?_, ?_, ?_⟩
    · intro t ht
      by_cases e : t = n + 1
      · subst e; rw [show ((n + 1 : Nat) : Int) = (n : Int) + 1 by push_cast; rfl]; exact Mem.get_same _ _ _ _
      · rw [Mem.get_ne _ _ _ _ _ (by omega)]; exact p1 t (by omega)
    · intro t q1 q2
      rw [Mem.get_ne _ _ _ _ _ (by omega)]; exact p2 t (by omega) q2
    · intro a i ha
      rw [Mem.set_other _ _ _ _ _ ha]; exact p3 a i ha
  · rintro _ m ⟨p1, _, p3⟩
    rw [wp_read]
    exact ⟨hRd _ _, _, p1 T (Nat.le_refl _), hQ m p1 p3⟩

theorem ccMap_ok {mm m : Nat} {nd ρ : Nat → Nat} {m0 : Mem (CTy R)} {α : Type} {Q : α → Mem (CTy R) → Prop}
    {k : (Nat → Unit) → Script (CTy R) α} (hn : CcNodes wb bv m mm nd) (ha : NodesAt wb mm nd m0)
    (hT : 1 ≤ T) (hs2 : (m : Int) ≤ sz (.itmp 2)) (hs3 : (ccRk ρ nd mm : Int) ≤ sz (.itmp 3))
    (hp : ∀ x, ccV wb bv m x → m0 (.itmp 0) (x : Int) = some (ρ x : Int))
    (hc : ∀ t : Nat, t ≤ T → m0 (.itmp 1) (t : Int) = some (ccRk ρ nd (rowCut T mm t) : Int))
    (hk : ∀ u m', (∀ i, i < mm → ρ (nd i) = nd i → m' (.itmp 3) (ccRk ρ nd i : Int) = some (nd i : Int) ∧
        m' (.itmp 2) (nd i : Int) = some (ccRk ρ nd i : Int)) →
      (∀ a i, a ≠ .itmp 2 → a ≠ .itmp 3 → m' a i = m0 a i) → (k u).Ok m' Q) :
    (Script.phase sz T (ccMap wb mm T) k).Ok m0 Q := by
  have hinj : ∀ i j, i < mm → j < mm → nd i = nd j → i = j := by
    intro i j hi hj e
    rcases Nat.lt_trichotomy i j with h | h | h
    · have := hn.mono i j h hj; omega
    · exact h
    · have := hn.mono j i h hi; omega
  let Own : Nat → CArr → Int → Prop := fun t a i => ∃ j : Nat, rowCut T mm t ≤ j ∧ j < rowCut T mm (t + 1) ∧ ρ (nd j) = nd j ∧
    ((a = .itmp 2 ∧ i = (nd j : Int)) ∨ (a = .itmp 3 ∧ i = (ccRk ρ nd j : Int)))
  refine par_rule (W := Own) (R := fun t a i => (a ≠ .itmp 2 ∧ a ≠ .itmp 3) ∨ Own t a i)
    (Q := fun t _ m => ∀ j, rowCut T mm t ≤ j → j < rowCut T mm (t + 1) → ρ (nd j) = nd j →
      m (.itmp 3) (ccRk ρ nd j : Int) = some (nd j : Int) ∧ m (.itmp 2) (nd j : Int) = some (ccRk ρ nd j : Int)) ?_ ?_ ?_
  · rintro t u a i ht hu htu ⟨j, a1, a2, a3, a4⟩ h2
    rcases h2 with h2 | ⟨j', b1, b2, b3, b4⟩
    · rcases a4 with ⟨rfl, _⟩ | ⟨rfl, _⟩
      · exact h2.1 rfl
      · exact h2.2 rfl
    · have l1 := rowCut_le hT mm (t + 1)
      have l2 := rowCut_le hT mm (u + 1)
      have hjj : j = j' := by
        rcases a4 with ⟨rfl, e1⟩ | ⟨rfl, e1⟩ <;> rcases b4 with ⟨e0, e2⟩ | ⟨e0, e2⟩
        · exact hinj j j' (by omega) (by omega) (by omega)
        · simp at e0
        · simp at e0
        · rcases Nat.lt_trichotomy j j' with h | h | h
          · have := ccRk_lt h a3; omega
          · exact h
          · have := ccRk_lt h b3; omega
      subst hjj
      rcases Nat.lt_trichotomy t u with h | h | h
      · have := rowCut_mono hT mm (show t + 1 ≤ u from h); omega
      · exact htu h
      · have := rowCut_mono hT mm (show u + 1 ≤ t from h); omega
  · intro t ht
    show wp sz _ _ (ccMap wb mm T t) m0 _
    unfold ccMap
    rw [rowCut_eq hT, rowCut_end hT]
    refine wp_rd _ (Or.inl ⟨by simp, by simp⟩) (hc t (by omega)) ?_
    rw [wp_bind]
    refine wp_forN (b := 0) (lo := rowCut T mm t) (hi := rowCut T mm (t + 1))
      (fun x c m' => c = (ccRk ρ nd x : Int) ∧ (∀ j, rowCut T mm t ≤ j → j < x → ρ (nd j) = nd j →
          m' (.itmp 3) (ccRk ρ nd j : Int) = some (nd j : Int) ∧ m' (.itmp 2) (nd j : Int) = some (ccRk ρ nd j : Int)) ∧
        ∀ a i, a ≠ .itmp 2 → a ≠ .itmp 3 → m' a i = m0 a i) (rowCut_mono hT mm (by omega))
      ⟨rfl, fun j h1 h2 => by omega, fun _ _ _ _ => rfl⟩ ?_ (fun _ _ h => wp_pure.2 h.2.1) (Int.add_zero _).symm (Int.add_zero _).symm
    rintro x c m' h1 h2 ⟨rfl, g1, g2⟩
    have hx : x < mm := Nat.lt_of_lt_of_le h2 (rowCut_le hT mm _)
    have hV := hn.val x hx
    have hv := hV.1
    rw [Int.add_zero, wp_bind]
    refine wp_ccNode hn (fun hw i hi => (g2 _ _ (by simp) (by simp)).trans (ha hw i hi)) hx (fun _ => Or.inl (by simp)) ?_
    refine wp_rd _ (Or.inl ⟨by simp, by simp⟩) ((g2 _ _ (by simp) (by simp)).trans (hp _ hV)) ?_
    have es : ccRk ρ nd (x + 1) = ccRk ρ nd x + if ρ (nd x) = nd x then 1 else 0 := rfl
    by_cases e : ρ (nd x) = nd x
    · rw [if_pos (show (ρ (nd x) : Int) = (nd x : Int) by omega)]
      rw [e]
      rw [if_pos e] at es
      have hrk : ccRk ρ nd x < ccRk ρ nd mm := ccRk_lt hx e
      refine wp_wr ⟨x, h1, h2, e, Or.inr ⟨rfl, rfl⟩⟩ ⟨by omega, by omega⟩ ?_
      refine wp_wr ⟨x, h1, h2, e, Or.inl ⟨rfl, rfl⟩⟩ ⟨by omega, by omega⟩ ?_
      rw [wp_pure]
      refine ⟨by omega, ?_, ?_⟩
      · intro j q1 q2 q3
        by_cases ej : j = x
        · subst ej
          exact ⟨by rw [Mem.set_other _ _ _ _ _ (by simp)]; exact Mem.get_same _ _ _ _, Mem.get_same _ _ _ _⟩
        · obtain ⟨o1, o2⟩ := g1 j q1 (by omega) q3
          have hm := hn.mono j x (by omega) hx
          have hr := ccRk_lt (ρ := ρ) (nd := nd) (show j < x by omega) q3
          refine ⟨?_, ?_⟩
          · rw [Mem.set_other _ _ _ _ _ (by simp), Mem.get_ne _ _ _ _ _ (by omega)]; exact o1
          · rw [Mem.get_ne _ _ _ _ _ (by omega), Mem.set_other _ _ _ _ _ (by simp)]; exact o2
      · intro a i p1 p2
        rw [Mem.set_other _ _ _ _ _ p1, Mem.set_other _ _ _ _ _ p2]; exact g2 a i p1 p2
    · rw [if_neg (show ¬ (ρ (nd x) : Int) = (nd x : Int) by omega), wp_pure]
      rw [if_neg e] at es
      refine ⟨by rw [es]; rfl, ?_, g2⟩
      intro j q1 q2 q3
      by_cases ej : j = x
      · subst ej; exact (e q3).elim
      · exact g1 j q1 (by omega) q3
  · intro u m' hq hfr
    refine hk u m' ?_ ?_
    · intro i hi hir
      obtain ⟨t, ht, g1, g2⟩ := rowCut_find hT hi
      obtain ⟨mt, h, hR⟩ := hq t ht
      rw [hR _ _ (Or.inr ⟨i, g1, g2, hir, Or.inr ⟨rfl, rfl⟩⟩), hR _ _ (Or.inr ⟨i, g1, g2, hir, Or.inl ⟨rfl, rfl⟩⟩)]
      exact h i g1 g2 hir
    · intro a i p1 p2
      refine hfr a i ?_
      rintro t ht ⟨j, _, _, _, ⟨h, _⟩ | ⟨h, _⟩⟩
      · exact p1 h
      · exact p2 h

end SpMP
