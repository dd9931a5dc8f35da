import Verif.PartMem
import Verif.TaskPartMain
import Verif.RowTeam
/-
The memory-level task partition computes what the functional model of TaskPart.lean computes.
-/

namespace SpMP
open Spec

variable {R : Type}

section
variable {sz : CArr → Int} {W Rd : CArr → Int → Prop}

/-! ### lower_bound -/

theorem lowerBoundGo_ge {b : Nat → Nat} {x : Nat} : ∀ fuel first len, first ≤ lowerBoundGo b x fuel first len := by
  intro fuel
  induction fuel with
  | zero => intro first len; exact Nat.le_refl _
  | succ fuel ih =>
    intro first len
    simp only [lowerBoundGo]
    split
    · exact Nat.le_refl _
    · split
      · have := ih (first + len / 2 + 1) (len - len / 2 - 1); omega
      · exact ih _ _

theorem wp_lowerBoundGo {m : Mem (CTy R)} {b : Nat → Nat} {lo hi : Nat} {x : Nat}
    (hb : ∀ i : Nat, lo ≤ i → i < hi → Rd (.itmp 50) (i : Int) ∧ m (.itmp 50) (i : Int) = some (b i : Int)) :
    ∀ (fuel first len : Nat) {Q : Int → Mem (CTy R) → Prop}, len ≤ fuel → lo ≤ first → first + len ≤ hi ∨ len = 0 →
      Q (lowerBoundGo b x fuel first len : Nat) m →
      wp sz W Rd (lowerBoundAux (fun i => Prog.read (ty := CTy R) (.itmp 50) i) (x : Int) fuel (first : Int) len) m Q := by
  intro fuel
  induction fuel with
  | zero =>
    intro first len Q h1 _ _ hQ
    have : len = 0 := by omega
    subst this
    simp only [lowerBoundAux, wp_pure]
    exact hQ
  | succ fuel ih =>
    intro first len Q h1 h2 h3 hQ
    cases len with
    | zero =>
      simp only [lowerBoundAux, wp_pure]
      simpa [lowerBoundGo] using hQ
    | succ len =>
      unfold lowerBoundAux
      have h3 : first + (len + 1) ≤ hi := by omega
      obtain ⟨g1, g2⟩ := hb (first + (len + 1) / 2) (by omega) (by omega)
      have e : (first : Int) + ((len + 1) / 2 : Nat) = ((first + (len + 1) / 2 : Nat) : Int) := by omega
      simp only [lowerBoundGo] at hQ
      rw [if_neg (by omega)] at hQ
      refine wp_rd (b (first + (len + 1) / 2) : Int) (by rw [e]; exact g1) (by rw [e]; exact g2) ?_
      rw [wp_ite]
      constructor
      · intro hv
        have hv : ((b (first + (len + 1) / 2) : Nat) : Int) < (x : Int) := hv
        rw [if_pos (by omega)] at hQ
        have := ih (first + (len + 1) / 2 + 1) (len + 1 - (len + 1) / 2 - 1) (Q := Q) (by omega) (by omega) (Or.inl (by omega)) hQ
        rw [show ((first + (len + 1) / 2 + 1 : Nat) : Int) = (first : Int) + ((len + 1) / 2 : Nat) + 1 by omega] at this
        exact this
      · intro hv
        have hv : ¬ ((b (first + (len + 1) / 2) : Nat) : Int) < (x : Int) := hv
        rw [if_neg (by omega)] at hQ
        exact ih first ((len + 1) / 2) (by omega) h2 (Or.inl (by omega)) hQ

theorem wp_lowerBoundAt {m : Mem (CTy R)} {b : Nat → Nat} {lo first hi x : Nat} {Q : Int → Mem (CTy R) → Prop}
    (hb : ∀ i : Nat, lo ≤ i → i < hi → Rd (.itmp 50) (i : Int) ∧ m (.itmp 50) (i : Int) = some (b i : Int)) (h : lo ≤ first)
    (hQ : Q (lowerBoundAt b first hi x : Nat) m) :
    wp sz W Rd (lowerBound (fun i => Prog.read (ty := CTy R) (.itmp 50) i) (first : Int) (hi : Int) (x : Int)) m Q := by
  unfold lowerBound
  rw [show ((hi : Int) - first).toNat = hi - first by omega]
  exact wp_lowerBoundGo hb _ _ _ (Nat.le_refl _) h (by omega) hQ

/-! ### taskRows -/

/-- The task of thread `t` in level `l`, as stored. -/
def Cell (nlev l : Nat) (m : Mem (CTy R)) (t : Nat) (be : Nat × Nat) : Prop :=
  m (.itmp 51) ((t : Int) * nlev + l) = some (be.1 : Int) ∧ m (.itmp 52) ((t : Int) * nlev + l) = some (be.2 : Int)

theorem cell_idx_ne {nlev l t u : Nat} (hl : l < nlev) (h : t ≠ u) : (t : Int) * nlev + l ≠ (u : Int) * nlev + l := by
  intro hc
  have h1 : (t : Int) * nlev = (u : Int) * nlev := by omega
  have h2 : t * nlev = u * nlev := by exact_mod_cast h1
  exact h (Nat.eq_of_mul_eq_mul_right (by omega) h2)

theorem idx_inj {nlev l l' t u : Nat} (hl : l < nlev) (hl' : l' < nlev) (h : (t : Int) * nlev + l = (u : Int) * nlev + l') : t = u ∧ l = l' := by
  have h2 : t * nlev + l = u * nlev + l' := by exact_mod_cast h
  have a1 : (t * nlev + l) / nlev = t := by
    rw [Nat.mul_comm, Nat.mul_add_div (by omega), Nat.div_eq_of_lt hl]; omega
  have a2 : (u * nlev + l') / nlev = u := by
    rw [Nat.mul_comm, Nat.mul_add_div (by omega), Nat.div_eq_of_lt hl']; omega
  have : t = u := by rw [← a1, ← a2, h2]
  subst this
  exact ⟨rfl, by omega⟩

theorem idx_bound {nlev l t T : Nat} (hl : l < nlev) (ht : t < T) : (t : Int) * nlev + l < T * (nlev + 1) - 1 := by
  have h1 : (t + 1) * nlev ≤ T * nlev := Nat.mul_le_mul_right _ ht
  have h2 : t * nlev + l + 1 ≤ T * nlev := by rw [Nat.add_mul] at h1; omega
  have h3 : (t : Int) * nlev + l + 1 ≤ T * nlev := by exact_mod_cast h2
  have h4 : (T : Int) * (nlev + 1) = T * nlev + T := by rw [Int.mul_add, Int.mul_one]
  omega

/-- Write both components of a task. -/
theorem wp_cell {α : Type} {nlev l t T : Nat} {be : Nat × Nat} {m : Mem (CTy R)} {k : Prog (CTy R) α} {Q : α → Mem (CTy R) → Prop} (hl : l < nlev) (ht : t < T)
    (hs1 : sz (.itmp 51) = T * (nlev + 1) - 1) (hs2 : sz (.itmp 52) = T * (nlev + 1) - 1)
    (hW1 : W (.itmp 51) ((t : Int) * nlev + l)) (hW2 : W (.itmp 52) ((t : Int) * nlev + l))
    {i b e : Int} (ei : i = (t : Int) * nlev + l) (eb : b = be.1) (ee : e = be.2)
    (hk : ∀ m' : Mem (CTy R), Cell nlev l m' t be → (∀ u c, u ≠ t → Cell nlev l m u c → Cell nlev l m' u c) →
      (∀ a i, a ≠ .itmp 51 → a ≠ .itmp 52 → m' a i = m a i) → wp sz W Rd k m' Q) :
    wp sz W Rd (do
      Prog.write (ty := CTy R) (.itmp 51) i b
      Prog.write (ty := CTy R) (.itmp 52) i e
      k) m Q := by
  subst ei; subst eb; subst ee
  have hb := idx_bound hl ht
  have h0 : (0 : Int) ≤ (t : Int) * nlev + l := by positivity
  refine wp_wr hW1 ⟨h0, by rw [hs1]; exact hb⟩ (wp_wr hW2 ⟨h0, by rw [hs2]; exact hb⟩ (hk _ ?_ ?_ ?_))
  · constructor
    · rw [Mem.set_other _ _ _ _ _ (by simp)]; exact Mem.get_same _ _ _ _
    · exact Mem.get_same _ _ _ _
  · rintro u c hu ⟨h1, h2⟩
    have hne := cell_idx_ne (nlev := nlev) hl hu
    constructor
    · rw [Mem.set_other _ _ _ _ _ (by simp), Mem.get_ne _ _ _ _ _ hne]; exact h1
    · rw [Mem.get_ne _ _ _ _ _ hne, Mem.set_other _ _ _ _ _ (by simp)]; exact h2
  · intro a i h1 h2
    rw [Mem.set_other _ _ _ _ _ h2, Mem.set_other _ _ _ _ _ h1]

theorem cutPointI_eq {agg : Bool} {le t r newr : Nat} (h : r ≤ newr) (hr : t = 0 ∨ 1 ≤ r) :
    cutPointI agg le t r newr = (cutPoint agg le t r newr : Nat) := by
  unfold cutPointI cutPoint
  cases agg with
  | false => simp
  | true =>
    simp only [if_true]
    by_cases ht : t = 0
    · rw [if_pos (by omega), if_pos ht]; omega
    · rw [if_neg (by omega), if_neg ht]; omega

theorem wp_lvCuts {nlev l T : Nat} {agg : Bool} {b : Nat → Nat} {per lb le : Nat} (hl : l < nlev) (hle : lb ≤ le)
    (hs1 : sz (.itmp 51) = T * (nlev + 1) - 1) (hs2 : sz (.itmp 52) = T * (nlev + 1) - 1)
    (hW : ∀ t : Nat, t < T → W (.itmp 51) ((t : Int) * nlev + l) ∧ W (.itmp 52) ((t : Int) * nlev + l)) :
    ∀ (fuel t r prevEnd : Nat) {m : Mem (CTy R)} {Q : Int → Mem (CTy R) → Prop}, t + fuel = T → lb ≤ r → (t = 0 ∨ 1 ≤ r) →
      (∀ i : Nat, lb ≤ i → i < le → Rd (.itmp 50) (i : Int) ∧ m (.itmp 50) (i : Int) = some (b i : Int)) →
      (∀ (t' : Int) m', (∀ x be, (partLoop agg b per le fuel t r prevEnd).1[x]? = some be → Cell nlev l m' (t + x) be) →
        ((partLoop agg b per le fuel t r prevEnd).2 = true → t' + 1 = t + (partLoop agg b per le fuel t r prevEnd).1.length) →
        (∀ u c, u < t → Cell nlev l m u c → Cell nlev l m' u c) → (∀ a i, a ≠ .itmp 51 → a ≠ .itmp 52 → m' a i = m a i) → Q t' m') →
      wp sz W Rd (lvCuts agg nlev l (per : Int) (le : Int) fuel (t : Int) (r : Int) (prevEnd : Int)) m Q := by
  intro fuel
  induction fuel with
  | zero =>
    intro t r prevEnd m Q _ _ _ _ hQ
    unfold lvCuts
    rw [wp_pure]
    refine hQ _ m ?_ ?_ (fun _ _ _ h => h) (fun _ _ _ _ => rfl)
    · intro x be h; simp [partLoop] at h
    · intro h; simp [partLoop] at h
  | succ fuel ih =>
    intro t r prevEnd m Q ht hr hr1 hb hQ
    unfold lvCuts
    rw [wp_bind, show ((t : Int) + 1) * (per : Int) = (((t + 1) * per : Nat) : Int) by push_cast; rfl]
    refine wp_lowerBoundAt hb hr ?_
    have hge : r ≤ lowerBoundAt b r le ((t + 1) * per) := lowerBoundGo_ge _ _ _
    dsimp only
    rw [cutPointI_eq hge hr1]
    simp only [partLoop] at hQ
    generalize hcp : cutPoint agg le t r (lowerBoundAt b r le ((t + 1) * per)) = cp at hQ ⊢
    have hcpr : lb ≤ cp + 1 := by
      rw [← hcp]; unfold cutPoint
      cases agg with
      | false => simp; omega
      | true =>
        simp only [if_true]
        split <;> omega
    obtain ⟨w1, w2⟩ := hW t (by omega)
    refine wp_cell (be := (prevEnd, min cp le)) hl (show t < T by omega) hs1 hs2 w1 w2 rfl rfl (by push_cast; rfl) ?_
    intro m' g1 g2 g3
    have hcond : (agg && decide ((le : Int) ≤ min (cp : Int) le)) = (agg && decide (le ≤ min cp le)) := by
      congr 1; rw [decide_eq_decide]; omega
    rw [hcond]
    by_cases hbr : (agg && decide (le ≤ min cp le)) = true
    · rw [if_pos hbr] at hQ ⊢
      rw [wp_pure]
      refine hQ _ m' ?_ ?_ (fun u c hu h => g2 u c (by omega) h) g3
      · intro x be hx
        cases x with
        | zero => simp at hx; subst hx; exact g1
        | succ x => simp at hx
      · intro _; simp
    · rw [if_neg hbr] at hQ ⊢
      dsimp only at hQ
      rw [show (t : Int) + 1 = ((t + 1 : Nat) : Int) by push_cast; rfl, show (cp : Int) + 1 = ((cp + 1 : Nat) : Int) by push_cast; rfl,
        show min (cp : Int) (le : Int) = ((min cp le : Nat) : Int) by push_cast; rfl]
      refine ih (t + 1) (cp + 1) (min cp le) (by omega) hcpr (Or.inr (by omega)) ?_ ?_
      · intro i h1 h2
        obtain ⟨q1, q2⟩ := hb i h1 h2
        exact ⟨q1, by rw [g3 _ _ (by simp) (by simp)]; exact q2⟩
      · intro t' m2 k1 k2 k3 k4
        refine hQ t' m2 ?_ ?_ ?_ ?_
        · intro x be hx
          cases x with
          | zero => simp at hx; subst hx; exact k3 t _ (by omega) g1
          | succ x =>
            have := k1 x be (by simpa using hx)
            rw [show t + 1 + x = t + (x + 1) by omega] at this
            exact this
        · intro h; have := k2 h; simp only [List.length_cons]; push_cast at this ⊢; omega
        · intro u c hu h; exact k3 u c (by omega) (g2 u c (by omega) h)
        · intro a i h1 h2; rw [k4 a i h1 h2, g3 a i h1 h2]

theorem wp_lvShift {nlev l T lb : Nat} {ts : List (Nat × Nat)} {m : Mem (CTy R)} {Q : Unit → Mem (CTy R) → Prop} (hl : l < nlev)
    (hs1 : sz (.itmp 51) = T * (nlev + 1) - 1) (hs2 : sz (.itmp 52) = T * (nlev + 1) - 1)
    (hW : ∀ t : Nat, t < T → W (.itmp 51) ((t : Int) * nlev + l) ∧ W (.itmp 52) ((t : Int) * nlev + l))
    (hR : ∀ t : Nat, t < T → Rd (.itmp 51) ((t : Int) * nlev + l) ∧ Rd (.itmp 52) ((t : Int) * nlev + l))
    (hts : ts.length ≤ T) (hcell : ∀ x be, ts[x]? = some be → Cell nlev l m x be) {t : Int} (ht : t + 1 = ts.length)
    (hQ : ∀ m', (∀ x be, (List.replicate (T - ts.length) (lb, lb) ++ ts)[x]? = some be → Cell nlev l m' x be) →
      (∀ a i, a ≠ .itmp 51 → a ≠ .itmp 52 → m' a i = m a i) → Q () m') :
    wp sz W Rd (lvShift T nlev l (lb : Int) t) m Q := by
  unfold lvShift
  rw [wp_bind]
  refine wp_forDownN (b := 0) (lo := 0) (hi := ts.length) (fun i _ m' =>
    (∀ x be, ts[x]? = some be → (i ≤ x → Cell nlev l m' (T - ts.length + x) be) ∧ (x < i → Cell nlev l m' x be)) ∧
    ∀ a i, a ≠ .itmp 51 → a ≠ .itmp 52 → m' a i = m a i) (Nat.zero_le _) ⟨?_, fun _ _ _ _ => rfl⟩ ?_ ?_ (by simp) (by omega)
  · intro x be hx
    have := (List.getElem?_eq_some_iff.mp hx).1
    exact ⟨fun h => by omega, fun _ => hcell x be hx⟩
  · rintro i _ m1 - hi ⟨h1, h2⟩
    rw [Int.add_zero]
    have hx : ts[i]? = some ts[i] := List.getElem?_eq_getElem hi
    obtain ⟨c1, c2⟩ := (h1 i _ hx).2 (by omega)
    obtain ⟨r1, r2⟩ := hR i (by omega)
    obtain ⟨w1, w2⟩ := hW (T - ts.length + i) (by omega)
    refine wp_rd _ r1 c1 (wp_rd _ r2 c2 ?_)
    have := wp_cell (sz := sz) (W := W) (Rd := Rd) (m := m1) (k := pure ()) (be := ts[i]) (i := ((T : Int) - 1 - t + i) * nlev + l) (b := (ts[i].1 : Int)) (e := (ts[i].2 : Int))
      (Q := fun _ m' => (∀ x be, ts[x]? = some be → (i ≤ x → Cell nlev l m' (T - ts.length + x) be) ∧ (x < i → Cell nlev l m' x be)) ∧
        ∀ a i, a ≠ .itmp 51 → a ≠ .itmp 52 → m' a i = m a i) hl (show T - ts.length + i < T by omega) hs1 hs2 w1 w2
        (by rw [show (T : Int) - 1 - t + i = ((T - ts.length + i : Nat) : Int) by omega]) rfl rfl ?_
    · exact this
    · intro m' g1 g2 g3
      rw [wp_pure]
      refine ⟨?_, fun a j p q => by rw [g3 a j p q, h2 a j p q]⟩
      intro x be hxb
      refine ⟨fun hix => ?_, fun hxi => ?_⟩
      · by_cases hxe : x = i
        · subst hxe
          rw [hx] at hxb; cases hxb
          exact g1
        · exact g2 _ _ (by omega) ((h1 x be hxb).1 (by omega))
      · exact g2 _ _ (by omega) ((h1 x be hxb).2 (by omega))
  · rintro _ m1 ⟨h1, h2⟩
    refine wp_forN (b := 0) (lo := 0) (hi := T - ts.length) (fun n _ m' =>
      (∀ x, x < n → Cell nlev l m' x (lb, lb)) ∧ (∀ x be, ts[x]? = some be → Cell nlev l m' (T - ts.length + x) be) ∧
      ∀ a i, a ≠ .itmp 51 → a ≠ .itmp 52 → m' a i = m a i) (Nat.zero_le _)
      ⟨fun x h => by omega, fun x be h => (h1 x be h).1 (by omega), h2⟩ ?_ ?_ (by simp) (by omega)
    · rintro i _ m2 - hi ⟨q1, q2, q3⟩
      rw [Int.add_zero]
      obtain ⟨w1, w2⟩ := hW i (by omega)
      have := wp_cell (sz := sz) (W := W) (Rd := Rd) (m := m2) (k := pure ()) (be := (lb, lb)) (i := (i : Int) * nlev + l) (b := (lb : Int)) (e := (lb : Int))
        (Q := fun _ m' => (∀ x, x < i + 1 → Cell nlev l m' x (lb, lb)) ∧ (∀ x be, ts[x]? = some be → Cell nlev l m' (T - ts.length + x) be) ∧
          ∀ a i, a ≠ .itmp 51 → a ≠ .itmp 52 → m' a i = m a i) hl (show i < T by omega) hs1 hs2 w1 w2 rfl rfl rfl ?_
      · exact this
      · intro m' g1 g2 g3
        rw [wp_pure]
        refine ⟨?_, ?_, fun a j p q => by rw [g3 a j p q, q3 a j p q]⟩
        · intro x hx
          by_cases hxe : x = i
          · subst hxe; exact g1
          · exact g2 _ _ hxe (q1 x (by omega))
        · intro x be hxb
          exact g2 _ _ (by omega) (q2 x be hxb)
    · rintro _ m2 ⟨q1, q2, q3⟩
      refine hQ m2 ?_ q3
      intro x be hx
      by_cases hlt : x < T - ts.length
      · rw [List.getElem?_append_left (by simpa using hlt), List.getElem?_replicate, if_pos hlt] at hx
        cases hx
        exact q1 x hlt
      · rw [List.getElem?_append_right (by simpa using hlt), List.length_replicate] at hx
        have := q2 _ be hx
        rwa [show T - ts.length + (x - (T - ts.length)) = x by omega] at this

/-! ### Costs -/

/-- The cost function returns `cost i` for row `i < n`; the default one reads rowptr. -/
def CostIs (cf : Option (Int → Int)) (n : Nat) (cost : Nat → Nat) (m : Mem (CTy R)) : Prop :=
  match cf with
  | some f => ∀ i : Nat, i < n → f i = cost i
  | none => ∃ p : Nat → Int, (∀ i : Nat, i ≤ n → m (.rowptr 0) (i : Int) = some (p i)) ∧ ∀ i, i < n → p (i + 1) - p i = cost i

theorem wp_costOf {cf : Option (Int → Int)} {n : Nat} {cost : Nat → Nat} {m : Mem (CTy R)} (h : CostIs cf n cost m) {i : Nat} (hi : i < n)
    (hR : ∀ i, Rd (.rowptr 0) i) {Q : Int → Mem (CTy R) → Prop} (hQ : Q (cost i : Int) m) : wp sz W Rd (costOf cf (i : Int)) m Q := by
  unfold costOf
  cases cf with
  | some f =>
    have h : ∀ i : Nat, i < n → f i = cost i := h
    show wp sz W Rd (pure (f i)) m Q
    rw [wp_pure, h i hi]; exact hQ
  | none =>
    obtain ⟨p, h1, h2⟩ := h
    refine wp_rd (p (i + 1)) (hR _) (h1 (i + 1) (by omega)) (wp_rd (p i) (hR _) (h1 i (by omega)) ?_)
    rw [wp_pure]
    have e := h2 i hi
    have : ((p (i + 1) : Int) - p i) = (cost i : Int) := e
    exact this ▸ hQ

theorem CostIs.frame {cf : Option (Int → Int)} {n : Nat} {cost : Nat → Nat} {m m' : Mem (CTy R)} (h : CostIs cf n cost m)
    (hm : ∀ i, m' (.rowptr 0) i = m (.rowptr 0) i) : CostIs cf n cost m' := by
  cases cf with
  | some f => exact h
  | none =>
    obtain ⟨p, h1, h2⟩ := h
    exact ⟨p, fun i hi => by rw [hm]; exact h1 i hi, h2⟩

theorem wp_lvPrefix {cf : Option (Int → Int)} {n : Nat} {cost rev : Nat → Nat} {m : Mem (CTy R)} {lb le : Nat} {Q : Int → Mem (CTy R) → Prop}
    (hle : lb ≤ le) (hc : CostIs cf n cost m) (hR : ∀ i, Rd (.rowptr 0) i) (hs : (le : Int) ≤ sz (.itmp 50))
    (hW : ∀ i : Nat, lb ≤ i → i < le → W (.itmp 50) (i : Int))
    (hrev : ∀ i : Nat, lb ≤ i → i < le → Rd (.itmp 21) (i : Int) ∧ m (.itmp 21) (i : Int) = some (rev i : Int) ∧ rev i < n)
    (hQ : ∀ m', (∀ i : Nat, lb ≤ i → i < le → m' (.itmp 50) (i : Int) = some (levelCost cost rev lb i : Int)) →
      (∀ a i, a ≠ .itmp 50 → m' a i = m a i) → Q (levelCost cost rev lb le : Int) m') :
    wp sz W Rd (lvPrefix cf (lb : Int) (le : Int)) m Q := by
  unfold lvPrefix
  refine wp_forN (b := 0) (lo := lb) (hi := le) (fun x s m' => s = (levelCost cost rev lb x : Int) ∧
    (∀ i : Nat, lb ≤ i → i < x → m' (.itmp 50) (i : Int) = some (levelCost cost rev lb i : Int)) ∧
    ∀ a i, a ≠ .itmp 50 → m' a i = m a i) hle ⟨?_, fun i h1 h2 => by omega, fun _ _ _ => rfl⟩ ?_ ?_ (by simp) (by simp)
  · simp [levelCost]
  · rintro i s m1 h1 h2 ⟨rfl, h3, h4⟩
    rw [Int.add_zero]
    obtain ⟨r1, r2, r3⟩ := hrev i h1 h2
    refine wp_wr (hW i h1 h2) ⟨by omega, by omega⟩ ?_
    refine wp_rd (rev i : Int) r1 (by rw [Mem.set_other _ _ _ _ _ (by simp), h4 _ _ (by simp)]; exact r2) ?_
    rw [wp_bind]
    refine wp_costOf (hc.frame (fun j => ?_)) r3 hR ?_
    · rw [Mem.set_other _ _ _ _ _ (by simp), h4 _ _ (by simp)]
    · rw [wp_pure]
      refine ⟨?_, ?_, ?_⟩
      · rw [levelCost_succ _ _ h1]; push_cast; rfl
      · intro j g1 g2
        by_cases hj : j = i
        · subst hj; exact Mem.get_same _ _ _ _
        · rw [Mem.get_ne _ _ _ _ _ (by omega)]; exact h3 j g1 (by omega)
      · intro a j ha
        rw [Mem.set_other _ _ _ _ _ ha]; exact h4 a j ha
  · rintro s m1 ⟨rfl, h3, h4⟩
    exact hQ m1 h3 h4

/-! ### One level -/

theorem revOf_at {L : List (List Nat)} {l q : Nat} (hl : l < L.length) (hq : q < (L.getD l []).length) :
    L.flatten[levIdx L l + q]? = some ((L.getD l [])[q]) := by
  have e : L = L.take l ++ L[l] :: L.drop (l + 1) := by simp
  have eg : L.getD l [] = L[l] := by rw [List.getD_eq_getElem?_getD, List.getElem?_eq_getElem hl]; rfl
  have e2 : L.flatten = (L.take l).flatten ++ (L[l] ++ (L.drop (l + 1)).flatten) := by
    conv_lhs => rw [e]
    rw [List.flatten_append, List.flatten_cons]
  have hq' : q < L[l].length := by rw [← eg]; exact hq
  unfold levIdx
  rw [e2, List.getElem?_append_right (by omega), Nat.add_sub_cancel_left, List.getElem?_append_left hq', List.getElem?_eq_getElem hq']
  simp only [eg]

/-- What thread `l` of the loop over levels reads and writes. -/
def LvW (T : Nat) (L : List (List Nat)) (l : Nat) (a : CArr) (i : Int) : Prop :=
  ((a = .itmp 21 ∨ a = .itmp 50) ∧ (levIdx L l : Int) ≤ i ∧ i < levIdx L (l + 1)) ∨
  ((a = .itmp 51 ∨ a = .itmp 52) ∧ ∃ t : Nat, t < T ∧ i = (t : Int) * L.length + l)

def LvR (T : Nat) (L : List (List Nat)) (l : Nat) (a : CArr) (i : Int) : Prop := LvW T L l a i ∨ a = .rowptr 0

theorem levelTasks_rev {agg : Bool} {T : Nat} {cost rev rev' : Nat → Nat} {lb le : Nat} (_ : lb ≤ le) (h : rev = rev') :
    levelTasks agg T cost rev lb le = levelTasks agg T cost rev' lb le := by rw [h]

theorem wp_lvTask {cf : Option (Int → Int)} {agg : Bool} {n T : Nat} {cost : Nat → Nat} {L : List (List Nat)} {m : Mem (CTy R)} {l : Nat} {ts : List (Nat × Nat)}
    {lev : List Int} (hlev : ∀ k, k ≤ L.length → lev.getD k 0 = levIdx L k)
    (hl : l < L.length) (hts : levelTasks agg T cost (revOf (sortLevels L)) (levIdx L l) (levIdx L (l + 1)) = some ts) (hlen : ts.length = T)
    (hc : CostIs cf n cost m) (hn : ∀ i ∈ L.flatten, i < n) (hrev : ∀ x s : Nat, L.flatten[x]? = some s → m (.itmp 21) (x : Int) = some (s : Int))
    (hs0 : (L.flatten.length : Int) ≤ sz (.itmp 21)) (hs : (L.flatten.length : Int) ≤ sz (.itmp 50))
    (hs1 : sz (.itmp 51) = T * (L.length + 1) - 1) (hs2 : sz (.itmp 52) = T * (L.length + 1) - 1) :
    wp sz (LvW T L l) (LvR T L l) (lvTask cf agg T L.length lev l) m (fun _ m' =>
      (∀ p : Nat, levIdx L l ≤ p → p < levIdx L (l + 1) → m' (.itmp 21) (p : Int) = some (revOf (sortLevels L) p : Int)) ∧
      ∀ t be, ts[t]? = some be → Cell L.length l m' t be) := by
  unfold lvTask
  dsimp only
  rw [hlev l (by omega), hlev (l + 1) (by omega)]
  have hle := levIdx_mono (L := L) (Nat.le_add_right l 1) hl
  have hend := levIdx_mono (L := L) (l := l + 1) (l' := L.length) hl (Nat.le_refl _)
  rw [levIdx_all] at hend
  have hsucc := levIdx_succ hl
  obtain ⟨lv, hlv⟩ : ∃ lv, lv = L.getD l [] := ⟨_, rfl⟩
  rw [← hlv] at hsucc
  have hwin : ∀ a, (a = .itmp 21 ∨ a = .itmp 50) → ∀ i : Nat, levIdx L l ≤ i → i < levIdx L (l + 1) → LvW T L l a (i : Int) := by
    intro a ha i h1 h2
    exact Or.inl ⟨ha, by omega, by omega⟩
  rw [wp_bind]
  refine wp_stdSort (l := lv.map (fun x : Nat => (x : Int))) (by omega) (by simp [hsucc]) (fun _ => by omega) ?_ ?_
  · intro q hq
    rw [List.length_map] at hq
    have hq1 : q < (L.getD l []).length := by rw [← hlv]; exact hq
    have e : (levIdx L l : Int) + q = ((levIdx L l + q : Nat) : Int) := by push_cast; rfl
    have hw := hwin (.itmp 21) (Or.inl rfl) (levIdx L l + q) (by omega) (by omega)
    rw [e]
    refine ⟨Or.inl hw, hw, ?_⟩
    rw [hrev _ _ (revOf_at hl hq1)]
    simp [hlv]
  · intro s m1 hp hso h1 h2
    have hseq : s = (lv.insertionSort (· ≤ ·)).map (fun x : Nat => (x : Int)) := by
      have p1 : s.Perm ((lv.insertionSort (· ≤ ·)).map (fun x : Nat => (x : Int))) :=
        hp.trans ((List.perm_insertionSort _ lv).map _).symm
      refine List.Perm.eq_of_pairwise (le := fun a b => a ≤ b) ?_ hso ?_ p1
      · intro a b _ _ h1 h2; omega
      · rw [List.pairwise_map]
        refine (List.pairwise_insertionSort (r := fun a b : Nat => a ≤ b) lv).imp ?_
        intro a b h; exact_mod_cast h
    have hsl : (sortLevels L).getD l [] = lv.insertionSort (· ≤ ·) := by
      unfold sortLevels
      rw [hlv, List.getD_eq_getElem?_getD, List.getD_eq_getElem?_getD, List.getElem?_map, List.getElem?_eq_getElem hl]; rfl
    have hr1 : ∀ p : Nat, levIdx L l ≤ p → p < levIdx L (l + 1) → m1 (.itmp 21) (p : Int) = some (revOf (sortLevels L) p : Int) := by
      intro p g1 g2
      have hql : p - levIdx L l < (lv.insertionSort (· ≤ ·)).length := by rw [List.length_insertionSort]; omega
      have := h1 (p - levIdx L l) (by rw [hseq, List.length_map]; exact hql)
      rw [show (levIdx L l : Int) + ((p - levIdx L l : Nat) : Int) = p by omega] at this
      rw [this]
      have hsl' : ((sortLevels L).getD l [])[p - levIdx L l]'(by rw [hsl]; exact hql) = (lv.insertionSort (· ≤ ·))[p - levIdx L l] := by
        simp only [hsl]
      have h5 := revOf_at (L := sortLevels L) (l := l) (q := p - levIdx L l) (by rw [sortLevels_length]; exact hl) (by rw [hsl]; exact hql)
      rw [levIdx_sortLevels, show levIdx L l + (p - levIdx L l) = p by omega] at h5
      unfold revOf
      rw [List.getD_eq_getElem?_getD, h5, Option.getD_some, hsl']
      simp [hseq]
    have hmem : ∀ p, levIdx L l ≤ p → p < levIdx L (l + 1) → revOf (sortLevels L) p < n := by
      intro p g1 g2
      refine hn _ ((sortLevels_flatten_perm L).mem_iff.mp ?_)
      have hlp : p < (sortLevels L).flatten.length := by rw [(sortLevels_flatten_perm L).length_eq]; omega
      unfold revOf
      rw [List.getD_eq_getElem?_getD, List.getElem?_eq_getElem hlp, Option.getD_some]
      exact List.getElem_mem _
    have hW51 : ∀ t : Nat, t < T → LvW T L l (.itmp 51) ((t : Int) * L.length + l) ∧ LvW T L l (.itmp 52) ((t : Int) * L.length + l) :=
      fun t ht => ⟨Or.inr ⟨Or.inl rfl, t, ht, rfl⟩, Or.inr ⟨Or.inr rfl, t, ht, rfl⟩⟩
    have hR51 : ∀ t : Nat, t < T → LvR T L l (.itmp 51) ((t : Int) * L.length + l) ∧ LvR T L l (.itmp 52) ((t : Int) * L.length + l) :=
      fun t ht => ⟨Or.inl (hW51 t ht).1, Or.inl (hW51 t ht).2⟩
    rw [wp_bind]
    refine wp_lvPrefix hle (hc.frame fun i => h2 _ _ (by simp)) (fun _ => Or.inr rfl) (by omega) (fun i g1 g2 => hwin _ (Or.inr rfl) i g1 g2)
      (fun i g1 g2 => ⟨Or.inl (hwin _ (Or.inl rfl) i g1 g2), hr1 i g1 g2, hmem i g1 g2⟩) ?_
    intro m2 h3 h4
    unfold levelTasks at hts
    dsimp only at hts
    generalize hnz : levelCost cost (revOf (sortLevels L)) (levIdx L l) (levIdx L (l + 1)) = nnz at hts ⊢
    have hT : (((nnz : Int) + T - 1) / T) = (((nnz + T - 1) / T : Nat) : Int) := by
      rcases Nat.eq_zero_or_pos T with h0 | h0
      · subst h0; simp
      · rw [Int.natCast_ediv]; congr 1; omega
    rw [hT, wp_bind]
    have := @wp_lvCuts R sz (LvW T L l) (LvR T L l) L.length l T agg (levelCost cost (revOf (sortLevels L)) (levIdx L l)) ((nnz + T - 1) / T)
      (levIdx L l) (levIdx L (l + 1)) hl hle hs1 hs2 hW51 T 0 (levIdx L l) (levIdx L l) m2
    refine this (by omega) (Nat.le_refl _) (Or.inl rfl)
      (fun i g1 g2 => ⟨Or.inl (hwin _ (Or.inr rfl) i g1 g2), h3 i g1 g2⟩) ?_
    intro t' m3 c1 c2 _ c4
    generalize partLoop agg (levelCost cost (revOf (sortLevels L)) (levIdx L l)) ((nnz + T - 1) / T) (levIdx L (l + 1)) T 0 (levIdx L l) (levIdx L l) = pl at hts c1 c2
    have hr3 : ∀ p : Nat, levIdx L l ≤ p → p < levIdx L (l + 1) → m3 (.itmp 21) (p : Int) = some (revOf (sortLevels L) p : Int) := by
      intro p g1 g2; rw [c4 _ _ (by simp) (by simp), h4 _ _ (by simp)]; exact hr1 p g1 g2
    cases agg with
    | false =>
      simp only [Bool.false_eq_true, if_false, Option.some.injEq] at hts
      subst hts
      simp only [Bool.false_eq_true, if_false]
      rw [wp_pure]
      exact ⟨hr3, fun t be h => by have := c1 t be h; rwa [Nat.zero_add] at this⟩
    | true =>
      simp only [if_true] at hts ⊢
      by_cases hb : pl.2 = true
      · rw [if_pos hb] at hts
        cases hts
        have hpl : pl.1.length ≤ T := by
          rw [List.length_append, List.length_replicate] at hlen; omega
        refine wp_lvShift (ts := pl.1) hl hs1 hs2 hW51 hR51 hpl (fun x be h => by have := c1 x be h; rwa [Nat.zero_add] at this)
          (by have := c2 hb; push_cast at this; omega) ?_
        intro m4 d1 d2
        exact ⟨fun p g1 g2 => by rw [d2 _ _ (by simp) (by simp)]; exact hr3 p g1 g2, d1⟩
      · rw [if_neg hb] at hts; cases hts

end
end SpMP
