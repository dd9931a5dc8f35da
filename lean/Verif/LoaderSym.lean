import Verif.Loader
/-
The symmetric part of the loader (/repo/COO.cpp:310-348).
-/

namespace SpMP
open Spec

set_option linter.unusedSectionVars false

variable {R : Type} [Races CArr]

theorem cnt_range (D : Coo R) (i x : Nat) : D.byRow.cnt i x = (List.range x).countP (fun l => decide (D.row l = i)) := by
  induction x with
  | zero => rfl
  | succ x ih =>
    show D.byRow.cnt i x + (if D.row x = i then 1 else 0) = _
    rw [ih, List.range_succ, List.countP_append, List.countP_singleton]
    by_cases h : D.row x = i <;> simp [h]

theorem countP_listed {m n : Nat} (T : List (Nat × Nat × R)) (d : R) (i : Nat) :
    (listed 1 T).countP (fun e => decide (e.1 = ((i + 1 : Nat) : Int))) = (Coo.ofList m n T d).byRow.cnt i T.length := by
  rw [cnt_range]
  unfold listed
  rw [List.countP_map]
  conv_lhs => rw [show T = (List.range T.length).map fun l => T.getD l (0, 0, d) by
    refine List.ext_getElem (by simp) ?_
    intro l h1 h2
    simp [List.getD_eq_getElem?_getD, List.getElem?_eq_getElem h1]]
  rw [List.countP_map]
  refine List.countP_congr ?_
  intro l _
  show decide (((T.getD l (0, 0, d)).1 : Int) + 1 = ((i + 1 : Nat) : Int)) = true ↔ decide ((T.getD l (0, 0, d)).1 = i) = true
  rw [decide_eq_true_iff, decide_eq_true_iff]
  omega

theorem countP_listed_zero (T : List (Nat × Nat × R)) : (listed 1 T).countP (fun e => decide (e.1 = ((0 : Nat) : Int))) = 0 := by
  rw [List.countP_eq_zero]
  intro e he
  obtain ⟨f, _, rfl⟩ := List.mem_map.mp he
  simp; omega

theorem Coo.tPtr_const {D : Coo R} (h : D.WF) : ∀ k, D.byRow.tPtr (D.m + k) = D.nnz := by
  intro k
  induction k with
  | zero => exact D.byRow.tPtr_last (D.byRow_wf h)
  | succ k ih =>
    rw [← Nat.add_assoc, D.byRow.tPtr_succ (D.byRow_wf h), ih, cnt_range]
    have : (List.range D.byRow.nnz).countP (fun l => decide (D.row l = D.m + k)) = 0 := by
      rw [List.countP_eq_zero]
      intro l hl
      have := (h l (List.mem_range.mp hl)).1
      simp; omega
    omega

section
variable {sz : CArr → Int} {W Rd : CArr → Int → Prop} {D : Coo R} {mm ex : Nat}

theorem wp_ldScan {m0 : Mem (CTy R)} {Q : Unit → Mem (CTy R) → Prop} (hwf : D.WF) (hW : ∀ a i, W a i) (hR : ∀ a i, Rd a i)
    (hs : (mm : Int) + 1 ≤ sz (.itmp 3)) (h0 : m0 (.itmp 3) 0 = some (0 : Int))
    (h1 : ∀ i : Nat, i < mm → m0 (.itmp 3) ((i : Int) + 1) = some (D.byRow.cnt i D.nnz : Int))
    (hQ : ∀ m, (∀ i : Nat, i ≤ mm → m (.itmp 3) (i : Int) = some (D.byRow.tPtr i : Int)) →
      (∀ a i, a ≠ .itmp 3 → m a i = m0 a i) → Q () m) :
    wp sz W Rd (ldScan mm) m0 Q := by
  unfold ldScan
  refine wp_forN (b := 0) (lo := 0) (hi := mm) (fun x _ m =>
    (∀ i : Nat, i ≤ x → m (.itmp 3) (i : Int) = some (D.byRow.tPtr i : Int)) ∧
    (∀ i : Nat, x ≤ i → i < mm → m (.itmp 3) ((i : Int) + 1) = some (D.byRow.cnt i D.nnz : Int)) ∧
    ∀ a i, a ≠ .itmp 3 → m a i = m0 a i) (Nat.zero_le _) ?_ ?_ ?_ (by simp) (by simp)
  · refine ⟨fun i hi => ?_, fun i _ hi => h1 i hi, fun _ _ _ => rfl⟩
    obtain rfl : i = 0 := by omega
    exact h0
  · rintro x _ m - hx ⟨g1, g2, g3⟩
    rw [Int.add_zero]
    refine wp_rd _ (hR _ _) (g2 x (Nat.le_refl _) hx) ?_
    refine wp_rd _ (hR _ _) (g1 x (Nat.le_refl _)) ?_
    refine wp_wr1 (hW _ _) ⟨by omega, by omega⟩ ⟨?_, ?_, ?_⟩
    · intro i hi
      by_cases he : i = x + 1
      · subst he
        have e := D.byRow.tPtr_succ (D.byRow_wf hwf) x
        have e2 : D.byRow.nnz = D.nnz := rfl
        rw [show ((x + 1 : Nat) : Int) = (x : Int) + 1 by omega, Mem.get_same]
        have : (D.byRow.cnt x D.nnz : Int) + D.byRow.tPtr x = (D.byRow.tPtr (x + 1) : Int) := by rw [e, e2]; push_cast; omega
        exact congrArg some this
      · rw [Mem.get_ne _ _ _ _ _ (by omega)]; exact g1 i (by omega)
    · intro i g4 g5
      rw [Mem.get_ne _ _ _ _ _ (by omega)]; exact g2 i (by omega) g5
    · intro a i ha; exact (congrFun (Mem.set_other _ _ _ _ _ ha) _).trans (g3 a i ha)
  · rintro _ m ⟨g1, _, g3⟩; exact hQ m g1 g3

/-- The triples in memory during the symmetric part: the `D.nnz` listed entries and `ex` padding entries. -/
structure SymList (D : Coo R) (ex : Nat) (L : List (Int × Int × R)) : Prop where
  len : L.length = D.nnz + ex
  ent : ∀ l (h : l < L.length), l < D.nnz → L[l] = ((D.row l : Int) + 1, (D.col l : Int) + 1, D.val l)
  pad : ∀ l (h : l < L.length), D.nnz ≤ l → L[l].1 = (D.m : Int) + (l - D.nnz) + 1 ∧ L[l].2.1 = (D.m : Int) + (l - D.nnz) + 1

theorem wp_ldFill {m0 : Mem (CTy R)} {Q : Unit → Mem (CTy R) → Prop} {L : List (Int × Int × R)} (hwf : D.WF)
    (hW : ∀ a i, W a i) (hR : ∀ a i, Rd a i) (hL : LH m0 L) (hS : SymList D ex L) (hmm : mm = D.m + ex)
    (hs3 : (mm : Int) + 1 ≤ sz (.itmp 3)) (hs2 : 2 * (D.nnz : Int) ≤ sz (.itmp 2)) (hex : 0 < ex → 0 < D.nnz)
    (h0 : ∀ i : Nat, i ≤ mm → m0 (.itmp 3) (i : Int) = some (D.byRow.tPtr i : Int))
    (hQ : ∀ m, (∀ i : Nat, i < D.m → m (.itmp 3) (i : Int) = some (D.byRow.tPtr (i + 1) : Int)) →
      (∀ i : Nat, D.m ≤ i → i < mm → m (.itmp 3) (i : Int) = some ((D.nnz : Int) + 1)) →
      (∀ l, l < D.nnz → m (.itmp 2) (D.byRow.tPos l : Int) = some ((D.col l : Int) + 1)) →
      (0 < ex → ∃ v : Int, m (.itmp 2) (D.nnz : Int) = some v) →
      (∀ a i, a ≠ .itmp 2 → a ≠ .itmp 3 → m a i = m0 a i) → Q () m) :
    wp sz W Rd (ldFill L.length) m0 Q := by
  have bwf := D.byRow_wf hwf
  have bnn : D.byRow.nnz = D.nnz := rfl
  have hlen := hS.len
  unfold ldFill
  refine wp_forN (b := 0) (lo := 0) (hi := L.length) (fun x _ m =>
    (∀ i : Nat, i < D.m → m (.itmp 3) (i : Int) = some ((D.byRow.tPtr i + D.byRow.cnt i (min x D.nnz) : Nat) : Int)) ∧
    (∀ i : Nat, D.m ≤ i → i < mm → m (.itmp 3) (i : Int) = some ((D.nnz : Int) + if i - D.m < x - D.nnz then 1 else 0)) ∧
    (∀ l, l < D.nnz → l < x → m (.itmp 2) (D.byRow.tPos l : Int) = some ((D.col l : Int) + 1)) ∧
    (D.nnz < x → ∃ v : Int, m (.itmp 2) (D.nnz : Int) = some v) ∧
    (∀ a i, a ≠ .itmp 2 → a ≠ .itmp 3 → m a i = m0 a i)) (Nat.zero_le _) ?_ ?_ ?_ (by simp) (by simp)
  · refine ⟨fun i hi => ?_, fun i h1 h2 => ?_, fun l _ hl => by omega, fun h => by omega, fun _ _ _ _ => rfl⟩
    · rw [Nat.min_eq_left (Nat.zero_le _)]; exact h0 i (by omega)
    · rw [if_neg (by omega), h0 i (by omega)]
      obtain ⟨q, rfl⟩ : ∃ q, i = D.m + q := ⟨i - D.m, by omega⟩
      rw [Coo.tPtr_const hwf, Int.add_zero]
  · rintro x _ m - hx ⟨h1, h2, h3, h4, h5⟩
    rw [Int.add_zero]
    have hlx := hL x hx
    by_cases hd : x < D.nnz
    · have hent := hS.ent x hx hd
      rw [hent] at hlx
      have hr := (hwf x hd).1
      have hpos : D.byRow.tPos x = D.byRow.tPtr (D.row x) + D.byRow.cnt (D.row x) x := rfl
      have hlt := D.byRow.tPos_lt bwf (j := x) (by rw [bnn]; exact hd)
      rw [bnn] at hlt
      refine wp_rd _ (hR _ _) ((h5 _ _ (by simp) (by simp)).trans hlx.1) ?_
      have e1 : (D.row x : Int) + 1 - 1 = (D.row x : Int) := by omega
      show wp sz W Rd (do
        let j ← Prog.read (ty := CTy R) (.itmp 3) ((D.row x : Int) + 1 - 1)
        let y ← Prog.read (ty := CTy R) (.itmp 1) x
        Prog.write (ty := CTy R) (.itmp 2) j (y : Int)
        let w ← Prog.read (ty := CTy R) (.itmp 3) ((D.row x : Int) + 1 - 1)
        Prog.write (ty := CTy R) (.itmp 3) ((D.row x : Int) + 1 - 1) ((w : Int) + 1)) m _
      rw [e1]
      have hrd := h1 _ hr
      rw [Nat.min_eq_left (by omega), ← hpos] at hrd
      refine wp_rd _ (hR _ _) hrd ?_
      refine wp_rd _ (hR _ _) ((h5 _ _ (by simp) (by simp)).trans hlx.2.1) ?_
      refine wp_wr (hW _ _) ⟨by omega, by omega⟩ ?_
      refine wp_rd ((D.byRow.tPos x : Int)) (hR _ _) ?_ ?_
      · rw [Mem.set_other _ _ _ _ _ (by simp)]; exact hrd
      refine wp_wr1 (hW _ _) ⟨by omega, by omega⟩ ⟨?_, ?_, ?_, ?_, ?_⟩
      · intro i hi
        rw [Nat.min_eq_left (by omega)]
        have es : D.byRow.cnt i (x + 1) = D.byRow.cnt i x + if D.row x = i then 1 else 0 := rfl
        by_cases he : D.row x = i
        · subst he; rw [if_pos rfl] at es
          refine (Mem.get_same _ _ _ _).trans ?_
          have : (D.byRow.tPos x : Int) + 1 = ((D.byRow.tPtr (D.row x) + D.byRow.cnt (D.row x) (x + 1) : Nat) : Int) := by
            rw [es, hpos]; push_cast; omega
          exact congrArg some this
        · rw [if_neg he] at es
          have := h1 i hi
          rw [Nat.min_eq_left (by omega)] at this
          rw [Mem.get_ne _ _ _ _ _ (by omega), Mem.set_other _ _ _ _ _ (by simp), this, es, Nat.add_zero]
      · intro i k1 k2
        rw [Mem.get_ne _ _ _ _ _ (by omega), Mem.set_other _ _ _ _ _ (by simp), h2 i k1 k2, if_neg (by omega), if_neg (by omega)]
      · intro l hl hlx'
        by_cases he : l = x
        · subst he
          rw [Mem.set_other _ _ _ _ _ (by simp)]
          exact Mem.get_same _ _ _ _
        · have hne : (D.byRow.tPos l : Int) ≠ D.byRow.tPos x := fun h =>
            he (D.byRow.tPos_inj bwf (by rw [bnn]; omega) (by rw [bnn]; omega) (by omega))
          rw [Mem.set_other _ _ _ _ _ (by simp), Mem.get_ne _ _ _ _ _ hne]
          exact h3 l hl (by omega)
      · intro h; omega
      · intro a i k1 k2
        rw [Mem.set_other _ _ _ _ _ k2, Mem.set_other _ _ _ _ _ k1]
        exact h5 a i k1 k2
    · have hpad := hS.pad x hx (by omega)
      rw [hpad.1, hpad.2] at hlx
      have hn0 : 0 < D.nnz := hex (by omega)
      obtain ⟨q, hq⟩ : ∃ q, x = D.nnz + q := ⟨x - D.nnz, by omega⟩
      subst hq
      have e1 : (D.m : Int) + (((D.nnz + q : Nat) : Int) - D.nnz) + 1 - 1 = ((D.m + q : Nat) : Int) := by omega
      refine wp_rd _ (hR _ _) ((h5 _ _ (by simp) (by simp)).trans hlx.1) ?_
      show wp sz W Rd (do
        let j ← Prog.read (ty := CTy R) (.itmp 3) ((D.m : Int) + (((D.nnz + q : Nat) : Int) - D.nnz) + 1 - 1)
        let y ← Prog.read (ty := CTy R) (.itmp 1) ((D.nnz + q : Nat) : Int)
        Prog.write (ty := CTy R) (.itmp 2) j (y : Int)
        let w ← Prog.read (ty := CTy R) (.itmp 3) ((D.m : Int) + (((D.nnz + q : Nat) : Int) - D.nnz) + 1 - 1)
        Prog.write (ty := CTy R) (.itmp 3) ((D.m : Int) + (((D.nnz + q : Nat) : Int) - D.nnz) + 1 - 1) ((w : Int) + 1)) m _
      rw [e1]
      have hrd := h2 (D.m + q) (by omega) (by omega)
      rw [if_neg (by omega), Int.add_zero] at hrd
      refine wp_rd _ (hR _ _) hrd ?_
      refine wp_rd _ (hR _ _) ((h5 _ _ (by simp) (by simp)).trans hlx.2.1) ?_
      refine wp_wr (hW _ _) ⟨by omega, by omega⟩ ?_
      refine wp_rd (D.nnz : Int) (hR _ _) ?_ ?_
      · rw [Mem.set_other _ _ _ _ _ (by simp)]; exact hrd
      refine wp_wr1 (hW _ _) ⟨by omega, by omega⟩ ⟨?_, ?_, ?_, ?_, ?_⟩
      · intro i hi
        have := h1 i hi
        rw [Nat.min_eq_right (by omega)] at this ⊢
        rw [Mem.get_ne _ _ _ _ _ (by omega), Mem.set_other _ _ _ _ _ (by simp), this]
      · intro i k1 k2
        by_cases he : i = D.m + q
        · subst he
          rw [if_pos (by omega)]
          exact Mem.get_same _ _ _ _
        · rw [Mem.get_ne _ _ _ _ _ (by omega), Mem.set_other _ _ _ _ _ (by simp), h2 i k1 k2]
          congr 2
          by_cases hh : i - D.m < D.nnz + q - D.nnz
          · rw [if_pos hh, if_pos (by omega)]
          · rw [if_neg hh, if_neg (by omega)]
      · intro l hl _
        have hlt := D.byRow.tPos_lt bwf (j := l) (by rw [bnn]; exact hl)
        rw [bnn] at hlt
        rw [Mem.set_other _ _ _ _ _ (by simp), Mem.get_ne _ _ _ _ _ (by omega)]
        exact h3 l hl (by omega)
      · intro _
        refine ⟨(D.m : Int) + (((D.nnz + q : Nat) : Int) - D.nnz) + 1, ?_⟩
        rw [Mem.set_other _ _ _ _ _ (by simp)]
        exact Mem.get_same _ _ _ _
      · intro a i k1 k2
        rw [Mem.set_other _ _ _ _ _ k2, Mem.set_other _ _ _ _ _ k1]
        exact h5 a i k1 k2
  · rintro _ m ⟨h1, h2, h3, h4, h5⟩
    refine hQ m ?_ ?_ (fun l hl => h3 l hl (by omega)) (fun h => h4 (by omega)) h5
    · intro i hi
      rw [h1 i hi, Nat.min_eq_right (by omega), D.byRow.tPtr_succ bwf i, bnn]
    · intro i k1 k2
      rw [h2 i k1 k2, if_pos (by omega)]

/-- Row starts in rowcnt after COO.cpp:325. -/
def symPtr (D : Coo R) (i : Nat) : Nat := if i ≤ D.m then D.byRow.tPtr i else D.nnz + 1

theorem wp_ldShift {m0 : Mem (CTy R)} {Q : Unit → Mem (CTy R) → Prop} (hW : ∀ a i, W a i) (hR : ∀ a i, Rd a i)
    (hs : (mm : Int) + 1 ≤ sz (.itmp 3)) (hmm : D.m ≤ mm)
    (h0 : ∀ i : Nat, i < D.m → m0 (.itmp 3) (i : Int) = some (D.byRow.tPtr (i + 1) : Int))
    (h1 : ∀ i : Nat, D.m ≤ i → i < mm → m0 (.itmp 3) (i : Int) = some ((D.nnz : Int) + 1))
    (hQ : ∀ m, (∀ i : Nat, i ≤ mm → m (.itmp 3) (i : Int) = some (symPtr D i : Int)) →
      (∀ a i, a ≠ .itmp 3 → m a i = m0 a i) → Q () m) :
    wp sz W Rd (ldShift mm) m0 Q := by
  unfold ldShift
  rw [wp_bind]
  have h01 : ∀ i : Nat, i < mm → m0 (.itmp 3) (i : Int) = some (symPtr D (i + 1) : Int) := by
    intro i hi
    unfold symPtr
    by_cases h : i + 1 ≤ D.m
    · rw [if_pos h]; exact h0 i h
    · rw [if_neg h, h1 i (by omega) hi]; push_cast; rfl
  refine wp_forDownN (b := 0) (lo := 1) (hi := mm + 1) (fun x _ m =>
    (∀ i : Nat, x ≤ i → i ≤ mm → m (.itmp 3) (i : Int) = some (symPtr D i : Int)) ∧
    (∀ i : Nat, i < x → i < mm → m (.itmp 3) (i : Int) = some (symPtr D (i + 1) : Int)) ∧
    (∀ a i, a ≠ .itmp 3 → m a i = m0 a i)) (by omega) ?_ ?_ ?_ (by simp) (by omega)
  · exact ⟨fun i h1 h2 => by omega, fun i _ h => h01 i h, fun _ _ _ => rfl⟩
  · rintro x _ m h1 h2 ⟨g1, g2, g3⟩
    rw [Int.add_zero, show (x : Int) - 1 = ((x - 1 : Nat) : Int) by omega]
    refine wp_rd _ (hR _ _) (g2 (x - 1) (by omega) (by omega)) ?_
    refine wp_wr1 (hW _ _) ⟨by omega, by omega⟩ ⟨?_, ?_, ?_⟩
    · intro i k1 k2
      by_cases he : i = x
      · subst he; rw [Mem.get_same, show i - 1 + 1 = i by omega]
      · rw [Mem.get_ne _ _ _ _ _ (by omega)]; exact g1 i (by omega) k2
    · intro i k1 k2
      rw [Mem.get_ne _ _ _ _ _ (by omega)]; exact g2 i (by omega) k2
    · intro a i ha; exact (congrFun (Mem.set_other _ _ _ _ _ ha) _).trans (g3 a i ha)
  · rintro _ m ⟨g1, _, g3⟩
    refine wp_wr1 (hW _ _) ⟨by omega, by omega⟩ (hQ _ ?_ ?_)
    · intro i hi
      by_cases he : i = 0
      · subst he
        refine (Mem.get_same _ _ _ _).trans ?_
        unfold symPtr
        rw [if_pos (Nat.zero_le _)]; rfl
      · rw [Mem.get_ne _ _ _ _ _ (by omega)]; exact g1 i (by omega) hi
    · intro a i ha; exact (congrFun (Mem.set_other _ _ _ _ _ ha) _).trans (g3 a i ha)

theorem symPtr_mono (hwf : D.WF) {i j : Nat} (h : i ≤ j) : symPtr D i ≤ symPtr D j := by
  have hm : ∀ {a b : Nat}, a ≤ b → D.byRow.tPtr a ≤ D.byRow.tPtr b := by
    intro a b hab
    induction hab with
    | refl => exact Nat.le_refl _
    | step _ ih => exact Nat.le_trans ih (by rw [D.byRow.tPtr_succ (D.byRow_wf hwf)]; omega)
  unfold symPtr
  by_cases h1 : j ≤ D.m
  · rw [if_pos h1, if_pos (by omega)]; exact hm h
  · rw [if_neg h1]
    by_cases h2 : i ≤ D.m
    · rw [if_pos h2]
      have := hm h2
      have := Coo.tPtr_const hwf 0
      rw [Nat.add_zero] at this
      omega
    · rw [if_neg h2]

/-- The sorted column segment of row `i` in colidx_temp. -/
structure SymSeg (D : Coo R) (m : Mem (CTy R)) (i : Nat) (s : List Int) : Prop where
  len : symPtr D (i + 1) = symPtr D i + s.length
  sorted : s.Pairwise (· ≤ ·)
  cell : ∀ q (h : q < s.length), m (.itmp 2) ((symPtr D i : Int) + q) = some s[q]
  mem : i < D.m → ∀ x : Int, x ∈ s ↔ ∃ l, l < D.nnz ∧ D.row l = i ∧ (D.col l : Int) + 1 = x

theorem ldSort_phase {α : Type} {m0 : Mem (CTy R)} {Q : α → Mem (CTy R) → Prop} {f : (Nat → Unit) → Script (CTy R) α}
    (hwf : D.WF) (hmm : mm = D.m + ex) (hex : 0 < ex → 0 < D.nnz) (hs2 : 2 * (D.nnz : Int) ≤ sz (.itmp 2))
    (h3 : ∀ i : Nat, i ≤ mm → m0 (.itmp 3) (i : Int) = some (symPtr D i : Int))
    (h2 : ∀ l, l < D.nnz → m0 (.itmp 2) (D.byRow.tPos l : Int) = some ((D.col l : Int) + 1))
    (h2' : 0 < ex → ∃ v : Int, m0 (.itmp 2) (D.nnz : Int) = some v)
    (hQ : ∀ r m, (∀ i, i < mm → ∃ s, SymSeg D m i s) → (∀ a i, a ≠ .itmp 2 → m a i = m0 a i) → (f r).Ok m Q) :
    (Script.phase sz mm (fun i => ldSort (R := R) (i : Int)) f).Ok m0 Q := by
  have hnn := D.toCsr_nnz hwf
  have hlast := Coo.tPtr_const hwf 0
  rw [Nat.add_zero] at hlast
  obtain ⟨v, hv⟩ : ∃ v : Int, 0 < ex → m0 (.itmp 2) (D.nnz : Int) = some v := by
    by_cases h : 0 < ex
    · obtain ⟨v, hv⟩ := h2' h; exact ⟨v, fun _ => hv⟩
    · exact ⟨0, fun h' => absurd h' h⟩
  let g : Nat → Int := fun j => if j < D.nnz then (D.toCsr.col j : Int) + 1 else v
  have hlastp : symPtr D mm ≤ D.nnz + if 0 < ex then 1 else 0 := by
    unfold symPtr
    by_cases h : 0 < ex
    · rw [if_neg (by omega), if_pos h]
    · rw [if_pos (by omega), if_neg h]; obtain rfl : mm = D.m := by omega
      omega
  have hg : ∀ j, j < symPtr D mm → m0 (.itmp 2) (j : Int) = some (g j) := by
    intro j hj
    by_cases hd : j < D.nnz
    · obtain ⟨l, q1, q2, q3, _⟩ := D.toCsr_pos hwf (j := j) (by rw [hnn]; exact hd)
      have e : g j = (D.col l : Int) + 1 := by show (if j < D.nnz then _ else _) = _; rw [if_pos hd, q3]
      rw [e, ← q2]; exact h2 l q1
    · have e : g j = v := if_neg hd
      by_cases h : 0 < ex
      · rw [if_pos h] at hlastp
        obtain rfl : j = D.nnz := by omega
        rw [e]; exact hv h
      · rw [if_neg h] at hlastp; omega
  have hsize : 0 < symPtr D mm → (symPtr D mm : Int) ≤ sz (.itmp 2) := by
    intro _
    by_cases h : 0 < ex
    · rw [if_pos h] at hlastp; have := hex h; omega
    · rw [if_neg h] at hlastp; omega
  let S : Nat → List Int := fun t => (List.range (symPtr D (t + 1) - symPtr D t)).map fun q => g (symPtr D t + q)
  have hSlen : ∀ t, (S t).length = symPtr D (t + 1) - symPtr D t := fun t => by simp [S]
  have hle : ∀ t, symPtr D t ≤ symPtr D (t + 1) := fun t => symPtr_mono hwf (Nat.le_succ t)
  refine par_rule (W := fun t a i => a = .itmp 2 ∧ (symPtr D t : Int) ≤ i ∧ i < (symPtr D (t + 1) : Int))
    (R := fun t a i => a = .itmp 3 ∨ (a = .itmp 2 ∧ (symPtr D t : Int) ≤ i ∧ i < (symPtr D (t + 1) : Int)))
    (Q := fun t _ m => ∃ s : List Int, s.Perm (S t) ∧ s.Pairwise (· ≤ ·) ∧
      ∀ q (h : q < s.length), m (.itmp 2) ((symPtr D t : Int) + q) = some s[q]) ?_ ?_ ?_
  · rintro t u a i ht hu htu ⟨rfl, g1, g2⟩ (h | ⟨_, g3, g4⟩)
    · simp at h
    · rcases Nat.lt_or_gt_of_ne htu with h | h
      · have := symPtr_mono hwf (show t + 1 ≤ u from h); omega
      · have := symPtr_mono hwf (show u + 1 ≤ t from h); omega
  · intro t ht
    unfold ldSort
    refine wp_rd _ (Or.inl rfl) (h3 t (by omega)) ?_
    refine wp_rd _ (Or.inl rfl) (h3 (t + 1) (by omega)) ?_
    have hmt := symPtr_mono hwf (show t + 1 ≤ mm from ht)
    have := hle t
    refine wp_stdSort (l := S t) (by omega) (by rw [hSlen]; omega) ?_ ?_ ?_
    · intro hne
      have : S t ≠ [] → 0 < (S t).length := fun h => List.length_pos_iff.mpr h
      have := this hne
      rw [hSlen] at this
      have := hsize (by omega)
      omega
    · intro q hq
      have hq' := hq
      rw [hSlen] at hq'
      refine ⟨Or.inr ⟨rfl, by omega, by omega⟩, ⟨rfl, by omega, by omega⟩, ?_⟩
      rw [show (symPtr D t : Int) + q = ((symPtr D t + q : Nat) : Int) by omega, hg _ (by omega)]
      congr 1
      simp [S]
    · intro s m' k1 k2 k3 _
      exact ⟨s, k1, k2, k3⟩
  · intro r m hq hfr
    refine hQ r m ?_ ?_
    · intro i hi
      obtain ⟨mt, ⟨s, k1, k2, k3⟩, k4⟩ := hq i hi
      have hsl := k1.length_eq
      rw [hSlen] at hsl
      have := hle i
      refine ⟨s, ⟨by omega, k2, ?_, ?_⟩⟩
      · intro q hq'
        rw [k4 _ _ (Or.inr ⟨rfl, by omega, by omega⟩)]
        exact k3 q hq'
      · intro him x
        rw [k1.mem_iff]
        have e1 : symPtr D i = D.byRow.tPtr i := by unfold symPtr; rw [if_pos (by omega)]
        have e2 : symPtr D (i + 1) = D.byRow.tPtr (i + 1) := by unfold symPtr; rw [if_pos (by omega)]
        have hmn : symPtr D (i + 1) ≤ D.nnz := by
          have := symPtr_mono hwf (show i + 1 ≤ D.m from him)
          have e3 : symPtr D D.m = D.byRow.tPtr D.m := by unfold symPtr; rw [if_pos (Nat.le_refl _)]
          omega
        have hp1 : ∀ i, D.toCsr.ptr i = D.byRow.tPtr i := fun i => by
          show rowStart D.rowList i = _
          exact D.rowStart_eq i
        have hrow : D.toCsr.row i = D.rowList i := Csr.ofRows_row him
        constructor
        · intro hx
          obtain ⟨q, hq', rfl⟩ := List.mem_map.mp hx
          rw [List.mem_range] at hq'
          have hin : D.toCsr.InRow i (symPtr D i + q) := ⟨him, by rw [hp1]; omega, by rw [hp1]; omega⟩
          have hm1 : (D.toCsr.col (symPtr D i + q), D.toCsr.val (symPtr D i + q)) ∈ D.toCsr.row i :=
            Csr.mem_row.mpr ⟨_, hin.2.1, hin.2.2, rfl⟩
          rw [hrow] at hm1
          obtain ⟨l, hl, e⟩ := List.mem_map.mp hm1
          obtain ⟨hl1, hl2⟩ := List.mem_filter.mp hl
          refine ⟨l, List.mem_range.mp hl1, by simpa using hl2, ?_⟩
          have e4 : D.col l = D.toCsr.col (symPtr D i + q) := congrArg Prod.fst e
          have : g (symPtr D i + q) = (D.toCsr.col (symPtr D i + q) : Int) + 1 := if_pos (by omega)
          rw [this, e4]
        · rintro ⟨l, hl, hl2, rfl⟩
          have hm1 : (D.col l, D.val l) ∈ D.rowList i :=
            List.mem_map.mpr ⟨l, List.mem_filter.mpr ⟨List.mem_range.mpr hl, by simpa using hl2⟩, rfl⟩
          rw [← hrow] at hm1
          obtain ⟨j, j1, j2, hc⟩ := Csr.mem_row.mp hm1
          have hc : D.toCsr.col j = D.col l := congrArg Prod.fst hc
          rw [hp1] at j1 j2
          refine List.mem_map.mpr ⟨j - symPtr D i, List.mem_range.mpr (by omega), ?_⟩
          have : g j = (D.toCsr.col j : Int) + 1 := if_pos (by omega)
          rw [show symPtr D i + (j - symPtr D i) = j by omega, this, hc]
    · intro a i ha
      exact hfr a i fun _ _ h => ha h.1

/-- The entries COO.cpp:334-340 mirrors. -/
def symKeep (D : Coo R) (e : Int × Int × R) : Prop :=
  e.1 ≠ e.2.1 ∧ ¬ ∃ l, l < D.nnz ∧ (D.row l : Int) + 1 = e.2.1 ∧ (D.col l : Int) + 1 = e.1

noncomputable instance (D : Coo R) (e : Int × Int × R) : Decidable (symKeep D e) := Classical.dec _

/-- The mirrors of the kept entries of `L`. -/
noncomputable def symMir (D : Coo R) (L : List (Int × Int × R)) : List (Int × Int × R) :=
  (L.filter fun e => decide (symKeep D e)).map fun e => (e.2.1, e.1, e.2.2)

theorem symMir_append (D : Coo R) (L L' : List (Int × Int × R)) : symMir D (L ++ L') = symMir D L ++ symMir D L' := by
  unfold symMir; rw [List.filter_append, List.map_append]

theorem symMir_le {L : List (Int × Int × R)} (hS : SymList D ex L) {x : Nat} (hx : x ≤ L.length) :
    (symMir D (L.take x)).length ≤ D.nnz := by
  have hlen := hS.len
  have e : L = L.take D.nnz ++ L.drop D.nnz := (List.take_append_drop _ _).symm
  have hd : symMir D (L.drop D.nnz) = [] := by
    unfold symMir
    rw [List.map_eq_nil_iff, List.filter_eq_nil_iff]
    intro e he
    obtain ⟨q, hq, rfl⟩ := List.getElem_of_mem he
    rw [List.getElem_drop]
    have hq' : D.nnz + q < L.length := by rw [List.length_drop] at hq; omega
    have := hS.pad (D.nnz + q) hq' (by omega)
    rw [decide_eq_true_iff]
    intro h
    exact h.1 (this.1.trans this.2.symm)
  have h1 : (symMir D (L.take x)).length ≤ (symMir D L).length := by
    have : L = L.take x ++ L.drop x := (List.take_append_drop _ _).symm
    conv_rhs => rw [this]
    rw [symMir_append, List.length_append]; omega
  have h2 : (symMir D L).length = (symMir D (L.take D.nnz)).length := by
    conv_lhs => rw [e]
    rw [symMir_append, hd, List.append_nil]
  have h3 : (symMir D (L.take D.nnz)).length ≤ (L.take D.nnz).length := by
    unfold symMir; rw [List.length_map]; exact List.length_filter_le _ _
  rw [List.length_take] at h3
  omega

theorem wp_ldMirror {m0 : Mem (CTy R)} {Q : Int → Mem (CTy R) → Prop} {L : List (Int × Int × R)} (hwf : D.WF) (hsq : D.n = D.m)
    (hW : ∀ a i, W a i) (hR : ∀ a i, Rd a i) (hL : LH m0 L) (hS : SymList D ex L) (hmm : mm = D.m + ex)
    (h0 : (L.length : Int) + D.nnz ≤ sz (.itmp 0)) (h1 : (L.length : Int) + D.nnz ≤ sz (.itmp 1))
    (h2 : (L.length : Int) + D.nnz ≤ sz (.vec 0))
    (h3 : ∀ i : Nat, i ≤ mm → m0 (.itmp 3) (i : Int) = some (symPtr D i : Int))
    (hseg : ∀ i, i < mm → ∃ s, SymSeg D m0 i s)
    (hQ : ∀ m, LH m (L ++ symMir D L) → Q ((L ++ symMir D L).length : Int) m) :
    wp sz W Rd (ldMirror L.length) m0 Q := by
  unfold ldMirror
  refine wp_forN (b := 0) (lo := 0) (hi := L.length) (fun x rc m =>
    rc = ((L ++ symMir D (L.take x)).length : Int) ∧ LH m (L ++ symMir D (L.take x)) ∧
    (∀ a i, a ≠ .itmp 0 → a ≠ .itmp 1 → a ≠ .vec 0 → m a i = m0 a i)) (Nat.zero_le _) ?_ ?_ ?_ (by simp) (by simp)
  · refine ⟨by simp [symMir], ?_, fun _ _ _ _ _ => rfl⟩
    have : symMir D (L.take 0) = [] := by simp [symMir]
    rw [this, List.append_nil]; exact hL
  · rintro x rc m - hx ⟨rfl, g1, g2⟩
    rw [Int.add_zero]
    have htake : L.take (x + 1) = L.take x ++ [L[x]] := by rw [List.take_add_one, List.getElem?_eq_getElem hx]; rfl
    have hget : (L ++ symMir D (L.take x))[x]'(by rw [List.length_append]; omega) = L[x] := List.getElem_append_left hx
    have hlx := g1 x (by rw [List.length_append]; omega)
    rw [hget] at hlx
    refine wp_rd _ (hR _ _) hlx.1 ?_
    refine wp_rd _ (hR _ _) hlx.2.1 ?_
    have hkeepno : ¬ symKeep D L[x] → wp sz W Rd (pure ((L ++ symMir D (L.take x)).length : Int)) m (fun rc m =>
        rc = ((L ++ symMir D (L.take (x + 1))).length : Int) ∧ LH m (L ++ symMir D (L.take (x + 1))) ∧
        (∀ a i, a ≠ .itmp 0 → a ≠ .itmp 1 → a ≠ .vec 0 → m a i = m0 a i)) := by
      intro hk
      have e : symMir D (L.take (x + 1)) = symMir D (L.take x) := by
        rw [htake, symMir_append]
        have : symMir D [L[x]] = [] := by
          unfold symMir; rw [List.map_eq_nil_iff, List.filter_eq_nil_iff]
          intro e he
          rw [List.mem_singleton] at he; subst he
          rw [decide_eq_true_iff]; exact hk
        rw [this, List.append_nil]
      rw [wp_pure, e]; exact ⟨rfl, g1, g2⟩
    by_cases hne : L[x].1 = L[x].2.1
    · rw [if_neg (not_not.mpr hne)]
      exact hkeepno fun h => h.1 hne
    rw [if_pos hne]
    have hd : x < D.nnz := by
      by_contra hc
      have := hS.pad x hx (by omega)
      exact hne (this.1.trans this.2.symm)
    have hent := hS.ent x hx hd
    have hcl := (hwf x hd).2
    rw [hsq] at hcl
    have ey : L[x].2.1 = (D.col x : Int) + 1 := by rw [hent]
    have r1 : m (.itmp 3) (L[x].2.1 - 1) = some (symPtr D (D.col x) : Int) := by
      rw [g2 _ _ (by simp) (by simp) (by simp), ey, show (D.col x : Int) + 1 - 1 = (D.col x : Int) by omega]
      exact h3 _ (by omega)
    have r2 : m (.itmp 3) (L[x].2.1) = some (symPtr D (D.col x + 1) : Int) := by
      rw [g2 _ _ (by simp) (by simp) (by simp), ey, show (D.col x : Int) + 1 = ((D.col x + 1 : Nat) : Int) by omega]
      exact h3 _ (by omega)
    refine wp_rd _ (hR _ _) r1 ?_
    refine wp_rd _ (hR _ _) r2 ?_
    obtain ⟨s, hs⟩ := hseg (D.col x) (by omega)
    rw [wp_bind]
    refine wp_binarySearch (s := s) (by rw [hs.len]; push_cast; rfl) hs.sorted ?_ ?_
    · intro q hq
      exact ⟨hR _ _, (g2 _ _ (by simp) (by simp) (by simp)).trans (hs.cell q hq)⟩
    have hmem := hs.mem hcl L[x].1
    by_cases hf : L[x].1 ∈ s
    · rw [if_pos (by simpa using hf)]
      refine hkeepno fun h => h.2 ?_
      obtain ⟨l, q1, q2, q3⟩ := hmem.mp hf
      exact ⟨l, q1, by rw [ey, q2], q3⟩
    · rw [if_neg (by simpa using hf)]
      have hk : symKeep D L[x] := by
        refine ⟨hne, ?_⟩
        rintro ⟨l, q1, q2, q3⟩
        rw [ey] at q2
        exact hf (hmem.mpr ⟨l, q1, by omega, q3⟩)
      have hle := symMir_le hS (x := x) (by omega)
      have hle' := symMir_le hS (x := x + 1) (by omega)
      have e : symMir D (L.take (x + 1)) = symMir D (L.take x) ++ [(L[x].2.1, L[x].1, L[x].2.2)] := by
        rw [htake, symMir_append]
        congr 1
        unfold symMir
        rw [List.filter_cons_of_pos (by rw [decide_eq_true_iff]; exact hk)]; rfl
      have hlen1 : (L ++ symMir D (L.take x)).length = L.length + (symMir D (L.take x)).length := List.length_append
      rw [e, List.length_append, List.length_singleton] at hle'
      refine wp_wr (hW _ _) ⟨by omega, by omega⟩ ?_
      refine wp_wr (hW _ _) ⟨by omega, by omega⟩ ?_
      refine wp_rd L[x].2.2 (hR _ _) ?_ ?_
      · rw [Mem.set_other _ _ _ _ _ (by simp), Mem.set_other _ _ _ _ _ (by simp)]; exact hlx.2.2
      refine wp_wr (hW _ _) ⟨by omega, by omega⟩ ?_
      rw [wp_pure, e, ← List.append_assoc]
      refine ⟨?_, g1.snoc (L[x].2.1, L[x].1, L[x].2.2), ?_⟩
      · rw [List.length_append (bs := [_])]; push_cast; simp
      · intro a i k1 k2 k3
        rw [Mem.set_other _ _ _ _ _ k3, Mem.set_other _ _ _ _ _ k2, Mem.set_other _ _ _ _ _ k1]
        exact g2 a i k1 k2 k3
  · rintro rc m ⟨rfl, g1, _⟩
    rw [List.take_length] at g1 ⊢
    exact hQ m g1

end

/-! ### The whole function -/

section
variable {sz : CArr → Int} {W Rd : CArr → Int → Prop}

/-- General files: nothing is read or written out of bounds if there are at most nnz lines; the result is decided by the range
check, the line count and the base. -/
theorem wp_ldFirst_general [One R] {es : List (Int × Int × R)} {nnz om on m n : Nat} {m0 : Mem (CTy R)}
    {Q : Option Nat → Mem (CTy R) → Prop} (hW : ∀ a i, W a i) (hR : ∀ a i, Rd a i) (hlen : es.length ≤ nnz)
    (hmin : min om on ≤ min m n)
    (hs0 : ((nnz + (min m n - min om on) : Nat) : Int) ≤ sz (.itmp 0)) (hs1 : ((nnz + (min m n - min om on) : Nat) : Int) ≤ sz (.itmp 1))
    (hs2 : ((nnz + (min m n - min om on) : Nat) : Int) ≤ sz (.vec 0))
    (hQ1 : ((∃ e ∈ es, ldBad om on e) ∨ es.length < nnz) → ∀ m', Q none m')
    (hQ2 : (∀ e ∈ es, ¬ ldBad om on e) → es.length = nnz → ∀ m' (L : List (Int × Int × R)), L = es ++ listed 1 (padDiag (min om on) (min m n)) →
      LH m' (if ∃ e ∈ es, ldZeroIx e then L.map (fun e : Int × Int × R => (e.1 + 1, e.2.1 + 1, e.2.2)) else L) → Q (some L.length) m') :
    wp sz W Rd (ldFirst es false nnz om on m n) m0 Q := by
  unfold ldFirst
  rw [if_neg (by simp), wp_bind, wp_pure, wp_bind]
  refine wp_ldRead (mm := 0) hW hR (fun h => absurd h (by simp)) es [] 1 m0 ?_ ?_ ?_ (fun h => absurd h (by simp)) (LH.nil _)
    (fun h => absurd h (by simp)) ?_ ?_
  · simp only [List.length_nil]; omega
  · simp only [List.length_nil]; omega
  · simp only [List.length_nil]; omega
  · intro hb m'
    show wp sz W Rd (pure none) m' Q
    rw [wp_pure]; exact hQ1 (Or.inl hb) m'
  · intro hg m' hL _
    rw [List.nil_append] at hL
    show wp sz W Rd (do
      ldPad (min om on) (min m n) (0 + es.length)
      let _ ← (if (if ∃ e ∈ es, ldZeroIx e then (0 : Int) else 1) = 0 then
        ldBase0 false m (0 + es.length + (min m n - min om on)) else pure () : Prog (CTy R) Unit)
      if (0 + es.length) ≠ nnz then pure none
      else do
        let _ ← (if false = true then do
          ldScan m
          ldFill (0 + es.length + (min m n - min om on))
          ldShift m
        else pure () : Prog (CTy R) Unit)
        pure (some (0 + es.length + (min m n - min om on)))) m' Q
    rw [Nat.zero_add, wp_bind]
    refine wp_ldPad hW hmin hL (by omega) (by omega) (by omega) ?_
    intro m2 hL2 _
    have hlen2 : (es ++ listed 1 (padDiag (R := R) (min om on) (min m n))).length = es.length + (min m n - min om on) := by
      rw [List.length_append, listed_length]; unfold padDiag; simp
    rw [wp_bind]
    have fin : ∀ m3, LH m3 (if ∃ e ∈ es, ldZeroIx e then (es ++ listed 1 (padDiag (min om on) (min m n))).map
          (fun e : Int × Int × R => (e.1 + 1, e.2.1 + 1, e.2.2)) else es ++ listed 1 (padDiag (min om on) (min m n))) →
        wp sz W Rd (if es.length ≠ nnz then pure none
          else do
            let _ ← (if false = true then do
              ldScan m
              ldFill (es.length + (min m n - min om on))
              ldShift m
            else pure () : Prog (CTy R) Unit)
            pure (some (es.length + (min m n - min om on)))) m3 Q := by
      intro m3 hL3
      by_cases hne : es.length = nnz
      · rw [if_neg (not_not.mpr hne), if_neg (by simp), wp_bind, wp_pure, wp_pure, ← hlen2]
        exact hQ2 hg hne m3 _ rfl hL3
      · rw [if_pos hne, wp_pure]
        exact hQ1 (Or.inr (by omega)) m3
    by_cases hz : ∃ e ∈ es, ldZeroIx e
    · rw [if_pos hz] at fin
      rw [if_pos (show (if ∃ e ∈ es, ldZeroIx e then (0 : Int) else 1) = 0 from if_pos hz), ← hlen2]
      refine wp_ldBase0 hW hR hL2 (by rw [hlen2]; omega) (by rw [hlen2]; omega) ?_
      intro m3 h3
      rw [hlen2]; exact fin m3 h3
    · rw [if_neg hz] at fin
      rw [if_neg (show ¬ ((if ∃ e ∈ es, ldZeroIx e then (0 : Int) else 1) = 0) by rw [if_neg hz]; omega), wp_pure]
      exact fin m2 hL2

end

theorem ldRound_le {m pad : Nat} (hp : 1 ≤ pad) : m ≤ ldRound m pad ∧ ldRound m pad < m + pad ∧ pad ∣ ldRound m pad := by
  unfold ldRound
  have h1 := Nat.div_add_mod (m + pad - 1) pad
  have h2 := Nat.mod_lt (m + pad - 1) (show pad > 0 from hp)
  refine ⟨?_, ?_, Nat.dvd_mul_left _ _⟩
  · rw [Nat.mul_comm] at h1; omega
  · rw [Nat.mul_comm] at h1; omega

theorem ldSize_3 (alloc cnt m : Nat) : ldSize alloc cnt m (.itmp 3) = (m : Int) + 1 := rfl

/-- COO.cpp:186-359 for a general file with at most nnz lines. -/
theorem loadMM_general [One R] {F : MMFile R} {trans : Bool} {pad : Nat} {m0 : Mem (CTy R)} {om on : Nat}
    {Q : Option (Nat × Nat × Int) → Mem (CTy R) → Prop}
    (hh : F.header = true) (hns : F.symmetric = false) (hp : 1 ≤ pad) (hlen : F.entries.length ≤ F.nnz)
    (hom : om = if trans then F.n else F.m) (hon : on = if trans then F.m else F.n)
    (hQ1 : ((∃ e ∈ F.entries.map (ldView trans F.pattern), ldBad om on e) ∨ F.entries.length < F.nnz) → ∀ m', Q none m')
    (hQ2 : (∀ e ∈ F.entries.map (ldView trans F.pattern), ¬ ldBad om on e) → F.entries.length = F.nnz → ∀ m' (L : List (Int × Int × R)),
      L = F.entries.map (ldView trans F.pattern) ++ listed 1 (padDiag (min om on) (min (ldRound om pad) (ldRound on pad))) →
      LH m' (if ∃ e ∈ F.entries.map (ldView trans F.pattern), ldZeroIx e then L.map (fun e : Int × Int × R => (e.1 + 1, e.2.1 + 1, e.2.2)) else L) →
      Q (some (ldRound om pad, ldRound on pad, (L.length : Int))) m') :
    (loadMM F false trans pad).Ok m0 Q := by
  unfold loadMM
  subst hom; subst hon
  rw [if_pos hh]
  simp only [hns, Bool.or_false]
  have h1 := (ldRound_le (m := if trans then F.n else F.m) hp).1
  have h2 := (ldRound_le (m := if trans then F.m else F.n) hp).1
  refine seq_rule ?_
  refine wp_ldFirst_general (fun _ _ => trivial) (fun _ _ => trivial) (by rw [List.length_map]; exact hlen) (by omega) ?_ ?_ ?_ ?_ ?_
  · exact Int.le_refl _
  · exact Int.le_refl _
  · exact Int.le_refl _
  · rw [List.length_map]
    intro h m'; exact hQ1 h m'
  · rw [List.length_map]
    intro h h' m' L hL hLH
    exact hQ2 h h' m' L hL hLH

/-- COO.cpp:186-359 with symmetrisation, for a square 1-based file. -/
theorem loadMM_sym [One R] {F : MMFile R} {force trans : Bool} {pad : Nat} {m0 : Mem (CTy R)} {T : List (Nat × Nat × R)} {d : R}
    (hh : F.header = true) (hs : (force || F.symmetric) = true) (hp : 1 ≤ pad) (hsq : F.n = F.m)
    (hlen : T.length = F.nnz) (hE : F.entries.map (ldView trans F.pattern) = listed 1 T)
    (hT : ∀ e ∈ T, e.1 < F.m ∧ e.2.1 < F.m) (hpad : F.m < ldRound F.m pad → T ≠ []) :
    (loadMM F force trans pad).Ok m0 (fun r m =>
      r = some (ldRound F.m pad, ldRound F.m pad, ((T ++ padDiag F.m (ldRound F.m pad) ++ mirrors T).length : Int)) ∧
      LH m (listed 1 (T ++ padDiag F.m (ldRound F.m pad) ++ mirrors T))) := by
  unfold loadMM
  rw [if_pos hh]
  have e1 : (if trans = true then F.n else F.m) = F.m := by rw [hsq]; simp
  have e2 : (if trans = true then F.m else F.n) = F.m := by rw [hsq]; simp
  simp only [hs, e1, e2, hE, Nat.min_self]
  simp only [if_true]
  have hr := (ldRound_le (m := F.m) hp).1
  let D : Coo R := Coo.ofList F.m F.m T d
  have hwf : D.WF := Coo.ofList_wf hT
  have hDn : D.nnz = T.length := rfl
  have hDm : D.m = F.m := rfl
  obtain ⟨ex, hex⟩ : ∃ ex, ldRound F.m pad = F.m + ex := ⟨ldRound F.m pad - F.m, by omega⟩
  rw [hex] at hpad ⊢
  have hexs : F.m + ex - F.m = ex := by omega
  rw [hexs]
  have hexp : 0 < ex → 0 < D.nnz := fun h => by
    rw [hDn]; exact List.length_pos_iff.mpr (hpad (by omega))
  have hplen : (padDiag (R := R) F.m (F.m + ex)).length = ex := by unfold padDiag; simp
  have hS : SymList D ex (listed 1 T ++ listed 1 (padDiag F.m (F.m + ex))) := by
    refine ⟨?_, ?_, ?_⟩
    · rw [List.length_append, listed_length, listed_length, hplen, hDn]
    · intro l hl hl'
      rw [hDn] at hl'
      rw [List.getElem_append_left (by rw [listed_length]; exact hl'), listed_get hl']
      have := Coo.ofList_get (m := F.m) (n := F.m) (d := d) hl'
      rw [← this]
    · intro l hl hl'
      rw [hDn] at hl'
      rw [List.length_append, listed_length, listed_length, hplen] at hl
      rw [List.getElem_append_right (by rw [listed_length]; exact hl')]
      rw [listed_get (by rw [hplen, listed_length]; omega)]
      have : (padDiag (R := R) F.m (F.m + ex))[l - (listed 1 T).length]'(by rw [hplen, listed_length]; omega) =
          (F.m + (l - T.length), F.m + (l - T.length), 1) := by
        unfold padDiag; rw [List.getElem_map, List.getElem_range', listed_length]; simp
      rw [this]
      show (((F.m + (l - T.length) : Nat) : Int) + 1 = (F.m : Int) + (l - (T.length : Int)) + 1) ∧ _
      refine ⟨by omega, ?_⟩
      show (((F.m + (l - T.length) : Nat) : Int) + 1 = (F.m : Int) + (l - (T.length : Int)) + 1)
      omega
  have hLlen : (listed 1 T ++ listed 1 (padDiag (R := R) F.m (F.m + ex))).length = T.length + ex := hS.len
  have hszc : (T.length : Int) + ex + D.nnz ≤ ((2 * F.nnz + ex : Nat) : Int) := by rw [hDn]; push_cast; omega
  have hmir : symMir D (listed 1 T ++ listed 1 (padDiag F.m (F.m + ex))) = listed 1 (mirrors T) := by
    have hp0 : symMir D (listed 1 (padDiag F.m (F.m + ex))) = [] := by
      unfold symMir
      rw [List.map_eq_nil_iff, List.filter_eq_nil_iff]
      intro e he
      obtain ⟨f, hf, rfl⟩ := List.mem_map.mp he
      obtain ⟨i, _, rfl⟩ := List.mem_map.mp hf
      rw [decide_eq_true_iff]
      intro h; exact h.1 rfl
    rw [symMir_append, hp0, List.append_nil]
    unfold symMir mirrors listed
    rw [List.filter_map, List.map_map, List.map_map]
    have : (T.filter ((fun e => decide (symKeep D e)) ∘ fun e : Nat × Nat × R => ((e.1 : Int) + 1, (e.2.1 : Int) + 1, e.2.2))) =
        T.filter (lonely T) := by
      refine List.filter_congr ?_
      intro e he
      show decide (symKeep D ((e.1 : Int) + 1, (e.2.1 : Int) + 1, e.2.2)) = lonely T e
      rw [Bool.eq_iff_iff, decide_eq_true_iff, lonely_iff]
      unfold symKeep
      refine and_congr ?_ ?_
      · show ((e.1 : Int) + 1 ≠ (e.2.1 : Int) + 1) ↔ _
        omega
      · show (¬ ∃ l, l < T.length ∧ (D.row l : Int) + 1 = (e.2.1 : Int) + 1 ∧ (D.col l : Int) + 1 = (e.1 : Int) + 1) ↔ _
        constructor
        · rintro h f hf ⟨g1, g2⟩
          obtain ⟨l, hl, rfl⟩ := List.getElem_of_mem hf
          have hg := Coo.ofList_get (m := F.m) (n := F.m) (d := d) hl
          refine h ⟨l, hl, ?_, ?_⟩
          · rw [← g1, ← hg]
          · rw [← g2, ← hg]
        · rintro h ⟨l, hl, g1, g2⟩
          have hg := Coo.ofList_get (m := F.m) (n := F.m) (d := d) hl
          refine h T[l] (List.getElem_mem hl) ⟨?_, ?_⟩
          · rw [← hg]; show D.row l = _; omega
          · rw [← hg]; show D.col l = _; omega
    rw [this]; rfl
  refine seq_rule ?_
  unfold ldFirst
  rw [if_pos rfl, wp_bind]
  refine wp_ldZero (fun _ _ => trivial) (by rw [ldSize_3]) ?_
  intro m1 z1
  rw [wp_bind]
  refine wp_ldRead (mm := F.m + ex) (fun _ _ => trivial) (fun _ _ => trivial) (fun _ => by rw [ldSize_3]) (listed 1 T) [] 1 m1
    ?_ ?_ ?_ ?_ (LH.nil _) (fun _ i hi => by rw [z1 i hi]; rfl) ?_ ?_
  · show ((0 : Nat) : Int) + (listed 1 T).length ≤ ((_ : Nat) : Int); rw [listed_length]; push_cast; omega
  · show ((0 : Nat) : Int) + (listed 1 T).length ≤ ((_ : Nat) : Int); rw [listed_length]; push_cast; omega
  · show ((0 : Nat) : Int) + (listed 1 T).length ≤ ((_ : Nat) : Int); rw [listed_length]; push_cast; omega
  · intro _ e he
    obtain ⟨f, hf, rfl⟩ := List.mem_map.mp he
    have := (hT f hf).1
    show 0 ≤ (f.1 : Int) + 1 ∧ (f.1 : Int) + 1 ≤ ((F.m + ex : Nat) : Int)
    omega
  · rintro ⟨e, he, hb⟩
    obtain ⟨f, hf, rfl⟩ := List.mem_map.mp he
    have := hT f hf
    have hb : (F.m : Int) < (f.1 : Int) + 1 ∨ (F.m : Int) < (f.2.1 : Int) + 1 := hb
    omega
  · intro _ m2 hL2 hc2
    rw [List.nil_append] at hL2 hc2
    have hz : ¬ ∃ e ∈ listed 1 T, ldZeroIx e := by
      rintro ⟨e, he, hb⟩
      obtain ⟨f, hf, rfl⟩ := List.mem_map.mp he
      have hb : (f.1 : Int) + 1 = 0 ∨ (f.2.1 : Int) + 1 = 0 := hb
      omega
    rw [if_neg hz]
    show wp _ _ _ (do
      ldPad (min F.m F.m) (min (F.m + ex) (F.m + ex)) (0 + (listed 1 T).length)
      let _ ← (if (1 : Int) = 0 then
        ldBase0 true (F.m + ex) (0 + (listed 1 T).length + (min (F.m + ex) (F.m + ex) - min F.m F.m)) else pure () : Prog (CTy R) Unit)
      if (0 + (listed 1 T).length) ≠ F.nnz then pure none
      else do
        let _ ← (if true = true then do
          ldScan (F.m + ex)
          ldFill (0 + (listed 1 T).length + (min (F.m + ex) (F.m + ex) - min F.m F.m))
          ldShift (F.m + ex)
        else pure () : Prog (CTy R) Unit)
        pure (some (0 + (listed 1 T).length + (min (F.m + ex) (F.m + ex) - min F.m F.m)))) m2 _
    rw [Nat.zero_add, Nat.min_self, Nat.min_self, hexs, wp_bind]
    refine wp_ldPad (fun _ _ => trivial) (by omega) hL2 ?_ ?_ ?_ ?_
    · show _ ≤ ((_ : Nat) : Int); rw [listed_length]; push_cast; omega
    · show _ ≤ ((_ : Nat) : Int); rw [listed_length]; push_cast; omega
    · show _ ≤ ((_ : Nat) : Int); rw [listed_length]; push_cast; omega
    intro m3 hL3 f3
    rw [if_neg (by omega), wp_bind, wp_pure, if_neg (by rw [listed_length]; exact not_not.mpr hlen), if_pos rfl, wp_bind, wp_bind]
    refine wp_ldScan (D := D) hwf (fun _ _ => trivial) (fun _ _ => trivial) (by rw [ldSize_3]) ?_ ?_ ?_
    · rw [f3 _ _ (by simp) (by simp) (by simp)]
      have := hc2 rfl 0 (Nat.zero_le _)
      rw [countP_listed_zero] at this
      exact this
    · intro i hi
      rw [f3 _ _ (by simp) (by simp) (by simp)]
      have := hc2 rfl (i + 1) (by omega)
      rw [countP_listed (m := F.m) (n := F.m) T d i] at this
      rw [show ((i : Int) + 1) = ((i + 1 : Nat) : Int) by omega]
      exact this
    intro m4 s1 s2
    rw [wp_bind, ← hplen, ← List.length_append.trans (congrArg (_ + ·) (listed_length 1 (padDiag (R := R) F.m (F.m + ex)))), hplen]
    refine wp_ldFill (D := D) (ex := ex) (mm := F.m + ex) (L := listed 1 T ++ listed 1 (padDiag F.m (F.m + ex))) hwf
      (fun _ _ => trivial) (fun _ _ => trivial) (hL3.congr (fun i => s2 _ _ (by simp)) (fun i => s2 _ _ (by simp)) (fun i => s2 _ _ (by simp)))
      hS rfl (by rw [ldSize_3]) ?_ hexp s1 ?_
    · show 2 * ((T.length : Nat) : Int) ≤ ((2 * F.nnz : Nat) : Int); push_cast; omega
    intro m5 q1 q2 q3 q4 q5
    refine wp_ldShift (D := D) (mm := F.m + ex) (fun _ _ => trivial) (fun _ _ => trivial) (by rw [ldSize_3]) (by omega) q1 q2 ?_
    intro m6 t1 t2
    rw [wp_pure]
    have hL6 : LH m6 (listed 1 T ++ listed 1 (padDiag F.m (F.m + ex))) := by
      refine hL3.congr ?_ ?_ ?_ <;> intro i <;>
        rw [t2 _ _ (by simp), q5 _ _ (by simp) (by simp), s2 _ _ (by simp)]
    refine ldSort_phase (D := D) (mm := F.m + ex) (ex := ex) hwf rfl hexp ?_ t1 ?_ ?_ ?_
    · show 2 * ((T.length : Nat) : Int) ≤ ((2 * F.nnz : Nat) : Int); push_cast; omega
    · intro l hl; rw [t2 _ _ (by simp)]; exact q3 l hl
    · intro h; rw [t2 _ _ (by simp)]; exact q4 h
    intro r m7 u1 u2
    refine seq_rule ?_
    have hL7 : LH m7 (listed 1 T ++ listed 1 (padDiag F.m (F.m + ex))) :=
      hL6.congr (fun i => u2 _ _ (by simp)) (fun i => u2 _ _ (by simp)) (fun i => u2 _ _ (by simp))
    refine wp_ldMirror (D := D) (ex := ex) (mm := F.m + ex) hwf rfl (fun _ _ => trivial) (fun _ _ => trivial) hL7 hS rfl ?_ ?_ ?_
      (fun i hi => by rw [u2 _ _ (by simp)]; exact t1 i hi) u1 ?_
    · rw [hLlen]; exact hszc
    · rw [hLlen]; exact hszc
    · rw [hLlen]; exact hszc
    intro m8 hL8
    rw [hmir, ← listed_append, ← listed_append] at hL8
    refine ⟨?_, hL8⟩
    rw [hmir, ← listed_append, ← listed_append, listed_length]

/-! ### The file constructor -/

/-- CSR.cpp:118-124: load, allocate, convert. The result of the loader is not checked: after a failure the sizes of the COO
object are read although nothing has set them (COO.cpp:37-39), which is modelled as failure. The sizes of the arrays of the new
object are those of CSR::alloc (CSR.cpp:52-74). -/
def csrFromFile [One R] [Div R] (F : MMFile R) (force : Bool) (pad k : Nat) (ob : Int) : Script (CTy R) (Option (Nat × Nat × Int)) :=
  (loadMM F force false pad).bind fun r =>
    match r with
    | none => Script.seq (fun _ => 0) (Prog.fail : Prog (CTy R) Unit) fun _ => .done none
    | some (m, n, nnz) =>
      (dcoo2csr (fun a => match a with
        | .rowptr _ => (m : Int) + 1
        | .colidx _ => nnz
        | .values _ => nnz
        | _ => m) k m nnz.toNat ob true true).bind fun _ => .done (some (m, n, nnz))

theorem LH.holdsCoo {m : Mem (CTy R)} {T : List (Nat × Nat × R)} (h : LH m (listed 1 T)) (mm n : Nat) (d : R) :
    HoldsCoo m (Coo.ofList mm n T d) := by
  intro l hl
  have hl : l < T.length := hl
  have := h l (by rw [listed_length]; exact hl)
  rw [listed_get hl] at this
  have e := Coo.ofList_get (m := mm) (n := n) (d := d) hl
  rw [← e] at this
  exact this

theorem view_listed [One R] (trans pattern : Bool) (b : Int) (T : List (Nat × Nat × R)) :
    (listed b T).map (ldView trans pattern) = listed b (T.map (fileEntry trans pattern)) := by
  unfold listed
  rw [List.map_map, List.map_map]
  refine List.map_congr_left ?_
  intro e _
  cases trans <;> rfl

theorem listed_zero_inc (T : List (Nat × Nat × R)) :
    (listed 0 T).map (fun e : Int × Int × R => (e.1 + 1, e.2.1 + 1, e.2.2)) = listed 1 T := by
  unfold listed
  rw [List.map_map]
  refine List.map_congr_left ?_
  intro e _
  show (((e.1 : Int) + 0 + 1), ((e.2.1 : Int) + 0 + 1), e.2.2) = _
  rw [Int.add_zero, Int.add_zero]

end SpMP
