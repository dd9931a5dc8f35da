import Verif.Permute
import Verif.SplitLU
import Verif.LevelsPure
import Verif.BinFile
/-
Proofs about /repo/Permute.cpp: row pointers of the result.
-/

namespace SpMP
open Spec

set_option linter.unusedSectionVars false

variable {R : Type} [Races CArr]

/-- `ri` is the row selection: the array `itmp 0`, or the identity if there is none. -/
def HoldsSel (mem : Mem (CTy R)) (hasRow : Bool) (n : Nat) (ri : Nat → Nat) : Prop :=
  (hasRow = true → ∀ i : Nat, i < n → mem (.itmp 0) (i : Int) = some (ri i : Int)) ∧
  (hasRow = false → ∀ i, i < n → ri i = i)

theorem wp_permSel {sz : CArr → Int} {W Rd : CArr → Int → Prop} {m : Mem (CTy R)} {hasRow : Bool} {n : Nat} {ri : Nat → Nat}
    (h : HoldsSel m hasRow n ri) (hR : ∀ i, Rd (.itmp 0) i) {i : Nat} (hi : i < n) {Q : Int → Mem (CTy R) → Prop}
    (hQ : Q (ri i : Int) m) : wp sz W Rd (permSel hasRow (i : Int)) m Q := by
  unfold permSel
  cases hasRow with
  | true => rw [if_pos rfl, wp_read]; exact ⟨hR _, _, h.1 rfl i hi, hQ⟩
  | false => rw [if_neg (by simp), wp_pure]; rw [← h.2 rfl i hi]; exact hQ

/-- A permutation of `0 .. n-1` lists them all. -/
theorem perm_range {n : Nat} {f : Nat → Nat} (h : IsPermFn n f) : ((List.range n).map f).Perm (List.range n) := by
  refine (List.perm_ext_iff_of_nodup ?_ List.nodup_range).mpr ?_
  · refine List.Nodup.map_on ?_ List.nodup_range
    intro x hx y hy hxy
    exact h.2 x y (List.mem_range.1 hx) (List.mem_range.1 hy) hxy
  · intro x
    simp only [List.mem_map, List.mem_range]
    constructor
    · rintro ⟨y, hy, rfl⟩; exact h.1 y hy
    · intro hx
      obtain ⟨y, hy, rfl⟩ := isPermFn_surj h x hx
      exact ⟨y, hy, rfl⟩

/-- Row lengths add up to the same total in every order. -/
theorem rowStart_perm {n : Nat} {f : Nat → Nat} (h : IsPermFn n f) (rows : Nat → List (Nat × R)) :
    rowStart (fun i => rows (f i)) n = rowStart rows n := by
  have e : ∀ r : Nat → List (Nat × R), rowStart r n = ((List.range n).flatMap r).length := fun r => (flat_length r n).symm
  rw [e, e]
  have := (perm_range h).flatMap_right rows
  rw [List.flatMap_map] at this
  exact this.length_eq

theorem wp_permAssert {sz : CArr → Int} {W Rd : CArr → Int → Prop} {m : Mem (CTy R)} {dbg hasRow : Bool} {n : Nat}
    {ri : Nat → Nat} (h : HoldsSel m hasRow n ri) (hp : IsPermFn n ri) (hd : dbg = true → hasRow = true ∨ n = 0)
    (hR : ∀ i, Rd (.itmp 0) i) {Q : Unit → Mem (CTy R) → Prop} (hQ : Q () m) :
    wp sz W Rd (permAssert dbg hasRow n) m Q := by
  unfold permAssert
  cases dbg with
  | false => rw [if_neg (by simp), wp_pure]; exact hQ
  | true =>
    rw [if_pos rfl]
    cases hasRow with
    | false =>
      rw [if_neg (by simp), if_pos (by simpa using hd rfl), wp_pure]; exact hQ
    | true =>
      rw [if_pos rfl, wp_bind]
      refine wp_forN (b := 0) (lo := 0) (hi := n)
        (fun q l m' => m' = m ∧ l = (List.range q).map fun x => ((ri x : Nat) : Int)) (by omega) ⟨rfl, rfl⟩ ?_ ?_ (by simp) (by simp)
      · rintro q l _ h1 h2 ⟨rfl, rfl⟩
        rw [Int.add_zero]
        refine wp_rd _ (hR _) (h.1 rfl q h2) ?_
        rw [wp_pure]
        refine ⟨rfl, ?_⟩
        rw [List.range_succ, List.map_append]; rfl
      · rintro l _ ⟨rfl, rfl⟩
        rw [wp_assert]
        refine ⟨?_, hQ⟩
        rw [isPerm_iff_nodup]
        refine List.Nodup.map_on ?_ List.nodup_range
        intro x hx y hy hxy
        exact hp.2 x y (List.mem_range.1 hx) (List.mem_range.1 hy) (by omega)

section
variable {sz : CArr → Int} {T k k2 base : Nat} {A : Csr R} {ext hasRow : Bool} {ep ri : Nat → Nat}

/-- Row lists of the reordered rows. -/
def selRows (A : Csr R) (ri : Nat → Nat) (i : Nat) : List (Nat × R) := A.row (ri i)

/-- The cells thread `t` writes in the two phases of permuteRowptr. -/
def permPW (T m k2 t : Nat) (a : CArr) (i : Int) : Prop :=
  (a = .rowptr k2 ∨ a = .extptr k2) ∧ (rowCut T m t : Int) ≤ i ∧ i < rowCut T m (t + 1)

theorem selRows_step (hwf : A.WF) (hp : IsPermFn A.m ri) {i : Nat} (hi : i < A.m) :
    (rowStart (selRows A ri) (i + 1) : Int) = rowStart (selRows A ri) i + A.ptr (ri i + 1) - A.ptr (ri i) := by
  have := hwf.ptr_step (ri i) (hp.1 i hi)
  rw [rowStart_succ]
  unfold selRows
  rw [Csr.row_length]; omega

/-- A thread without rows starts at the end. -/
theorem rowCut_empty (hT : 1 ≤ T) {m t : Nat} (h : rowCut T m (t + 1) = rowCut T m t) : rowCut T m t = m := by
  have h0 := rowCut_eq hT m t
  have h1 := rowCut_end hT m t
  unfold simpleEnd at h1
  rw [h0] at h1
  have hle := rowCut_le hT m t
  by_cases hm : m = 0
  · omega
  have : 1 ≤ perThread T m := by
    unfold perThread
    rw [Int.le_ediv_iff_mul_le (by omega)]; omega
  omega

/-- The external pointer of row `i`. -/
theorem wp_permExt {W Rd : CArr → Int → Prop} {m : Mem (CTy R)} {i r : Nat} {s x b : Int}
    (hs : m (.rowptr k2) (i : Int) = some s) (hx : ext = true → m (.extptr k) (r : Int) = some x)
    (hb : m (.rowptr k) (r : Int) = some b) (hR1 : Rd (.rowptr k2) i) (hR2 : ∀ i, Rd (.extptr k) i) (hR3 : ∀ i, Rd (.rowptr k) i)
    (hW : W (.extptr k2) i) (hz : ext = true → (i : Int) < sz (.extptr k2)) {Q : Unit → Mem (CTy R) → Prop}
    (hQ : ∀ m', (ext = true → m' (.extptr k2) (i : Int) = some (s + x - b)) → (∀ j, j ≠ (i : Int) → m' (.extptr k2) j = m (.extptr k2) j) →
      (∀ a, a ≠ .extptr k2 → m' a = m a) → Q () m') :
    wp sz W Rd (permExt k k2 ext (i : Int) (r : Int)) m Q := by
  unfold permExt
  cases ext with
  | false => rw [if_neg (by simp), wp_pure]; exact hQ m (by simp) (fun _ _ => rfl) (fun _ _ => rfl)
  | true =>
    rw [if_pos rfl]
    refine wp_rd _ hR1 hs ?_
    refine wp_rd _ (hR2 _) (hx rfl) ?_
    refine wp_rd _ (hR3 _) hb ?_
    refine wp_wr1 hW ⟨by omega, hz rfl⟩ ?_
    refine hQ _ (fun _ => Mem.get_same _ _ _ _) (fun j hj => Mem.get_ne _ _ _ _ _ hj) ?_
    intro a ha; exact Mem.set_other _ _ _ _ _ ha

/-- First phase, one thread. -/
theorem wp_permCount {m : Mem (CTy R)} (hT : 1 ≤ T) (hk : k ≠ k2) (hwf : A.WF) (hrp : ∀ i, i ≤ A.m → m (.rowptr k) (i : Int) = some ((A.ptr i : Int) + base))
    (he : HoldsExt m k base A ext ep) (hs : HoldsSel m hasRow A.m ri) (hp : IsPermFn A.m ri)
    (hz1 : (A.m : Int) + 1 ≤ sz (.rowptr k2)) (hz2 : ext = true → (A.m : Int) ≤ sz (.extptr k2)) (t : Nat) :
    wp sz (fun a i => permPW T A.m k2 t a i ∨ (a = .rowptr k2 ∧ i = A.m))
      (fun a i => a = .rowptr k ∨ a = .extptr k ∨ a = .itmp 0 ∨ permPW T A.m k2 t a i ∨ (a = .rowptr k2 ∧ i = A.m))
      (permCount k k2 hasRow ext A.m T t) m
      (fun r m' => r = (rowStart (selRows A ri) (rowCut T A.m (t + 1)) : Int) - rowStart (selRows A ri) (rowCut T A.m t) ∧
        ∀ i : Nat, rowCut T A.m t ≤ i → i < rowCut T A.m (t + 1) →
          m' (.rowptr k2) (i : Int) = some ((rowStart (selRows A ri) i : Int) - rowStart (selRows A ri) (rowCut T A.m t)) ∧
          (ext = true → m' (.extptr k2) (i : Int) =
            some ((rowStart (selRows A ri) i : Int) - rowStart (selRows A ri) (rowCut T A.m t) + ep (ri i) - A.ptr (ri i)))) := by
  unfold permCount
  have hc0 := rowCut_eq hT A.m t
  have hc1 := rowCut_end hT A.m t
  have hmono := rowCut_mono hT A.m (Nat.le_succ t)
  have hle := rowCut_le hT A.m (t + 1)
  rw [hc0, hc1]
  generalize hS : rowStart (selRows A ri) = S
  have hstep : ∀ i, i < A.m → (S (i + 1) : Int) = S i + A.ptr (ri i + 1) - A.ptr (ri i) := by
    intro i hi; rw [← hS]; exact selRows_step hwf hp hi
  have hemp := fun h => rowCut_empty hT (m := A.m) (t := t) h
  have hWin : ∀ a (i : Nat), a = .rowptr k2 ∨ a = .extptr k2 → rowCut T A.m t ≤ i → i < rowCut T A.m (t + 1) → permPW T A.m k2 t a i :=
    fun a i ha h1 h2 => ⟨ha, by omega, by omega⟩
  generalize permPW T A.m k2 t = P at *
  generalize rowCut T A.m t = b at *
  generalize rowCut T A.m (t + 1) = e at *
  by_cases hbe : b < e
  · refine wp_wr (Or.inl (hWin _ _ (Or.inl rfl) (by omega) hbe)) ⟨by omega, by omega⟩ ?_
    rw [wp_bind]
    refine wp_forN (b := 0) (lo := b) (hi := e - 1)
      (fun q _ m' => (∀ a, a = .rowptr k ∨ a = .extptr k ∨ a = .itmp 0 → m' a = m a) ∧
        (∀ i : Nat, b ≤ i → i ≤ q → m' (.rowptr k2) (i : Int) = some ((S i : Int) - S b)) ∧
        (∀ i : Nat, b ≤ i → i < q → ext = true → m' (.extptr k2) (i : Int) = some ((S i : Int) - S b + ep (ri i) - A.ptr (ri i))))
      (by omega) ?_ ?_ ?_ (by omega) (by omega)
    · refine ⟨?_, ?_, ?_⟩
      · rintro a (rfl | rfl | rfl)
        · exact Mem.set_other _ _ _ _ _ (by simpa using hk)
        · exact Mem.set_other _ _ _ _ _ (by simp)
        · exact Mem.set_other _ _ _ _ _ (by simp)
      · intro i h1 h2
        obtain rfl : i = b := by omega
        rw [Mem.get_same, Int.sub_self]
      · intro i h1 h2; omega
    · rintro q _ m1 h1 h2 ⟨i1, i2, i3⟩
      rw [Int.add_zero]
      rw [wp_bind]
      have hr := hp.1 q (by omega)
      refine wp_permSel (n := A.m) ⟨fun h i hi => by rw [i1 _ (by simp)]; exact hs.1 h i hi, hs.2⟩ (fun _ => by simp) (by omega) ?_
      refine wp_rd ((A.ptr (ri q) : Int) + base) (by simp) (by rw [i1 _ (by simp)]; exact hrp _ (by omega)) ?_
      refine wp_rd ((A.ptr (ri q + 1) : Int) + base) (by simp) (by rw [i1 _ (by simp)]; exact hrp (ri q + 1) (by omega)) ?_
      refine wp_rd _ (Or.inr (Or.inr (Or.inr (Or.inl (hWin _ _ (Or.inl rfl) h1 (by omega)))))) (i2 q h1 (by omega)) ?_
      have e1 : (q : Int) + 1 = ((q + 1 : Nat) : Int) := by omega
      rw [e1]
      refine wp_wr (Or.inl (hWin _ _ (Or.inl rfl) (by omega) (by omega))) ⟨by omega, by omega⟩ ?_
      refine wp_permExt (s := (S q : Int) - S b) (x := (ep (ri q) : Int) + base) (b := (A.ptr (ri q) : Int) + base) ?_ ?_ ?_
        (Or.inr (Or.inr (Or.inr (Or.inl (hWin _ _ (Or.inl rfl) h1 (by omega)))))) (by simp) (by simp)
        (Or.inl (hWin _ _ (Or.inr rfl) (by omega) (by omega))) (fun h => by have := hz2 h; omega) ?_
      · rw [Mem.get_ne _ _ _ _ _ (by omega)]; exact i2 q h1 (by omega)
      · intro h; rw [Mem.set_other _ _ _ _ _ (by simp), i1 _ (by simp)]; exact he.1 h _ hr
      · rw [Mem.set_other _ _ _ _ _ (by simpa using hk), i1 _ (by simp)]; exact hrp _ (by omega)
      · intro m2 g1 g2 g3
        refine ⟨?_, ?_, ?_⟩
        · rintro a ha
          have h1 : a ≠ .extptr k2 := by rintro rfl; simp at ha; exact hk ha.symm
          have h2 : a ≠ .rowptr k2 := by rintro rfl; simp at ha; exact hk ha.symm
          rw [g3 a h1, ← i1 a ha]
          funext j; exact congrFun (Mem.set_other _ _ _ _ _ h2) j
        · intro i h3 h4
          rw [g3 _ (by simp)]
          by_cases hi : i = q + 1
          · subst hi
            rw [Mem.get_same]
            have := hstep q (by omega)
            exact congrArg some (show ((S q : Int) - S b + ((A.ptr (ri q + 1) : Int) + base) - ((A.ptr (ri q) : Int) + base)) = S (q + 1) - S b by omega)
          · rw [Mem.get_ne _ _ _ _ _ (by omega)]; exact i2 i h3 (by omega)
        · intro i h3 h4 h5
          by_cases hi : i = q
          · subst hi
            rw [g1 h5]; congr 1; omega
          · rw [g2 _ (by omega), Mem.set_other _ _ _ _ _ (by simp)]; exact i3 i h3 (by omega) h5
    · rintro _ m1 ⟨i1, i2, i3⟩
      rw [if_pos (by omega)]
      have e0 : (e : Int) - 1 = ((e - 1 : Nat) : Int) := by omega
      rw [e0]
      generalize hq : e - 1 = q at *
      obtain rfl : e = q + 1 := by omega
      dsimp only
      rw [wp_bind]
      have hr := hp.1 q (by omega)
      refine wp_permSel (n := A.m) ⟨fun h i hi => by rw [i1 _ (by simp)]; exact hs.1 h i hi, hs.2⟩ (fun _ => by simp) (by omega) ?_
      refine wp_rd ((A.ptr (ri q) : Int) + base) (by simp) (by rw [i1 _ (by simp)]; exact hrp _ (by omega)) ?_
      refine wp_rd ((A.ptr (ri q + 1) : Int) + base) (by simp) (by rw [i1 _ (by simp)]; exact hrp (ri q + 1) (by omega)) ?_
      refine wp_rd _ (Or.inr (Or.inr (Or.inr (Or.inl (hWin _ _ (Or.inl rfl) (by omega) (by omega)))))) (i2 q (by omega) (by omega)) ?_
      rw [wp_bind]
      refine wp_permExt (s := (S q : Int) - S b) (x := (ep (ri q) : Int) + base) (b := (A.ptr (ri q) : Int) + base) ?_ ?_ ?_
        (Or.inr (Or.inr (Or.inr (Or.inl (hWin _ _ (Or.inl rfl) (by omega) (by omega)))))) (by simp) (by simp)
        (Or.inl (hWin _ _ (Or.inr rfl) (by omega) (by omega))) (fun h => by have := hz2 h; omega) ?_
      · exact i2 q (by omega) (by omega)
      · intro h; rw [i1 _ (by simp)]; exact he.1 h _ hr
      · rw [i1 _ (by simp)]; exact hrp _ (by omega)
      · intro m2 g1 g2 g3
        rw [wp_pure]
        refine ⟨?_, ?_⟩
        · rw [hstep q (by omega)]; omega
        · intro i h3 h4
          refine ⟨?_, ?_⟩
          · rw [g3 _ (by simp)]; exact i2 i h3 (by omega)
          · intro h5
            by_cases hi : i = q
            · subst hi
              rw [g1 h5]; congr 1; omega
            · rw [g2 _ (by omega)]; exact i3 i h3 (by omega) h5
  · obtain rfl : e = b := by omega
    obtain rfl : e = A.m := hemp rfl
    refine wp_wr (Or.inr ⟨rfl, rfl⟩) ⟨by omega, by omega⟩ ?_
    rw [wp_bind]
    refine wp_forUp (fun _ _ _ => True) trivial (fun i _ _ h1 h2 => by omega) ?_
    intro _ m1 _
    rw [if_neg (by omega), wp_pure]
    exact ⟨by omega, fun i h1 h2 => by omega⟩

theorem constW_permSel {S : CArr → Int → Prop} {cv : (a : CArr) → Int → CTy R a} (i : Int) :
    (permSel (R := R) hasRow i).ConstW S cv := by
  unfold permSel; exact .ite (.read _ _) (.pure _)

theorem constW_permExt {S : CArr → Int → Prop} {cv : (a : CArr) → Int → CTy R a} (h : ∀ i, ¬ S (.extptr k2) i) (i r : Int) :
    (permExt (R := R) k k2 ext i r).ConstW S cv := by
  unfold permExt
  exact .ite (.bind (.read _ _) fun _ => .bind (.read _ _) fun _ => .bind (.read _ _) fun _ => .write fun hs => absurd hs (h _)) (.pure _)

/-- First phase. -/
theorem permCount_ok {m : Mem (CTy R)} (htol : Races.tol (CArr.rowptr k2) (A.m : Int)) (hT : 1 ≤ T) (hk : k ≠ k2) (hwf : A.WF)
    (hrp : ∀ i, i ≤ A.m → m (.rowptr k) (i : Int) = some ((A.ptr i : Int) + base))
    (he : HoldsExt m k base A ext ep) (hs : HoldsSel m hasRow A.m ri) (hp : IsPermFn A.m ri)
    (hz1 : (A.m : Int) + 1 ≤ sz (.rowptr k2)) (hz2 : ext = true → (A.m : Int) ≤ sz (.extptr k2))
    {Post : (Nat → Int) → Mem (CTy R) → Prop}
    (hpost : ∀ r m', (∀ t, t < T → r t = (rowStart (selRows A ri) (rowCut T A.m (t + 1)) : Int) - rowStart (selRows A ri) (rowCut T A.m t)) →
      (∀ t, t < T → ∀ i : Nat, rowCut T A.m t ≤ i → i < rowCut T A.m (t + 1) →
          m' (.rowptr k2) (i : Int) = some ((rowStart (selRows A ri) i : Int) - rowStart (selRows A ri) (rowCut T A.m t)) ∧
          (ext = true → m' (.extptr k2) (i : Int) =
            some ((rowStart (selRows A ri) i : Int) - rowStart (selRows A ri) (rowCut T A.m t) + ep (ri i) - A.ptr (ri i)))) →
      (∀ a, a ≠ .rowptr k2 → a ≠ .extptr k2 → m' a = m a) → Post r m') :
    ParOk sz T Post (permCount k k2 hasRow ext A.m T) m := by
  let S : CArr → Int → Prop := fun a i => a = .rowptr k2 ∧ i = (A.m : Int)
  let cv : (a : CArr) → Int → CTy R a := fun a i => match a with
    | .rowptr _ => (0 : Int)
    | .colidx _ => (0 : Int) | .diagptr _ => (0 : Int) | .extptr _ => (0 : Int) | .itmp _ => (0 : Int)
    | .values _ => A.val 0 | .idiag _ => A.val 0 | .diag _ => A.val 0 | .vec _ => A.val 0
  have hfor : ∀ a, a ≠ .rowptr k2 → (m.forget S) a = m a := fun a ha => by
    funext i; exact Mem.forget_of_not (fun h => ha h.1)
  have hrp' : ∀ i, i ≤ A.m → (m.forget S) (.rowptr k) (i : Int) = some ((A.ptr i : Int) + base) := by
    intro i hi
    rw [hfor _ (by simpa using hk)]; exact hrp i hi
  have he' : HoldsExt (m.forget S) k base A ext ep := by
    refine ⟨fun h i hi => ?_, he.2⟩
    rw [hfor _ (by simp)]; exact he.1 h i hi
  have hs' : HoldsSel (m.forget S) hasRow A.m ri := by
    refine ⟨fun h i hi => ?_, hs.2⟩
    rw [hfor _ (by simp)]; exact hs.1 h i hi
  refine const_rule S cv
    (W := fun t a i => permPW T A.m k2 t a i ∨ (a = .rowptr k2 ∧ i = A.m))
    (R := fun t a i => a = .rowptr k ∨ a = .extptr k ∨ a = .itmp 0 ∨ permPW T A.m k2 t a i ∨ (a = .rowptr k2 ∧ i = A.m))
    _ ?_ ?_
    (fun t _ => wp_permCount (m := m.forget S) hT hk hwf hrp' he' hs' hp hz1 hz2 t) ?_
    (by rintro a i ⟨rfl, rfl⟩; exact htol)
  · rintro t u a i ht hu htu h1 h2 h3
    rcases h1 with ⟨h1, h4, h5⟩ | h1
    · rcases h3 with rfl | rfl | rfl | ⟨g1, g2, g3⟩ | h3
      · simp at h1; exact hk h1
      · simp at h1; exact hk h1
      · simp at h1
      · rcases Nat.lt_trichotomy t u with h | h | h
        · have := rowCut_mono hT A.m (show t + 1 ≤ u from h); omega
        · exact htu h
        · have := rowCut_mono hT A.m (show u + 1 ≤ t from h); omega
      · exact h2 h3
    · exact h2 h1
  · intro t _
    unfold permCount
    have hX : ∀ i, ¬ S (.extptr k2) i := fun i h => by have := h.1; simp at this
    refine .bind (.write fun _ => rfl) fun _ => .bind (.forUp' fun i _ h1 h2 => .bind (constW_permSel _) fun _ => .bind (.read _ _) fun _ =>
      .bind (.read _ _) fun _ => .bind (.read _ _) fun _ => .bind (.write fun h => ?_) fun _ => constW_permExt hX _ _) fun _ =>
      .ite (.bind (constW_permSel _) fun _ => .bind (.read _ _) fun _ => .bind (.read _ _) fun _ => .bind (.read _ _) fun _ =>
        .bind (constW_permExt hX _ _) fun _ => .pure _) (.pure _)
    have := simpleEnd_le (T := T) (tid := t) (n := A.m)
    have := h.2
    omega
  · intro r m' hq hf
    refine hpost r m' (fun t ht => ?_) (fun t ht i h1 h2 => ?_) ?_
    · obtain ⟨mt, ⟨q1, _⟩, _⟩ := hq t ht; exact q1
    · obtain ⟨mt, ⟨_, q2⟩, q3, _⟩ := hq t ht
      have hle := rowCut_le hT A.m (t + 1)
      rw [q3 (.rowptr k2) i (Or.inr (Or.inr (Or.inr (Or.inl ⟨Or.inl rfl, by omega, by omega⟩)))) (fun h => by have := h.2; omega),
        q3 (.extptr k2) i (Or.inr (Or.inr (Or.inr (Or.inl ⟨Or.inr rfl, by omega, by omega⟩)))) (fun h => by have := h.1; simp at this)]
      exact q2 i h1 h2
    · intro a h1 h2
      funext i
      refine hf a i (fun h => h1 h.1) ?_
      rintro t ht (⟨h | h, _⟩ | h)
      · exact h1 h
      · exact h2 h
      · exact h1 h.1

theorem psum_rowStart {r : Nat → Int} {S : Nat → Nat} {cut : Nat → Nat} (h0 : cut 0 = 0) (hS : S 0 = 0) (n : Nat)
    (h : ∀ t, t < n → r t = (S (cut (t + 1)) : Int) - S (cut t)) : psum r n = S (cut n) := by
  induction n with
  | zero => rw [h0, hS]; rfl
  | succ n ih =>
    show psum r n + r n = _
    rw [ih (fun t ht => h t (by omega)), h n (by omega)]; omega

/-- Second phase. -/
theorem permShift_ok {m : Mem (CTy R)} {mm : Nat} (hT : 1 ≤ T) {f g : Nat → Int} {off : Nat → Int}
    (hf : ∀ i : Nat, i < mm → m (.rowptr k2) (i : Int) = some (f i))
    (hg : ext = true → ∀ i : Nat, i < mm → m (.extptr k2) (i : Int) = some (g i))
    (hz1 : (mm : Int) ≤ sz (.rowptr k2)) (hz2 : ext = true → (mm : Int) ≤ sz (.extptr k2))
    {Post : (Nat → Unit) → Mem (CTy R) → Prop}
    (hpost : ∀ u m', (∀ t, t < T → ∀ i : Nat, rowCut T mm t ≤ i → i < rowCut T mm (t + 1) →
          m' (.rowptr k2) (i : Int) = some (f i + off t) ∧ (ext = true → m' (.extptr k2) (i : Int) = some (g i + off t))) →
      (∀ a i, (a = .rowptr k2 ∨ a = .extptr k2 → ¬ (0 ≤ i ∧ i < (mm : Int))) → m' a i = m a i) → Post u m') :
    ParOk sz T Post (fun t => permShift k2 ext mm T t (off t)) m := by
  refine par_rule (W := permPW T mm k2) (R := permPW T mm k2)
    (Q := fun t _ m' => ∀ i : Nat, rowCut T mm t ≤ i → i < rowCut T mm (t + 1) →
          m' (.rowptr k2) (i : Int) = some (f i + off t) ∧ (ext = true → m' (.extptr k2) (i : Int) = some (g i + off t))) ?_ ?_ ?_
  · rintro t u a i ht hu htu ⟨_, h1, h2⟩ ⟨_, h3, h4⟩
    rcases Nat.lt_trichotomy t u with h | h | h
    · have := rowCut_mono hT mm (show t + 1 ≤ u from h); omega
    · exact htu h
    · have := rowCut_mono hT mm (show u + 1 ≤ t from h); omega
  · intro t ht
    unfold permShift
    have hmono := rowCut_mono hT mm (Nat.le_succ t)
    have hle := rowCut_le hT mm (t + 1)
    refine wp_forN (b := 0) (lo := rowCut T mm t) (hi := rowCut T mm (t + 1))
      (fun q _ m' => (∀ i : Nat, rowCut T mm t ≤ i → i < q →
          m' (.rowptr k2) (i : Int) = some (f i + off t) ∧ (ext = true → m' (.extptr k2) (i : Int) = some (g i + off t))) ∧
        (∀ i : Nat, q ≤ i → m' (.rowptr k2) (i : Int) = m (.rowptr k2) (i : Int) ∧ m' (.extptr k2) (i : Int) = m (.extptr k2) (i : Int)))
      hmono ⟨fun i h1 h2 => by omega, fun i _ => ⟨rfl, rfl⟩⟩ ?_ ?_ (by rw [rowCut_eq hT]; simp) (by rw [rowCut_end hT]; simp)
    · rintro q _ m1 h1 h2 ⟨i1, i2⟩
      rw [Int.add_zero]
      refine wp_rd _ ⟨Or.inl rfl, by omega, by omega⟩ ((i2 q (by omega)).1.trans (hf q (by omega))) ?_
      refine wp_wr ⟨Or.inl rfl, by omega, by omega⟩ ⟨by omega, by omega⟩ ?_
      cases ext with
      | true =>
        rw [if_pos rfl]
        refine wp_rd _ ⟨Or.inr rfl, by omega, by omega⟩
          (by rw [Mem.set_other _ _ _ _ _ (by simp)]; exact (i2 q (by omega)).2.trans (hg rfl q (by omega))) ?_
        refine wp_wr1 ⟨Or.inr rfl, by omega, by omega⟩ ⟨by omega, by have := hz2 rfl; omega⟩ ?_
        refine ⟨?_, ?_⟩
        · intro i h3 h4
          rw [Mem.set_other _ _ _ _ _ (by simp)]
          by_cases hi : i = q
          · subst hi; rw [Mem.get_same, Mem.get_same]; exact ⟨rfl, fun _ => rfl⟩
          · rw [Mem.get_ne _ _ _ _ _ (by omega), Mem.get_ne _ _ _ _ _ (by omega), Mem.set_other _ _ _ _ _ (by simp)]
            exact i1 i h3 (by omega)
        · intro i h3
          rw [Mem.set_other _ _ _ _ _ (by simp), Mem.get_ne _ _ _ _ _ (by omega), Mem.get_ne _ _ _ _ _ (by omega), Mem.set_other _ _ _ _ _ (by simp)]
          exact i2 i (by omega)
      | false =>
        rw [if_neg (by simp), wp_pure]
        refine ⟨?_, ?_⟩
        · intro i h3 h4
          refine ⟨?_, by simp⟩
          by_cases hi : i = q
          · subst hi; rw [Mem.get_same]
          · rw [Mem.get_ne _ _ _ _ _ (by omega)]
            exact (i1 i h3 (by omega)).1
        · intro i h3
          rw [Mem.get_ne _ _ _ _ _ (by omega), Mem.set_other _ _ _ _ _ (by simp)]
          exact i2 i (by omega)
    · rintro _ m1 ⟨i1, _⟩; exact i1
  · intro u m' hq hfr
    refine hpost u m' ?_ ?_
    · intro t ht i h1 h2
      obtain ⟨mt, q1, q2⟩ := hq t ht
      rw [q2 _ _ ⟨Or.inl rfl, by omega, by omega⟩, q2 _ _ ⟨Or.inr rfl, by omega, by omega⟩]
      exact q1 i h1 h2
    · intro a i h
      refine hfr a i ?_
      rintro t ht ⟨ha, h1, h2⟩
      have hle := rowCut_le hT mm (t + 1)
      exact h ha ⟨by omega, by omega⟩

/-- permuteRowptr: the row pointers (and external pointers) of the rows `ri 0, ri 1, …`. -/
theorem permuteRowptr_ok {dbg : Bool} {m0 : Mem (CTy R)} (htol : Races.tol (CArr.rowptr k2) (A.m : Int)) (hT : 1 ≤ T) (hk : k ≠ k2) (hwf : A.WF)
    (hrp : ∀ i, i ≤ A.m → m0 (.rowptr k) (i : Int) = some ((A.ptr i : Int) + base))
    (he : HoldsExt m0 k base A ext ep) (hs : HoldsSel m0 hasRow A.m ri) (hp : IsPermFn A.m ri)
    (hd : dbg = true → hasRow = true ∨ A.m = 0)
    (hz1 : (A.m : Int) + 1 ≤ sz (.rowptr k2)) (hz2 : ext = true → (A.m : Int) ≤ sz (.extptr k2)) :
    (permuteRowptr sz T k k2 A.m dbg hasRow ext).Ok m0 (fun _ m =>
      (∀ i : Nat, i ≤ A.m → m (.rowptr k2) (i : Int) = some ((rowStart (selRows A ri) i : Int) + base)) ∧
      (ext = true → ∀ i : Nat, i < A.m → m (.extptr k2) (i : Int) =
        some ((rowStart (selRows A ri) i : Int) + ep (ri i) - A.ptr (ri i) + base)) ∧
      ∀ a, a ≠ .rowptr k2 → a ≠ .extptr k2 → m a = m0 a) := by
  unfold permuteRowptr
  refine seq_rule ?_
  rw [wp_bind]
  refine wp_permAssert hs hp hd (fun _ => trivial) ?_
  rw [wp_read]
  refine ⟨trivial, (base : Int), ?_, ?_⟩
  · have := hrp 0 (by omega)
    rw [hwf.ptr_zero] at this
    simpa using this
  refine permCount_ok htol hT hk hwf hrp he hs hp hz1 hz2 ?_
  intro r m1 h1 h2 h3
  have hps : ∀ t, t ≤ T → psum r t = rowStart (selRows A ri) (rowCut T A.m t) := by
    intro t ht
    exact psum_rowStart (S := rowStart (selRows A ri)) (cut := rowCut T A.m) (rowCut_zero A.m) rfl t (fun u hu => h1 u (by omega))
  have htot : rowStart (selRows A ri) A.m = A.nnz := by
    have := rowStart_perm hp A.row
    rw [hwf.rowStart_row (Nat.le_refl _)] at this
    exact this
  have hown : ∀ i : Nat, i < A.m → ∃ t, t < T ∧ rowCut T A.m t ≤ i ∧ i < rowCut T A.m (t + 1) := fun i hi => rowCut_find hT hi
  classical
  let own : Nat → Nat := fun i => if h : i < A.m then (hown i h).choose else 0
  have hownP : ∀ i, i < A.m → own i < T ∧ rowCut T A.m (own i) ≤ i ∧ i < rowCut T A.m (own i + 1) := by
    intro i hi
    show (dite _ _ _ : Nat) < T ∧ _
    simp only [own, dif_pos hi]
    exact (hown i hi).choose_spec
  refine seq_rule ?_
  refine wp_wr1 trivial ⟨by omega, by omega⟩ ?_
  have hfr1 : ∀ a i, ¬ (a = .rowptr k2 ∧ i = (A.m : Int)) → m1.set (.rowptr k2) (A.m : Int) (psum r T) a i = m1 a i := by
    intro a i h
    rcases Mem.set_cases m1 (.rowptr k2) (A.m : Int) (psum r T) a i with ⟨rfl, rfl⟩ | h'
    · exact absurd ⟨rfl, rfl⟩ h
    · exact h'
  have hlast : m1.set (.rowptr k2) (A.m : Int) (psum r T) (.rowptr k2) (A.m : Int) = some (A.nnz : Int) := by
    rw [Mem.get_same, hps T (Nat.le_refl _), rowCut_last hT, htot]
  generalize m1.set (.rowptr k2) (A.m : Int) (psum r T) = m2 at hfr1 hlast
  refine permShift_ok hT
    (f := fun i => (rowStart (selRows A ri) i : Int) - rowStart (selRows A ri) (rowCut T A.m (own i)))
    (g := fun i => (rowStart (selRows A ri) i : Int) - rowStart (selRows A ri) (rowCut T A.m (own i)) + ep (ri i) - A.ptr (ri i))
    ?_ ?_ (by omega) hz2 ?_
  · intro i hi
    rw [hfr1 _ _ (by rintro ⟨_, h⟩; omega)]
    obtain ⟨g1, g2, g3⟩ := hownP i hi
    exact (h2 _ g1 i g2 g3).1
  · intro hx i hi
    rw [hfr1 _ _ (by simp)]
    obtain ⟨g1, g2, g3⟩ := hownP i hi
    exact (h2 _ g1 i g2 g3).2 hx
  intro _ m3 g1 g2
  have hl3 : m3 (.rowptr k2) (A.m : Int) = some (A.nnz : Int) := by
    rw [g2 _ _ (fun _ => by omega)]; exact hlast
  have hk3 : ∀ a, a ≠ .rowptr k2 → a ≠ .extptr k2 → m3 a = m0 a := by
    intro a h4 h5
    rw [← h3 a h4 h5]
    funext i
    rw [g2 a i (by rintro (h | h); exact absurd h h4; exact absurd h h5), hfr1 _ _ (fun h => h4 h.1)]
  refine seq_rule ?_
  refine wp_rd _ trivial hl3 ?_
  refine wp_wr trivial ⟨by omega, by omega⟩ ?_
  refine wp_rd _ trivial (Mem.get_same _ _ _ _) ?_
  refine wp_rd ((A.nnz : Int) + base) trivial ?_ ?_
  · rw [Mem.set_other _ _ _ _ _ (by simpa using hk), hk3 _ (by simpa using hk) (by simp)]
    exact hrp A.m (Nat.le_refl _)
  rw [wp_assert]
  refine ⟨rfl, ?_⟩
  refine Script.ok_done_of ⟨?_, ?_, ?_⟩
  · intro i hi
    by_cases hm : i = A.m
    · subst hm; rw [Mem.get_same, htot]
    · rw [Mem.get_ne _ _ _ _ _ (by omega)]
      obtain ⟨t1, t2, t3⟩ := hownP i (by omega)
      rw [(g1 _ t1 i t2 t3).1, hps _ (by omega)]
      congr 1; omega
  · intro hx i hi
    rw [Mem.set_other _ _ _ _ _ (by simp)]
    obtain ⟨t1, t2, t3⟩ := hownP i (by omega)
    rw [(g1 _ t1 i t2 t3).2 hx, hps _ (by omega)]
    congr 1; omega
  · intro a h4 h5
    rw [← hk3 a h4 h5]
    funext i
    exact congrFun (Mem.set_other _ _ _ _ _ h4) i

end

end SpMP
