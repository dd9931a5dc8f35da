import Verif.RowsMem
import Verif.LoopN
import Verif.Partition
import Mathlib.Data.List.Sort
/-
C++ library functions used by the code, on an integer work array `itmp j`: std::sort (by its specification on integers, where
the result is determined) and std::binary_search (as lower_bound followed by a comparison, the standard library's definition).
-/

namespace SpMP
open Spec

variable {R : Type}

/-- Read `n` consecutive elements. -/
def readList (j : Nat) : Int → Nat → Prog (CTy R) (List Int)
  | _, 0 => pure []
  | lo, n + 1 => do
    let v ← Prog.read (ty := CTy R) (.itmp j) lo
    let l ← readList j (lo + 1) n
    pure ((v : Int) :: l)

/-- Write a list into consecutive elements. -/
def writeList (j : Nat) : Int → List Int → Prog (CTy R) Unit
  | _, [] => pure ()
  | lo, v :: l => do
    Prog.write (ty := CTy R) (.itmp j) lo (v : Int)
    writeList j (lo + 1) l

/-- std::sort(a + lo, a + hi) for `int *a`: replaces the range by its sorted rearrangement. -/
def stdSort (j : Nat) (lo hi : Int) : Prog (CTy R) Unit := do
  let l ← readList j lo (hi - lo).toNat
  writeList j lo (l.insertionSort (· ≤ ·))

/-- std::binary_search(a + lo, a + hi, x). -/
def binarySearch (j : Nat) (lo hi x : Int) : Prog (CTy R) Bool := do
  let p ← lowerBound (ty := CTy R) (fun i => Prog.read (ty := CTy R) (.itmp j) i) lo hi x
  if p < hi then do
    let v ← Prog.read (ty := CTy R) (.itmp j) p
    pure (decide ((v : Int) ≤ x))
  else pure false

/-! ### Rules -/

section
variable {sz : CArr → Int} {W Rd : CArr → Int → Prop} {j : Nat}

theorem wp_readList {m : Mem (CTy R)} : ∀ (l : List Int) (lo : Int) {Q : List Int → Mem (CTy R) → Prop},
    (∀ q (h : q < l.length), Rd (.itmp j) (lo + q) ∧ m (.itmp j) (lo + q) = some l[q]) → Q l m →
    wp sz W Rd (readList j lo l.length) m Q := by
  intro l
  induction l with
  | nil => intro lo Q _ hQ; show wp sz W Rd (pure []) m Q; rw [wp_pure]; exact hQ
  | cons v l ih =>
    intro lo Q h hQ
    have h0 := h 0 (by simp)
    simp only [List.getElem_cons_zero, Nat.cast_zero, Int.add_zero] at h0
    refine wp_rd _ h0.1 h0.2 ?_
    rw [wp_bind]
    refine ih (lo + 1) ?_ ?_
    · intro q hq
      have := h (q + 1) (by simpa using hq)
      simp only [List.getElem_cons_succ] at this
      rw [show lo + 1 + (q : Int) = lo + ((q + 1 : Nat) : Int) by omega]
      exact this
    · rw [wp_pure]; exact hQ

theorem wp_writeList : ∀ (l : List Int) (lo : Int) (m : Mem (CTy R)) {Q : Unit → Mem (CTy R) → Prop},
    0 ≤ lo → lo + l.length ≤ sz (.itmp j) → (∀ q : Nat, q < l.length → W (.itmp j) (lo + q)) →
    (∀ m', (∀ q (h : q < l.length), m' (.itmp j) (lo + q) = some l[q]) →
      (∀ a i, ¬ (a = .itmp j ∧ lo ≤ i ∧ i < lo + l.length) → m' a i = m a i) → Q () m') →
    wp sz W Rd (writeList j lo l) m Q := by
  intro l
  induction l with
  | nil =>
    intro lo m Q _ _ _ hQ
    show wp sz W Rd (pure ()) m Q
    rw [wp_pure]
    exact hQ m (fun q h => absurd h (by simp)) (fun _ _ _ => rfl)
  | cons v l ih =>
    intro lo m Q h0 hs hW hQ
    have hl : ((v :: l).length : Int) = l.length + 1 := by simp
    rw [hl] at hs
    refine wp_wr (by have := hW 0 (by simp); simpa using this) ⟨h0, by omega⟩ ?_
    refine ih (lo + 1) _ (by omega) (by omega) ?_ ?_
    · intro q hq
      have := hW (q + 1) (by simpa using hq)
      rw [show lo + 1 + (q : Int) = lo + ((q + 1 : Nat) : Int) by omega]; exact this
    · intro m' g1 g2
      refine hQ m' ?_ ?_
      · intro q hq
        cases q with
        | zero =>
          rw [g2 _ _ (by rintro ⟨_, h, _⟩; simp at h)]
          simp only [Nat.cast_zero, Int.add_zero, List.getElem_cons_zero]
          exact Mem.get_same _ _ _ _
        | succ q =>
          have := g1 q (by simpa using hq)
          rw [show lo + ((q + 1 : Nat) : Int) = lo + 1 + (q : Int) by omega]
          exact this
      · intro a i hn
        rw [hl] at hn
        rw [g2 a i (by rintro ⟨h1, h2, h3⟩; exact hn ⟨h1, by omega, by omega⟩)]
        by_cases ha : a = .itmp j
        · subst ha
          exact Mem.get_ne _ _ _ _ _ (by rintro rfl; exact hn ⟨rfl, by omega, by omega⟩)
        · exact congrFun (Mem.set_other _ _ _ _ _ ha) _

/-- The range `[lo, lo + l.length)` holds `l`; afterwards it holds a sorted permutation of `l`. -/
theorem wp_stdSort {m : Mem (CTy R)} {l : List Int} {lo hi : Int} {Q : Unit → Mem (CTy R) → Prop} (h0 : 0 ≤ lo)
    (hlen : hi = lo + l.length) (hs : l ≠ [] → hi ≤ sz (.itmp j))
    (h : ∀ q (h : q < l.length), Rd (.itmp j) (lo + q) ∧ W (.itmp j) (lo + q) ∧ m (.itmp j) (lo + q) = some l[q])
    (hQ : ∀ (s : List Int) m', s.Perm l → s.Pairwise (· ≤ ·) → (∀ q (h : q < s.length), m' (.itmp j) (lo + q) = some s[q]) →
      (∀ a i, ¬ (a = .itmp j ∧ lo ≤ i ∧ i < hi) → m' a i = m a i) → Q () m') :
    wp sz W Rd (stdSort j lo hi) m Q := by
  subst hlen
  unfold stdSort
  rw [wp_bind, show (lo + (l.length : Int) - lo).toNat = l.length by omega]
  refine wp_readList l lo (fun q hq => ⟨(h q hq).1, (h q hq).2.2⟩) ?_
  have hp := List.perm_insertionSort (· ≤ ·) l
  have hl := hp.length_eq
  by_cases hn : l = []
  · subst hn
    show wp sz W Rd (pure ()) m Q
    rw [wp_pure]
    exact hQ [] m (List.Perm.refl _) List.Pairwise.nil (fun q h => absurd h (by simp)) (fun _ _ _ => rfl)
  refine wp_writeList _ lo m h0 (by rw [hl]; exact hs hn) (fun q hq => (h q (by rw [← hl]; exact hq)).2.1) ?_
  intro m' g1 g2
  refine hQ _ m' hp (List.pairwise_insertionSort _ _) g1 ?_
  intro a i hh
  refine g2 a i ?_
  rw [hl]; exact hh

/-- On a sorted range, binary_search decides membership. -/
theorem wp_binarySearch {m : Mem (CTy R)} {s : List Int} {lo hi x : Int} {Q : Bool → Mem (CTy R) → Prop}
    (hlen : hi = lo + s.length) (hs : s.Pairwise (· ≤ ·))
    (h : ∀ q (h : q < s.length), Rd (.itmp j) (lo + q) ∧ m (.itmp j) (lo + q) = some s[q])
    (hQ : Q (decide (x ∈ s)) m) : wp sz W Rd (binarySearch j lo hi x) m Q := by
  subst hlen
  unfold binarySearch
  rw [wp_bind]
  let f : Int → Int := fun i => s.getD (i - lo).toNat 0
  have hf : ∀ q (h : q < s.length), f (lo + q) = s[q] := by
    intro q hq
    show s.getD (lo + q - lo).toNat 0 = _
    rw [show (lo + (q : Int) - lo).toNat = q by omega, List.getD_eq_getElem?_getD, List.getElem?_eq_getElem hq]; rfl
  have hget : ∀ i, lo ≤ i → i < lo + s.length → ∃ q : Nat, q < s.length ∧ i = lo + q := by
    intro i h1 h2; exact ⟨(i - lo).toNat, by omega, by omega⟩
  refine wp_lowerBound (f := f) (by omega) ?_ ?_ ?_
  · intro i h1 h2 Q' hQ'
    obtain ⟨q, hq, rfl⟩ := hget i h1 h2
    rw [wp_read]
    refine ⟨(h q hq).1, _, (h q hq).2, ?_⟩
    rw [← hf q hq]; exact hQ'
  · intro i i' h1 h2 h3
    obtain ⟨q, hq, rfl⟩ := hget i h1 (by omega)
    obtain ⟨q', hq', rfl⟩ := hget i' (by omega) h3
    rw [hf q hq, hf q' hq']
    by_cases he : q = q'
    · subst he; omega
    · exact List.pairwise_iff_getElem.mp hs q q' hq hq' (by omega)
  · intro p h1 h2 h3 h4
    by_cases hp : p < lo + s.length
    · rw [if_pos hp]
      obtain ⟨q, hq, rfl⟩ := hget p h1 hp
      refine wp_rd _ (h q hq).1 (h q hq).2 ?_
      rw [wp_pure]
      have h5 := h4 _ (Int.le_refl _) hp
      rw [hf q hq] at h5
      have e : decide (s[q] ≤ x) = decide (x ∈ s) := by
        congr 1
        refine propext ⟨fun h => ?_, fun h => ?_⟩
        · have : s[q] = x := by omega
          exact this ▸ List.getElem_mem hq
        · obtain ⟨q', hq', e⟩ := List.getElem_of_mem h
          by_cases hlt : q' < q
          · have := h3 (lo + q') (by omega) (by omega)
            rw [hf q' hq'] at this; omega
          · have h6 := hf q' hq'
            by_cases he : q = q'
            · subst he; omega
            · have := List.pairwise_iff_getElem.mp hs q q' hq hq' (by omega)
              omega
      exact e.symm ▸ hQ
    · rw [if_neg hp, wp_pure]
      have e : decide (x ∈ s) = false := by
        refine decide_eq_false fun h => ?_
        obtain ⟨q', hq', e⟩ := List.getElem_of_mem h
        have := h3 (lo + q') (by omega) (by omega)
        rw [hf q' hq'] at this; omega
      exact e ▸ hQ

end

end SpMP
