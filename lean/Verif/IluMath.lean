import Verif.Ilu
import Mathlib.Algebra.Field.Basic
import Mathlib.Algebra.BigOperators.Group.List.Basic
import Mathlib.Tactic.Ring
/-
The factors of the elimination multiply to the matrix on its pattern.
-/

namespace SpMP
open Spec

variable {R : Type}

section
variable [Sub R] [Mul R] [Div R]

theorem elimEntry_other {A : Csr R} {dp : Nat → Nat} {i j k : Nat} {lu : Nat → R} (h : k < j ∨ A.ptr (i + 1) ≤ k) (hj : j < A.ptr (i + 1)) :
    elimEntry A dp i lu j k = lu k := by
  unfold elimEntry
  rw [if_neg (by omega), if_neg (by omega)]

theorem elimRow_other {A : Csr R} {dp : Nat → Nat} {i k : Nat} {lu : Nat → R} (h : k < A.ptr i ∨ A.ptr (i + 1) ≤ k) (hd : dp i < A.ptr (i + 1)) :
    elimRow A dp i lu k = lu k := by
  unfold elimRow
  have : ∀ t, t ≤ dp i - A.ptr i → ((List.range' (A.ptr i) t).foldl (elimEntry A dp i) lu) k = lu k := by
    intro t
    induction t with
    | zero => intro _; rfl
    | succ t ih =>
      intro ht
      rw [List.range'_concat, List.foldl_append]
      simp only [List.foldl_cons, List.foldl_nil]
      rw [elimEntry_other (by omega) (by omega)]
      exact ih (by omega)
  exact this _ (Nat.le_refl _)

/-- Rows beyond `n` are as at the start. -/
theorem ilu0_later {A : Csr R} {dp ep : Nat → Nat} (hwf : A.WF) (hsp : SplitRows A dp ep) {lu : Nat → R} {n k : Nat} (hn : n ≤ A.m) (hk : A.ptr n ≤ k) :
    ilu0 A dp n lu k = lu k := by
  induction n with
  | zero => rfl
  | succ n ih =>
    have hb := hsp.bounds n (by omega)
    show elimRow A dp n _ k = _
    rw [elimRow_other (Or.inr hk) (by omega)]
    exact ih (by omega) (by omega)

/-- Rows before `n` do not change any more. -/
theorem ilu0_earlier {A : Csr R} {dp ep : Nat → Nat} (hwf : A.WF) (hsp : SplitRows A dp ep) {lu : Nat → R} {n k : Nat} (hk : k < A.ptr n) :
    ∀ d, n + d ≤ A.m → ilu0 A dp (n + d) lu k = ilu0 A dp n lu k := by
  intro d
  induction d with
  | zero => intro _; rfl
  | succ d ih =>
    intro hd
    have hb := hsp.bounds (n + d) (by omega)
    have := hwf.ptr_mono (i := n) (j := n + d) (by omega) (by omega)
    show elimRow A dp (n + d) _ k = _
    rw [elimRow_other (Or.inl (by omega)) (by omega)]
    exact ih (by omega)
end

variable [Field R]

theorem ilu0_product_row {A : Csr R} {dp ep : Nat → Nat} (hwf : A.WF) (hsp : SplitRows A dp ep) (hs : ∀ i, i < A.m → A.RowSorted i)
    {i k : Nat} (hpiv : ∀ e, e < i → ilu0 A dp A.m A.val (dp e) ≠ 0) (hk : A.InRow i k) :
    productEntry A dp (ilu0 A dp A.m A.val) i (A.col k) = A.val k := by
  obtain ⟨hi, hk1, hk2⟩ := hk
  have hb := hsp.bounds i hi
  generalize hF : ilu0 A dp A.m A.val = F at *
  -- the state before row i
  generalize hG : ilu0 A dp i A.val = G
  have hGF : ∀ q, q < A.ptr i → G q = F q := by
    intro q hq
    rw [← hG, ← hF]
    have := ilu0_earlier hwf hsp (lu := A.val) hq (A.m - i) (by omega)
    rw [← this]; congr 1; omega
  have hGA : ∀ q, A.ptr i ≤ q → G q = A.val q := by
    intro q hq; rw [← hG]; exact ilu0_later hwf hsp (by omega) hq
  have hFr : ∀ q, q < A.ptr (i + 1) → F q = elimRow A dp i G q := by
    intro q hq
    have := ilu0_earlier hwf hsp (lu := A.val) hq (A.m - (i + 1)) (by omega)
    rw [show i + 1 + (A.m - (i + 1)) = A.m by omega, hF] at this
    rw [this, ← hG]; rfl
  let Y : Nat → Nat → R := fun t => (List.range' (A.ptr i) t).foldl (elimEntry A dp i) G
  have hYs : ∀ t, Y (t + 1) = elimEntry A dp i (Y t) (A.ptr i + t) := by
    intro t
    show ((List.range' (A.ptr i) (t + 1)).foldl (elimEntry A dp i) G) = _
    rw [List.range'_concat, List.foldl_append, Nat.one_mul]
    rfl
  have hYl : ∀ t q, t ≤ dp i - A.ptr i → q < A.ptr i → Y t q = F q := by
    intro t q
    induction t with
    | zero => intro _ hq; exact hGF q hq
    | succ t ih =>
      intro ht hq
      rw [hYs, elimEntry_other (by omega) (by omega)]
      exact ih (by omega) hq
  have hfix : ∀ t d q, t + d ≤ dp i - A.ptr i → q < A.ptr i + t → Y (t + d) q = Y t q := by
    intro t d q
    induction d with
    | zero => intro _ _; rfl
    | succ d ih =>
      intro h1 h2
      rw [show t + (d + 1) = (t + d) + 1 by omega, hYs, elimEntry_other (by omega) (by omega)]
      exact ih (by omega) h2
  have key : ∀ t, t ≤ dp i - A.ptr i → ∀ k, A.ptr i ≤ k → k < A.ptr (i + 1) →
      A.val k = ((List.range' (A.ptr i) t).map fun j => Y t j * upperEntry A dp F (A.col j) (A.col k)).sum +
        (if k < A.ptr i + t then 0 else Y t k) := by
    intro t
    induction t with
    | zero =>
      intro _ k h1 _
      rw [if_neg (by omega)]
      simp only [List.range'_zero, List.map_nil, List.sum_nil, zero_add]
      exact (hGA k h1).symm
    | succ t ih =>
      intro ht k h1 h2
      have := ih (by omega) k h1 h2
      have hjc := hsp.lower i (A.ptr i + t) hi (by omega) (by omega)
      have hbc := hsp.bounds (A.col (A.ptr i + t)) (by omega)
      have hcp : A.ptr (A.col (A.ptr i + t) + 1) ≤ A.ptr i := hwf.ptr_mono (by omega) (by omega)
      have hsc := hs (A.col (A.ptr i + t)) (by omega)
      have hdc := hsp.diag (A.col (A.ptr i + t)) (by omega)
      have hsum : ((List.range' (A.ptr i) t).map fun j => Y (t + 1) j * upperEntry A dp F (A.col j) (A.col k)) =
          ((List.range' (A.ptr i) t).map fun j => Y t j * upperEntry A dp F (A.col j) (A.col k)) := by
        apply List.map_congr_left
        intro j hj
        rw [List.mem_range'_1] at hj
        rw [hfix t 1 j (by omega) (by omega)]
      rw [List.range'_concat, List.map_append, List.sum_append, hsum]
      simp only [List.map_cons, List.map_nil, List.sum_cons, List.sum_nil, add_zero, Nat.one_mul]
      have hp : Y t (dp (A.col (A.ptr i + t))) = F (dp (A.col (A.ptr i + t))) := hYl t _ (by omega) (by omega)
      have hl : Y (t + 1) (A.ptr i + t) = Y t (A.ptr i + t) / F (dp (A.col (A.ptr i + t))) := by
        rw [hYs]; unfold elimEntry; rw [if_pos rfl, hp]
      rw [hl]
      rcases Nat.lt_trichotomy k (A.ptr i + t) with h | h | h
      · -- already eliminated
        rw [if_pos h] at this
        rw [if_pos (by omega)]
        have hlt := hs i hi k (A.ptr i + t) h1 h (by omega)
        have hz : upperEntry A dp F (A.col (A.ptr i + t)) (A.col k) = 0 := by
          unfold upperEntry
          rw [findCol_none]
          intro q g1 g2
          rcases Nat.eq_or_lt_of_le g1 with g | g
          · rw [← g, hdc]; omega
          · have := hsc (dp (A.col (A.ptr i + t))) q hbc.1 g g2
            rw [hdc] at this; omega
        rw [hz, this]; ring
      · subst h
        rw [if_neg (by omega)] at this
        rw [if_pos (by omega)]
        have hz : upperEntry A dp F (A.col (A.ptr i + t)) (A.col (A.ptr i + t)) = F (dp (A.col (A.ptr i + t))) := by
          unfold upperEntry
          rw [findCol_cons A (by omega), if_pos hdc]
        rw [hz, div_mul_cancel₀ _ (hpiv _ (by omega)), this]; ring
      · rw [if_neg (by omega)] at this
        rw [if_neg (by omega)]
        have hgt := hs i hi (A.ptr i + t) k (by omega) h h2
        have hy : Y (t + 1) k = Y t k - Y t (A.ptr i + t) / F (dp (A.col (A.ptr i + t))) * upperEntry A dp F (A.col (A.ptr i + t)) (A.col k) := by
          rw [hYs]
          unfold elimEntry
          rw [if_neg (by omega), if_pos (by omega)]
          unfold elimAt upperEntry
          rw [findCol_cons A (lo := dp (A.col (A.ptr i + t))) (by omega), if_neg (by rw [hdc]; omega)]
          cases hf : findCol A (dp (A.col (A.ptr i + t)) + 1) (A.ptr (A.col (A.ptr i + t) + 1)) (A.col k) with
          | none => simp
          | some k' =>
            obtain ⟨_, g, _⟩ := findCol_some hf
            simp only
            rw [hp, hYl t k' (by omega) (by omega)]
        rw [hy, this]; ring
  have hlast := key _ (Nat.le_refl _) k hk1 hk2
  have hYF : ∀ q, q < A.ptr (i + 1) → Y (dp i - A.ptr i) q = F q := fun q hq => (hFr q hq).symm
  unfold productEntry
  rw [hlast]
  congr 1
  · apply congrArg
    apply List.map_congr_left
    intro j hj
    rw [List.mem_range'_1] at hj
    rw [hYF j (by omega)]
  · unfold upperEntry
    have hdi := hsp.diag i hi
    split
    · next k' hf =>
      obtain ⟨g1, g2, g3⟩ := findCol_some hf
      have : k' = k := by
        rcases Nat.lt_trichotomy k' k with h | h | h
        · have := hs i hi k' k (by omega) h hk2; omega
        · exact h
        · have := hs i hi k k' hk1 h g2; omega
      subst this
      rw [if_neg (by omega), hYF _ hk2]
    · next hf =>
      rw [if_pos]
      apply Classical.byContradiction
      intro hc
      unfold findCol at hf
      rw [List.find?_eq_none] at hf
      have := hf k (by rw [List.mem_range'_1]; omega)
      simp at this

theorem ilu0_product {A : Csr R} {dp ep : Nat → Nat} (hwf : A.WF) (hsp : SplitRows A dp ep) (hs : ∀ i, i < A.m → A.RowSorted i)
    (hpiv : ∀ i, i < A.m → ilu0 A dp A.m A.val (dp i) ≠ 0) {i k : Nat} (hk : A.InRow i k) :
    productEntry A dp (ilu0 A dp A.m A.val) i (A.col k) = A.val k :=
  ilu0_product_row hwf hsp hs (fun e he => hpiv e (by have := hk.1; omega)) hk

end SpMP
