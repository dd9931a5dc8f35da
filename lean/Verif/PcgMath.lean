import Verif.Spec.Pcg
import Verif.Props.Permute
import Mathlib.LinearAlgebra.Dimension.Finite
import Mathlib.LinearAlgebra.Dimension.Constructions
import Mathlib.LinearAlgebra.FiniteDimensional.Lemmas
import Mathlib.Tactic.Ring
import Mathlib.Tactic.FieldSimp
import Mathlib.Tactic.LinearCombination
import Mathlib.Tactic.Linarith
import Mathlib.Algebra.Order.Field.Basic
import Mathlib.Algebra.Order.BigOperators.Ring.Finset
/-
Algebra of the preconditioned conjugate gradient method over the specification: symmetry of the preconditioner,
orthogonality, termination. Models no function.
-/
namespace SpMP
open Spec Finset

variable {R : Type}

section ring
variable [CommRing R]

theorem dotN_congr {n : Nat} {x x' y y' : Nat → R} (hx : ∀ i, i < n → x i = x' i) (hy : ∀ i, i < n → y i = y' i) :
    dotN n x y = dotN n x' y' :=
  Finset.sum_congr rfl fun i hi => by rw [hx i (Finset.mem_range.1 hi), hy i (Finset.mem_range.1 hi)]

theorem dotN_comm (n : Nat) (x y : Nat → R) : dotN n x y = dotN n y x :=
  Finset.sum_congr rfl fun _ _ => mul_comm _ _

theorem dotN_lin (n : Nat) (w x y : Nat → R) (c : R) (u : Nat → R) (h : ∀ i, i < n → w i = x i + c * y i) :
    dotN n u w = dotN n u x + c * dotN n u y := by
  unfold dotN
  rw [Finset.mul_sum, ← Finset.sum_add_distrib]
  exact Finset.sum_congr rfl fun i hi => by rw [h i (Finset.mem_range.1 hi)]; ring

theorem dotN_lin' (n : Nat) (w x y : Nat → R) (c : R) (u : Nat → R) (h : ∀ i, i < n → w i = x i + c * y i) :
    dotN n w u = dotN n x u + c * dotN n y u := by
  rw [dotN_comm n w, dotN_lin n w x y c u h, dotN_comm n u, dotN_comm n u]

theorem list_sum_entries {m : Nat} (q : Nat → Prop) [DecidablePred q] (x : Nat → R) (l : List (Nat × R))
    (hl : ∀ e, e ∈ l → e.1 < m) :
    ((l.filter fun e => q e.1).map fun e => e.2 * x e.1).sum =
      ∑ c ∈ range m, if q c then ((l.filter fun e => e.1 = c).map (·.2)).sum * x c else 0 := by
  induction l with
  | nil => simp
  | cons a l ih =>
    have ih := ih fun e he => hl e (List.mem_cons_of_mem _ he)
    have ha := hl a List.mem_cons_self
    have key : ∀ c, (if q c then (((a :: l).filter fun e => e.1 = c).map (·.2)).sum * x c else 0) =
        (if c = a.1 then (if q a.1 then a.2 * x a.1 else 0) else 0) +
          (if q c then ((l.filter fun e => e.1 = c).map (·.2)).sum * x c else 0) := by
      intro c
      by_cases h : c = a.1
      · subst h; by_cases hq : q a.1 <;> simp [hq]; ring
      · have h' : ¬ a.1 = c := fun h2 => h h2.symm
        simp [h, h']
    rw [Finset.sum_congr rfl fun c _ => key c, Finset.sum_add_distrib, ← ih]
    rw [Finset.sum_ite_eq' (range m) a.1, if_pos (Finset.mem_range.2 ha)]
    by_cases hq : q a.1 <;> simp [hq]

variable {A : Csr R}

theorem row_lt (hwf : A.WF) (hsq : A.n = A.m) {i : Nat} (hi : i < A.m) : ∀ e, e ∈ A.row i → e.1 < A.m := by
  intro e he
  obtain ⟨j, h1, h2, rfl⟩ := Csr.mem_row.1 he
  have := hwf.ptr_le_nnz (i := i + 1) hi
  have := hwf.col_lt j (by omega)
  simp only; omega

theorem mulVec_entries (hwf : A.WF) (hsq : A.n = A.m) {i : Nat} (hi : i < A.m) (x : Nat → R) :
    A.mulVec x i = ∑ c ∈ range A.m, A.entry i c * x c := by
  rw [Props.mulVec_eq_row hwf hi]
  have := list_sum_entries (fun _ => True) x (A.row i) (row_lt hwf hsq hi)
  simpa [Csr.entry] using this

theorem lowMul_entries (hwf : A.WF) (hsq : A.n = A.m) {i : Nat} (hi : i < A.m) (x : Nat → R) :
    A.lowMul x i = ∑ c ∈ range A.m, if c < i then A.entry i c * x c else 0 :=
  list_sum_entries (fun c => c < i) x (A.row i) (row_lt hwf hsq hi)

theorem upMul_entries (hwf : A.WF) (hsq : A.n = A.m) {i : Nat} (hi : i < A.m) (x : Nat → R) :
    A.upMul x i = ∑ c ∈ range A.m, if i < c then A.entry i c * x c else 0 :=
  list_sum_entries (fun c => i < c) x (A.row i) (row_lt hwf hsq hi)

theorem mulVec_congr (hwf : A.WF) (hsq : A.n = A.m) {i : Nat} (hi : i < A.m) {x y : Nat → R}
    (h : ∀ c, c < A.m → x c = y c) : A.mulVec x i = A.mulVec y i := by
  rw [mulVec_entries hwf hsq hi, mulVec_entries hwf hsq hi]
  exact Finset.sum_congr rfl fun c hc => by rw [h c (Finset.mem_range.1 hc)]

theorem mulVec_lin (hwf : A.WF) (hsq : A.n = A.m) {i : Nat} (hi : i < A.m) {w x y : Nat → R} {a : R}
    (h : ∀ c, c < A.m → w c = x c + a * y c) : A.mulVec w i = A.mulVec x i + a * A.mulVec y i := by
  rw [mulVec_entries hwf hsq hi, mulVec_entries hwf hsq hi, mulVec_entries hwf hsq hi, Finset.mul_sum,
    ← Finset.sum_add_distrib]
  exact Finset.sum_congr rfl fun c hc => by rw [h c (Finset.mem_range.1 hc)]; ring

/-- A symmetric matrix is self-adjoint. -/
theorem dotN_mulVec_symm (hwf : A.WF) (hsq : A.n = A.m) (hs : A.Symm) (x y : Nat → R) :
    dotN A.m x (A.mulVec y) = dotN A.m y (A.mulVec x) := by
  have h : ∀ x y : Nat → R, dotN A.m x (A.mulVec y) =
      ∑ i ∈ range A.m, ∑ c ∈ range A.m, x i * (A.entry i c * y c) := fun x y =>
    Finset.sum_congr rfl fun i hi => by rw [mulVec_entries hwf hsq (Finset.mem_range.1 hi), Finset.mul_sum]
  rw [h, h, Finset.sum_comm]
  refine Finset.sum_congr rfl fun i hi => Finset.sum_congr rfl fun c hc => ?_
  rw [hs c i (Finset.mem_range.1 hc) (Finset.mem_range.1 hi)]; ring

/-- The transposed triangles of a symmetric matrix. -/
theorem dotN_low_up (hwf : A.WF) (hsq : A.n = A.m) (hs : A.Symm) (z y : Nat → R) :
    dotN A.m z (A.lowMul y) = dotN A.m y (A.upMul z) := by
  have h1 : dotN A.m z (A.lowMul y) =
      ∑ i ∈ range A.m, ∑ c ∈ range A.m, z i * (if c < i then A.entry i c * y c else 0) :=
    Finset.sum_congr rfl fun i hi => by rw [lowMul_entries hwf hsq (Finset.mem_range.1 hi), Finset.mul_sum]
  have h2 : dotN A.m y (A.upMul z) =
      ∑ i ∈ range A.m, ∑ c ∈ range A.m, y i * (if i < c then A.entry i c * z c else 0) :=
    Finset.sum_congr rfl fun i hi => by rw [upMul_entries hwf hsq (Finset.mem_range.1 hi), Finset.mul_sum]
  rw [h1, h2, Finset.sum_comm]
  refine Finset.sum_congr rfl fun i hi => Finset.sum_congr rfl fun c hc => ?_
  rw [hs c i (Finset.mem_range.1 hc) (Finset.mem_range.1 hi)]
  split <;> ring

/-- The inner product of a preconditioned residual with a residual, over the intermediate vectors. -/
theorem symGS_dot (hwf : A.WF) (hsq : A.n = A.m) (hs : A.Symm) {d z' r y y' : Nat → R}
    (hy : ∀ i, i < A.m → A.lowMul y i + d i * y i = r i)
    (hy' : ∀ i, i < A.m → d i * y' i = d i * z' i + A.upMul z' i) :
    dotN A.m z' r = ∑ i ∈ range A.m, d i * (y i * y' i) := by
  have h1 : dotN A.m z' r = dotN A.m z' (A.lowMul y) + ∑ i ∈ range A.m, z' i * (d i * y i) := by
    unfold dotN
    rw [← Finset.sum_add_distrib]
    exact Finset.sum_congr rfl fun i hi => by rw [← hy i (Finset.mem_range.1 hi)]; ring
  rw [h1, dotN_low_up hwf hsq hs]
  unfold dotN
  rw [← Finset.sum_add_distrib]
  refine Finset.sum_congr rfl fun i hi => ?_
  have := hy' i (Finset.mem_range.1 hi)
  linear_combination - (y i) * this

theorem symGS_symm (hwf : A.WF) (hsq : A.n = A.m) (hs : A.Symm) {d z z' r r' : Nat → R}
    (h : SymGS A d z r) (h' : SymGS A d z' r') : dotN A.m z' r = dotN A.m z r' := by
  obtain ⟨y, a, b⟩ := h
  obtain ⟨y', a', b'⟩ := h'
  rw [symGS_dot hwf hsq hs b a', symGS_dot hwf hsq hs b' a]
  exact Finset.sum_congr rfl fun _ _ => by ring

end ring

section ordered
variable [Field R] [LinearOrder R] [IsStrictOrderedRing R] {A : Csr R}

theorem diag_pos (hwf : A.WF) (hsq : A.n = A.m) (hpd : A.PosDef) {i : Nat} (hi : i < A.m) : 0 < A.entry i i := by
  have h := hpd (fun c => if c = i then 1 else 0) ⟨i, hi, by simp⟩
  unfold dotN at h
  rw [Finset.sum_eq_single i] at h
  · rw [mulVec_entries hwf hsq hi, Finset.sum_eq_single i] at h
    · simpa using h
    · intro c _ hc; simp [hc]
    · intro hc; exact absurd (Finset.mem_range.2 hi) hc
  · intro c _ hc; simp [hc]
  · intro hc; exact absurd (Finset.mem_range.2 hi) hc

theorem dotN_self_pos {n : Nat} {x : Nat → R} (h : ∃ i, i < n ∧ x i ≠ 0) : 0 < dotN n x x := by
  obtain ⟨i, hi, hx⟩ := h
  refine Finset.sum_pos' (fun c _ => mul_self_nonneg _) ⟨i, Finset.mem_range.2 hi, ?_⟩
  exact lt_of_le_of_ne (mul_self_nonneg _) (Ne.symm (mul_self_ne_zero.2 hx))

theorem symGS_pos (hwf : A.WF) (hsq : A.n = A.m) (hs : A.Symm) (hpd : A.PosDef) {d z r : Nat → R}
    (hd : ∀ i, i < A.m → d i = A.entry i i) (h : SymGS A d z r) (hr : ∃ i, i < A.m ∧ r i ≠ 0) : 0 < dotN A.m z r := by
  obtain ⟨y, a, b⟩ := h
  rw [symGS_dot hwf hsq hs b a]
  have hy : ∃ i, i < A.m ∧ y i ≠ 0 := by
    by_contra hc
    push Not at hc
    obtain ⟨i, hi, hri⟩ := hr
    apply hri
    rw [← b i hi, lowMul_entries hwf hsq hi, hc i hi, mul_zero, add_zero]
    exact Finset.sum_eq_zero fun c hcm => by rw [hc c (Finset.mem_range.1 hcm)]; simp
  obtain ⟨i, hi, hy⟩ := hy
  refine Finset.sum_pos' (fun c hc => ?_) ⟨i, Finset.mem_range.2 hi, ?_⟩
  · rw [hd c (Finset.mem_range.1 hc)]
    exact mul_nonneg (diag_pos hwf hsq hpd (Finset.mem_range.1 hc)).le (mul_self_nonneg _)
  · rw [hd i hi]
    exact mul_pos (diag_pos hwf hsq hpd hi) (lt_of_le_of_ne (mul_self_nonneg _) (Ne.symm (mul_self_ne_zero.2 hy)))

/-- A residual that is not zero gives a direction that is not zero and quotients that are defined. -/
theorem dotN_ne_zero {n : Nat} {x y : Nat → R} (h : dotN n x y ≠ 0) : ∃ i, i < n ∧ x i ≠ 0 := by
  by_contra hc
  push Not at hc
  exact h (Finset.sum_eq_zero fun i hi => by rw [hc i (Finset.mem_range.1 hi), zero_mul])

end ordered

/-- The scalar core: with `zr i j = z_i · r_j`, `zq i j = z_i · A p_j`, `pq i j = p_i · A p_j`. -/
theorem pcg_orth [Field R] {K : Nat} {zr zq pq : Nat → Nat → R} {α β : Nat → R}
    (h1 : ∀ i j, j < K → zr i (j + 1) = zr i j - α j * zq i j)
    (h2 : ∀ i j, i < K → pq (i + 1) j = zq (i + 1) j + β i * pq i j) (h3 : ∀ j, pq 0 j = zq 0 j)
    (hz : ∀ i j, i ≤ K → j ≤ K → zr i j = zr j i) (hp : ∀ i j, pq i j = pq j i)
    (ha : ∀ j, j < K → α j * pq j j = zr j j) (hb : ∀ j, j < K → β j * zr j j = zr (j + 1) (j + 1))
    (hn : ∀ j, j < K → zr j j ≠ 0) :
    ∀ n, n ≤ K → (∀ i j, i < j → j ≤ n → zr i j = 0) ∧ ∀ i j, i < j → j ≤ n → pq i j = 0 := by
  intro n
  induction n with
  | zero => intro _; exact ⟨fun i j h1 h2 => absurd h2 (by omega), fun i j h1 h2 => absurd h2 (by omega)⟩
  | succ n ih =>
    intro hK
    obtain ⟨ia, ib⟩ := ih (by omega)
    have hpq0 : ∀ i, i < n → pq i n = 0 := fun i hi => ib i n hi (Nat.le_refl _)
    -- z_i · A p_n for i ≤ n
    have hzq : ∀ i, i < n → zq i n = 0 := by
      intro i hi
      rcases i with _ | i
      · rw [← h3]; exact hpq0 0 hi
      · have := h2 i n (by omega)
        rw [hpq0 (i + 1) hi, hpq0 i (by omega)] at this
        linear_combination -this
    have hzqn : zq n n = pq n n := by
      rcases n with _ | n
      · exact (h3 0).symm
      · have := h2 n (n + 1) (by omega)
        rw [hpq0 n (by omega)] at this
        linear_combination -this
    have hA : ∀ i, i ≤ n → zr i (n + 1) = 0 := by
      intro i hi
      rw [h1 i n (by omega)]
      rcases Nat.lt_or_eq_of_le hi with h | rfl
      · rw [ia i n h (Nat.le_refl _), hzq i h]; ring
      · rw [hzqn, ha i (by omega)]; ring
    have ha0 : ∀ j, j < K → α j ≠ 0 := by
      intro j hj h0
      have := ha j hj
      rw [h0, zero_mul] at this
      exact hn j hj this.symm
    have hB : ∀ i, i ≤ n → pq i (n + 1) = 0 := by
      intro i hi
      rw [hp, h2 n i (by omega)]
      have e := h1 (n + 1) i (by omega)
      have e0 : zr (n + 1) i = 0 := by rw [hz _ _ hK (by omega)]; exact hA i hi
      rw [e0] at e
      rcases Nat.lt_or_eq_of_le hi with h | rfl
      · rw [hp n i, hpq0 i h]
        rw [hz _ _ hK (by omega), hA (i + 1) (by omega)] at e
        have : α i * zq (n + 1) i = 0 := by linear_combination e
        rcases mul_eq_zero.1 this with h' | h'
        · exact absurd h' (ha0 i (by omega))
        · rw [h']; ring
      · have hb' := hb i (by omega)
        have ha' := ha i (by omega)
        have hα := ha0 i (by omega)
        apply mul_left_cancel₀ hα
        linear_combination e + hb' + β i * ha'
    refine ⟨?_, ?_⟩
    · intro i j hij hj
      rcases Nat.lt_or_eq_of_le hj with h | rfl
      · exact ia i j hij (by omega)
      · exact hA i (by omega)
    · intro i j hij hj
      rcases Nat.lt_or_eq_of_le hj with h | rfl
      · exact ib i j hij (by omega)
      · exact hB i (by omega)

/-- At most `n` vectors of length `n` can pair with as many in a diagonal way. -/
theorem biorth_le [Field R] {n K : Nat} {z r : Nat → Nat → R}
    (h0 : ∀ i j, i < K → j < K → i ≠ j → dotN n (z i) (r j) = 0) (h1 : ∀ i, i < K → dotN n (z i) (r i) ≠ 0) : K ≤ n := by
  have hli : LinearIndependent R (fun (i : Fin K) (c : Fin n) => z i c) := by
    rw [Fintype.linearIndependent_iff]
    intro g hg j
    have hc : ∀ c, c < n → ∑ i : Fin K, g i * z i c = 0 := by
      intro c hc
      have := congrFun hg ⟨c, hc⟩
      simpa using this
    have : ∑ i : Fin K, g i * dotN n (z i) (r j) = 0 := by
      unfold dotN
      simp_rw [Finset.mul_sum]
      rw [Finset.sum_comm]
      refine Finset.sum_eq_zero fun c hcm => ?_
      have := hc c (Finset.mem_range.1 hcm)
      calc ∑ i : Fin K, g i * (z i c * r j c) = (∑ i : Fin K, g i * z i c) * r j c := by
            rw [Finset.sum_mul]; exact Finset.sum_congr rfl fun _ _ => by ring
        _ = 0 := by rw [this, zero_mul]
    rw [Finset.sum_eq_single j] at this
    · rcases mul_eq_zero.1 this with h | h
      · exact h
      · exact absurd h (h1 j j.2)
    · intro i _ hij
      rw [h0 i j i.2 j.2 (fun h => hij (Fin.ext h)), mul_zero]
    · intro h; exact absurd (Finset.mem_univ _) h
  have := hli.fintype_card_le_finrank
  simpa using this

section trace
variable [Field R] {A : Csr R} {M : (Nat → R) → (Nat → R) → Prop} {b : Nat → R} {K : Nat} {x r z p : Nat → Nat → R}

/-- The recursively updated residual is the true residual. -/
theorem trace_residual (hwf : A.WF) (hsq : A.n = A.m) (h : PcgTrace A M b K x r z p) :
    ∀ k, k ≤ K → ∀ i, i < A.m → r k i = b i - A.mulVec (x k) i := by
  intro k
  induction k with
  | zero => exact fun _ => h.start
  | succ k ih =>
    intro hk i hi
    rw [h.residual k (by omega) i hi, ih (by omega) i hi, mulVec_lin hwf hsq hi (h.iterate k (by omega))]
    ring

theorem trace_orth (hwf : A.WF) (hsq : A.n = A.m) (hs : A.Symm)
    (hM : ∀ z r z' r', M z r → M z' r' → dotN A.m z' r = dotN A.m z r') (h : PcgTrace A M b K x r z p) :
    (∀ i j, i < j → j ≤ K → dotN A.m (z i) (r j) = 0) ∧
      ∀ i j, i < j → j ≤ K → dotN A.m (p i) (A.mulVec (p j)) = 0 := by
  refine pcg_orth (K := K) (zr := fun i j => dotN A.m (z i) (r j)) (zq := fun i j => dotN A.m (z i) (A.mulVec (p j)))
    (pq := fun i j => dotN A.m (p i) (A.mulVec (p j)))
    (α := fun k => dotN A.m (r k) (z k) / dotN A.m (p k) (A.mulVec (p k)))
    (β := fun k => dotN A.m (r (k + 1)) (z (k + 1)) / dotN A.m (r k) (z k)) ?_ ?_ ?_ ?_ ?_ ?_ ?_ ?_ K (Nat.le_refl _)
  · intro i j hj
    have := dotN_lin A.m (r (j + 1)) (r j) (A.mulVec (p j))
      (-(dotN A.m (r j) (z j) / dotN A.m (p j) (A.mulVec (p j)))) (z i)
      (fun c hc => by rw [h.residual j hj c hc]; ring)
    rw [this]; ring
  · intro i j hi
    exact dotN_lin' A.m _ _ _ _ _ (h.direction i hi)
  · intro j
    exact dotN_congr h.first fun _ _ => rfl
  · intro i j hi hj
    exact hM _ _ _ _ (h.precond j hj) (h.precond i hi)
  · intro i j
    exact dotN_mulVec_symm hwf hsq hs _ _
  · intro j hj
    rw [div_mul_cancel₀ _ (h.defined j hj).1, dotN_comm]
  · intro j hj
    rw [dotN_comm A.m (z j), div_mul_cancel₀ _ (h.defined j hj).2, dotN_comm]
  · intro j hj
    rw [dotN_comm]
    exact (h.defined j hj).2

/-- `p_k · r_k = z_k · r_k`. -/
theorem trace_dir (h : PcgTrace A M b K x r z p) :
    ∀ k, k ≤ K → dotN A.m (p k) (r k) = dotN A.m (z k) (r k) := by
  intro k
  induction k with
  | zero => exact fun _ => dotN_congr h.first fun _ _ => rfl
  | succ k ih =>
    intro hk
    rw [dotN_lin' A.m _ _ _ _ (r (k + 1)) (h.direction k (by omega))]
    have h1 : dotN A.m (p k) (r (k + 1)) = 0 := by
      have := dotN_lin A.m (r (k + 1)) (r k) (A.mulVec (p k))
        (-(dotN A.m (r k) (z k) / dotN A.m (p k) (A.mulVec (p k)))) (p k)
        (fun c hc => by rw [h.residual k (by omega) c hc]; ring)
      rw [this, ih (by omega), dotN_comm A.m (z k)]
      have := (h.defined k (by omega)).1
      field_simp
      ring
    rw [h1]; ring

end trace

section spd
variable [Field R] [LinearOrder R] [IsStrictOrderedRing R] {A : Csr R} {M : (Nat → R) → (Nat → R) → Prop} {b : Nat → R} {K : Nat} {x r z p : Nat → Nat → R}

/-- As long as the residual is not zero the next step is defined. -/
theorem trace_defined (hpd : A.PosDef) (hM : Precond A.m M)
    (h : PcgTrace A M b K x r z p) (hr : ∃ i, i < A.m ∧ r K i ≠ 0) :
    dotN A.m (p K) (A.mulVec (p K)) ≠ 0 ∧ dotN A.m (r K) (z K) ≠ 0 := by
  have h1 := hM.pos _ _ (h.precond K (Nat.le_refl _)) hr
  have h2 := trace_dir h K (Nat.le_refl _)
  refine ⟨ne_of_gt (hpd _ (dotN_ne_zero (y := r K) ?_)), ?_⟩
  · rw [h2]; exact ne_of_gt h1
  · rw [dotN_comm]; exact ne_of_gt h1

/-- With residuals that are not zero there are at most `m` of them. -/
theorem trace_le (hwf : A.WF) (hsq : A.n = A.m) (hs : A.Symm) (hM : Precond A.m M)
    (h : PcgTrace A M b K x r z p) (hr : ∀ k, k ≤ K → ∃ i, i < A.m ∧ r k i ≠ 0) : K < A.m := by
  have ho := (trace_orth hwf hsq hs hM.symm h).1
  refine biorth_le (K := K + 1) (z := z) (r := r) ?_ ?_
  · intro i j hi hj hij
    rcases Nat.lt_or_gt_of_ne hij with h1 | h1
    · exact ho i j h1 (by omega)
    · rw [hM.symm _ _ _ _ (h.precond j (by omega)) (h.precond i (by omega))]
      exact ho j i h1 (by omega)
  · intro i hi
    exact ne_of_gt (hM.pos _ _ (h.precond i (by omega)) (hr i (by omega)))

/-- The energy norm of the error does not grow. -/
theorem trace_energy (hwf : A.WF) (hsq : A.n = A.m) (hs : A.Symm) (hpd : A.PosDef) (h : PcgTrace A M b K x r z p)
    {xs : Nat → R} (hxs : ∀ i, i < A.m → A.mulVec xs i = b i) {k : Nat} (hk : k < K) :
    dotN A.m (fun i => xs i - x (k + 1) i) (A.mulVec fun i => xs i - x (k + 1) i) <
      dotN A.m (fun i => xs i - x k i) (A.mulVec fun i => xs i - x k i) := by
  set α := dotN A.m (r k) (z k) / dotN A.m (p k) (A.mulVec (p k)) with hα
  have e1 : ∀ i, i < A.m → xs i - x (k + 1) i = (xs i - x k i) + (-α) * p k i := by
    intro i hi; rw [h.iterate k hk i hi]; ring
  have e2 : ∀ i, i < A.m → A.mulVec (fun i => xs i - x (k + 1) i) i =
      A.mulVec (fun i => xs i - x k i) i + (-α) * A.mulVec (p k) i := fun i hi => mulVec_lin hwf hsq hi e1
  have e3 : ∀ i, i < A.m → A.mulVec (fun i => xs i - x k i) i = r k i := by
    intro i hi
    rw [trace_residual hwf hsq h k (by omega) i hi, ← hxs i hi,
      mulVec_lin (a := -1) (x := xs) (y := x k) hwf hsq hi (fun c _ => by ring)]
    ring
  rw [dotN_lin A.m _ _ _ _ _ e2, dotN_lin' A.m _ _ _ _ _ e1, dotN_lin' A.m _ _ _ _ _ e1]
  rw [dotN_mulVec_symm hwf hsq hs (fun i => xs i - x k i) (p k)]
  rw [dotN_congr (x := p k) (y := A.mulVec fun i => xs i - x k i) (fun _ _ => rfl) e3, trace_dir h k (by omega)]
  have hdef := h.defined k hk
  have hp : 0 < dotN A.m (p k) (A.mulVec (p k)) := by
    refine hpd _ (dotN_ne_zero hdef.1)
  rw [dotN_comm A.m (z k)]
  have key : α * dotN A.m (p k) (A.mulVec (p k)) = dotN A.m (r k) (z k) := div_mul_cancel₀ _ hdef.1
  have hpos : 0 < α * α * dotN A.m (p k) (A.mulVec (p k)) := by
    have : α ≠ 0 := div_ne_zero hdef.2 hdef.1
    exact mul_pos (lt_of_le_of_ne (mul_self_nonneg _) (Ne.symm (mul_self_ne_zero.2 this))) hp
  rw [← key]
  linarith [hpos]

end spd
end SpMP
