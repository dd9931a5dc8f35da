import Verif.PcgIluRun
import Verif.Props.Pcg
/-
C61: the solver of test/pcg.cpp preconditioned by incomplete factors.
-/
namespace SpMP.Props
open Spec

set_option linter.unusedSectionVars false

variable {R : Type} [Races CArr]

section
variable [Field R] [LinearOrder R]

/-- What pcg_ilu0 is called with: the square matrix `A` with sorted rows is held base 0 in object 0, its diagptr points at the stored
diagonal entries, `x0` is in vector 0, `b` in vector 9, and the arrays have room (lu is vector 1, the arrays of LU are those of
object 3). -/
structure PcgIluInput (sz : CArr → Int) (m0 : Mem (CTy R)) (A : Csr R) (dp : Nat → Nat) (b x0 : Nat → R) : Prop where
  wf : A.WF
  square : A.n = A.m
  sorted : ∀ i, i < A.m → A.RowSorted i
  pat : HoldsPat m0 0 0 A
  val : HoldsVal m0 0 A
  diag : ∀ i : Nat, i < A.m → A.InRow i (dp i) ∧ A.col (dp i) = i ∧ m0 (.diagptr 0) (i : Int) = some ((dp i : Int))
  roomLu : (A.nnz : Int) ≤ sz (.vec 1)
  roomLU : SizesOk sz 3 A ⟨true, true, true, false, false⟩
  vx : ∀ i : Nat, i < A.m → m0 (.vec 0) (i : Int) = some (x0 i)
  vb : ∀ i : Nat, i < A.m → m0 (.vec 9) (i : Int) = some (b i)
  vroom : ∀ j, j ∈ [0, 2, 3, 4, 5, 6] → (A.m : Int) ≤ sz (.vec j)

theorem PcgIluInput.holds {sz : CArr → Int} {m0 : Mem (CTy R)} {A : Csr R} {dp : Nat → Nat} {b x0 : Nat → R}
    (h : PcgIluInput sz m0 A dp b x0) : HoldsDiag m0 0 0 A dp := fun i hi =>
  ⟨(h.diag i hi).1, (h.diag i hi).2.1, by rw [(h.diag i hi).2.2]; simp⟩

theorem PcgIluInput.split {sz : CArr → Int} {m0 : Mem (CTy R)} {A : Csr R} {dp : Nat → Nat} {b x0 : Nat → R}
    (h : PcgIluInput sz m0 A dp b x0) : SplitRows A dp fun i => A.ptr (i + 1) :=
  split_of_diag h.wf h.square h.sorted fun i hi => ⟨(h.diag i hi).1, (h.diag i hi).2.1⟩

variable [IsStrictOrderedRing R]

/-- C61, the preconditioner: for a symmetric matrix whose incomplete factors have positive pivots, applying the factors is a
symmetric positive definite operation, defined for every vector. -/
theorem C61_preconditioner {A : Csr R} {dp ep : Nat → Nat} (hwf : A.WF) (hsq : A.n = A.m) (hsp : SplitRows A dp ep)
    (hs : ∀ i, i < A.m → A.RowSorted i) (hsy : A.Symm) (hpat : SymPat A) (hpos : ∀ i, i < A.m → 0 < ilu0 A dp A.m A.val (dp i)) :
    Precond A.m (IluPrec A dp (ilu0 A dp A.m A.val)) := ilu_precond hwf hsq hsp hs hsy hpat hpos

/-- C61, the pivots: they are positive, and so no step of the factorisation divides by zero, if no entry off the diagonal is
positive, no row sum is negative, and every row has a positive sum or a negative entry right of the diagonal. -/
theorem C61_pivots {A : Csr R} {dp ep : Nat → Nat} (hwf : A.WF) (hsq : A.n = A.m) (hsp : SplitRows A dp ep)
    (hs : ∀ i, i < A.m → A.RowSorted i) (hoff : ∀ i c, i < A.m → c < A.m → i ≠ c → A.entry i c ≤ 0)
    (hdom : ∀ i, i < A.m → 0 ≤ ∑ c ∈ Finset.range A.m, A.entry i c)
    (hstr : ∀ i, i < A.m → 0 < ∑ c ∈ Finset.range A.m, A.entry i c ∨ ∃ c, i < c ∧ c < A.m ∧ A.entry i c < 0) :
    ∀ i, i < A.m → 0 < ilu0 A dp A.m A.val (dp i) := ilu_pivots hwf hsq hsp hs hoff hdom hstr

/-- What the specification reports is the relative residual of the returned vector. -/
theorem ends_residual {A : Csr R} {M : (Nat → R) → (Nat → R) → Prop} {b x0 xf : Nat → R} {nrm : R → R} {tol : R} {maxiter : Nat}
    {res : Nat × R} (hwf : A.WF) (hsq : A.n = A.m) (h : PcgEnds A M b x0 nrm tol maxiter res xf) (hmax : 0 < maxiter) :
    res.2 = nrm (dotN A.m (fun i => b i - A.mulVec xf i) fun i => b i - A.mulVec xf i) /
      nrm (dotN A.m (fun i => b i - A.mulVec x0 i) fun i => b i - A.mulVec x0 i) := by
  obtain ⟨K, x, r, z, p, htr, hx0, a1, a2, _, a4⟩ := h
  have hres := trace_residual hwf hsq htr
  have e0 : dotN A.m (r 0) (r 0) = dotN A.m (fun i => b i - A.mulVec x0 i) fun i => b i - A.mulVec x0 i := by
    have : ∀ i, i < A.m → r 0 i = b i - A.mulVec x0 i := fun i hi => by
      rw [hres 0 (by omega) i hi, mulVec_congr hwf hsq hi hx0]
    exact dotN_congr this this
  have eK : dotN A.m (r K) (r K) = dotN A.m (fun i => b i - A.mulVec xf i) fun i => b i - A.mulVec xf i := by
    have : ∀ i, i < A.m → r K i = b i - A.mulVec xf i := fun i hi => by
      rw [hres K (by omega) i hi, mulVec_congr hwf hsq hi a2]
    exact dotN_congr this this
  rw [← e0, ← eK]
  rcases a4 with ⟨q1, _⟩ | ⟨q1, q2, _⟩
  · rw [q1]
  · rw [q1, if_neg (by omega)]

/-- C61 (exact arithmetic, symmetric positive definite matrices with symmetric pattern and positive pivots, base 0, `x0` not already
the solution): for every team and every sharing of the inner products, pcg_ilu0 never divides by zero, follows the textbook method
preconditioned by the incomplete factors, and reports what the specification says; the value reported is the relative residual of the
`x` it returns; the matrix and `b` are unchanged. -/
theorem C61_pcg_ilu0_partial {sz : CArr → Int} {T : Nat} {sh : Nat → Share} {nrm : R → R} {tol : R} {A : Csr R} {dp : Nat → Nat}
    {b x0 : Nat → R} {maxiter : Nat} {m0 : Mem (CTy R)} (hT : 1 ≤ T) (hin : PcgIluInput sz m0 A dp b x0) (hs : A.Symm) (hpat : SymPat A)
    (hpd : A.PosDef) (hpos : ∀ i, i < A.m → 0 < ilu0 A dp A.m A.val (dp i)) (hr0 : ∃ i, i < A.m ∧ b i ≠ A.mulVec x0 i)
    (hsh : ∀ n, (sh n).Covers T A.m) (hn0 : nrm 0 = 0) (hnp : ∀ v, 0 < v → 0 < nrm v) (htol : 0 < tol) :
    (pcgIlu0 sz T A.m sh nrm tol maxiter).Ok m0 (fun res m => ∃ xf : Nat → R,
      (∀ i : Nat, i < A.m → m (.vec 0) (i : Int) = some (xf i)) ∧
      PcgEnds A (IluPrec A dp (ilu0 A dp A.m A.val)) b x0 nrm tol maxiter res xf ∧
      (0 < maxiter → res.2 = nrm (dotN A.m (fun i => b i - A.mulVec xf i) fun i => b i - A.mulVec xf i) /
        nrm (dotN A.m (fun i => b i - A.mulVec x0 i) fun i => b i - A.mulVec x0 i)) ∧
      (∀ a, a.ofObj 0 → m a = m0 a) ∧ m (.vec 9) = m0 (.vec 9)) := by
  refine Script.Ok.mono (pcgIlu0_ok hT hin.wf hin.square hin.sorted hs hpat hpd hpos hin.pat hin.val hin.holds hin.roomLu hin.roomLU
    hin.vx hin.vb hr0 hsh hn0 hnp htol hin.vroom) ?_
  rintro res m ⟨⟨xf, h1, h2⟩, _, h3⟩
  refine ⟨xf, h1, h2, ends_residual hin.wf hin.square h2, ?_,
    h3 _ (by simp [CArr.ofObj]) (by simp [CArr.ofObj]) (by simp [CArr.ofObj]) (by simp) (by simp) (by simp)⟩
  intro a ha
  cases a <;> first | exact (ha : False).elim | (cases (ha : _ = 0); exact h3 _ (by simp [CArr.ofObj]) (by simp [CArr.ofObj]) (by simp [CArr.ofObj]) (by simp) (by simp) (by simp))

/-- C61, convergence: with at least as many iterations allowed as the matrix has rows, the solver returns by its criterion, and
the returned `x` satisfies it. -/
theorem C61_converges_partial {sz : CArr → Int} {T : Nat} {sh : Nat → Share} {nrm : R → R} {tol : R} {A : Csr R} {dp : Nat → Nat}
    {b x0 : Nat → R} {maxiter : Nat} {m0 : Mem (CTy R)} (hT : 1 ≤ T) (hin : PcgIluInput sz m0 A dp b x0) (hs : A.Symm) (hpat : SymPat A)
    (hpd : A.PosDef) (hpos : ∀ i, i < A.m → 0 < ilu0 A dp A.m A.val (dp i)) (hr0 : ∃ i, i < A.m ∧ b i ≠ A.mulVec x0 i)
    (hsh : ∀ n, (sh n).Covers T A.m) (hn0 : nrm 0 = 0) (hnp : ∀ v, 0 < v → 0 < nrm v) (htol : 0 < tol) (hmax : A.m ≤ maxiter) :
    (pcgIlu0 sz T A.m sh nrm tol maxiter).Ok m0 (fun res m => ∃ xf : Nat → R,
      (∀ i : Nat, i < A.m → m (.vec 0) (i : Int) = some (xf i)) ∧ res.1 ≤ A.m ∧
      nrm (dotN A.m (fun i => b i - A.mulVec xf i) fun i => b i - A.mulVec xf i) /
        nrm (dotN A.m (fun i => b i - A.mulVec x0 i) fun i => b i - A.mulVec x0 i) < tol) := by
  refine Script.Ok.mono (C61_pcg_ilu0_partial hT hin hs hpat hpd hpos hr0 hsh hn0 hnp htol) ?_
  rintro res m ⟨xf, h1, h2, h3, _⟩
  have hM := ilu_precond hin.wf hin.square hin.split hin.sorted hs hpat hpos
  have hlt := pcgEnds_maxiter hin.wf hin.square hs hM hn0 htol hr0 hmax h2
  refine ⟨xf, h1, pcgEnds_count hin.wf hin.square hs hM hn0 htol hr0 hlt h2 hmax, ?_⟩
  obtain ⟨i, hi, _⟩ := hr0
  rw [← h3 (by omega)]
  exact hlt

/-- C61, determinism: the answer does not depend on the team, the sharing or the interleaving. -/
theorem C61_deterministic {nrm : R → R} {tol : R} {A : Csr R} {dp ep : Nat → Nat} {b x0 : Nat → R} {maxiter : Nat} (hwf : A.WF) (hsq : A.n = A.m)
    (hsp : SplitRows A dp ep) (hs : ∀ i, i < A.m → A.RowSorted i) (hsy : A.Symm) (hpat : SymPat A)
    (hpos : ∀ i, i < A.m → 0 < ilu0 A dp A.m A.val (dp i)) {res res' : Nat × R} {xf xf' : Nat → R}
    (h : PcgEnds A (IluPrec A dp (ilu0 A dp A.m A.val)) b x0 nrm tol maxiter res xf)
    (h' : PcgEnds A (IluPrec A dp (ilu0 A dp A.m A.val)) b x0 nrm tol maxiter res' xf') : res = res' ∧ ∀ i, i < A.m → xf i = xf' i :=
  pcgEnds_unique hwf hsq (ilu_precond hwf hsq hsp hs hsy hpat hpos).unique h h'

end

/-! ### Instances -/

/-- The matrix (2 -1 0; -1 2 -1; 0 -1 2). -/
def lapCsr : Csr Rat where
  m := 3
  n := 3
  ptr := fun i => ([0, 2, 5, 7] : List Nat).getD i 7
  col := fun j => ([0, 1, 0, 1, 2, 1, 2] : List Nat).getD j 0
  val := fun j => ([2, -1, -1, 2, -1, -1, 2] : List Rat).getD j 0

/-- Positions of its diagonal. -/
def lapDp : Nat → Nat := fun i => ([0, 3, 6] : List Nat).getD i 0

theorem lapCsr_wf : lapCsr.WF := by
  refine ⟨rfl, ?_, ?_⟩
  · have : ∀ i < 3, lapCsr.ptr i ≤ lapCsr.ptr (i + 1) := by decide
    exact fun i hi => this i hi
  · have : ∀ j < 7, lapCsr.col j < 3 := by decide
    exact fun j hj => this j hj

/-- A row of a small matrix is sorted, checked position by position. -/
theorem sorted_of_check {A : Csr Rat} (h : ∀ i < A.m, ∀ j' < A.ptr (i + 1), ∀ j < j', A.ptr i ≤ j → A.col j < A.col j') :
    ∀ i, i < A.m → A.RowSorted i := fun i hi j j' h1 h2 h3 => h i hi j' h3 j h2 h1

theorem lapCsr_sorted : ∀ i, i < lapCsr.m → lapCsr.RowSorted i := sorted_of_check (by decide)

theorem lapCsr_diag : ∀ i, i < lapCsr.m → lapCsr.InRow i (lapDp i) ∧ lapCsr.col (lapDp i) = i := by
  have : ∀ i < 3, (i < 3 ∧ lapCsr.ptr i ≤ lapDp i ∧ lapDp i < lapCsr.ptr (i + 1)) ∧ lapCsr.col (lapDp i) = i := by decide
  exact fun i hi => this i hi

/-- Symmetry of a small matrix, checked entry by entry. -/
theorem symm_of_check {A : Csr Rat} (h : ∀ i < A.m, ∀ c < A.m, A.entry i c = A.entry c i) : A.Symm := fun i c hi hc => h i hi c hc

theorem lapCsr_symm : lapCsr.Symm := symm_of_check (by decide +kernel)

/-- The pattern is symmetric if every stored entry is nonzero and the matrix is symmetric; checked entry by entry. -/
theorem symPat_of_check {A : Csr Rat} (hwf : A.WF) (h : ∀ i < A.m, ∀ j < A.m, (∃ p < A.nnz, (A.ptr i ≤ p ∧ p < A.ptr (i + 1)) ∧ A.col p = j) →
    ∃ p < A.nnz, (A.ptr j ≤ p ∧ p < A.ptr (j + 1)) ∧ A.col p = i) : SymPat A := by
  rintro i j hi hj ⟨p, hp, hc⟩
  obtain ⟨q, _, hq, hqc⟩ := h i hi j hj ⟨p, hp.lt_nnz hwf, ⟨hp.2.1, hp.2.2⟩, hc⟩
  exact ⟨q, ⟨hj, hq.1, hq.2⟩, hqc⟩

theorem lapCsr_symPat : SymPat lapCsr := symPat_of_check lapCsr_wf (by decide +kernel)

theorem lapCsr_mulVec (x : Nat → Rat) : lapCsr.mulVec x 0 = 2 * x 0 - x 1 ∧ lapCsr.mulVec x 1 = - x 0 + 2 * x 1 - x 2 ∧
    lapCsr.mulVec x 2 = - x 1 + 2 * x 2 := by
  have e0 : lapCsr.row 0 = [(0, 2), (1, -1)] := by decide +kernel
  have e1 : lapCsr.row 1 = [(0, -1), (1, 2), (2, -1)] := by decide +kernel
  have e2 : lapCsr.row 2 = [(1, -1), (2, 2)] := by decide +kernel
  rw [mulVec_eq_row lapCsr_wf (i := 0) (by decide), mulVec_eq_row lapCsr_wf (i := 1) (by decide), mulVec_eq_row lapCsr_wf (i := 2) (by decide),
    e0, e1, e2]
  simp
  refine ⟨?_, ?_⟩ <;> ring

theorem lapCsr_posDef : lapCsr.PosDef := by
  intro x hx
  obtain ⟨h0, h1, h2⟩ := lapCsr_mulVec x
  have e : dotN lapCsr.m x (lapCsr.mulVec x) = x 0 * x 0 + (x 0 - x 1) * (x 0 - x 1) + (x 1 - x 2) * (x 1 - x 2) + x 2 * x 2 := by
    show ∑ i ∈ Finset.range 3, _ = _
    rw [Finset.sum_range_succ, Finset.sum_range_succ, Finset.sum_range_succ, h0, h1, h2]; simp; ring
  rw [e]
  have g0 := mul_self_nonneg (x 0)
  have g1 := mul_self_nonneg (x 0 - x 1)
  have g2 := mul_self_nonneg (x 1 - x 2)
  have g3 := mul_self_nonneg (x 2)
  by_contra hc
  have hc := not_lt.1 hc
  have k0 : x 0 = 0 := mul_self_eq_zero.1 (by linarith)
  have k2 : x 2 = 0 := mul_self_eq_zero.1 (by linarith)
  have k1 : x 0 - x 1 = 0 := mul_self_eq_zero.1 (by linarith)
  obtain ⟨i, hi, h⟩ := hx
  change i < 3 at hi
  obtain rfl | rfl | rfl : i = 0 ∨ i = 1 ∨ i = 2 := by omega
  · exact h k0
  · exact h (by linarith)
  · exact h k2

/-- The hypotheses of C61_pivots can be met, with a row (the second) whose sum is 0. -/
theorem lapCsr_pivots : ∀ i, i < lapCsr.m → 0 < ilu0 lapCsr lapDp lapCsr.m lapCsr.val (lapDp i) := by
  refine C61_pivots lapCsr_wf rfl (split_of_diag lapCsr_wf rfl lapCsr_sorted lapCsr_diag) lapCsr_sorted ?_ ?_ ?_
  · have : ∀ i < 3, ∀ c < 3, i ≠ c → lapCsr.entry i c ≤ 0 := by decide +kernel
    exact fun i c hi hc => this i hi c hc
  · have : ∀ i < 3, 0 ≤ ∑ c ∈ Finset.range 3, lapCsr.entry i c := by decide +kernel
    exact fun i hi => this i hi
  · have : ∀ i < 3, 0 < ∑ c ∈ Finset.range 3, lapCsr.entry i c ∨ ∃ c < 3, i < c ∧ lapCsr.entry i c < 0 := by decide +kernel
    intro i hi
    rcases this i hi with h | ⟨c, h1, h2, h3⟩
    · exact Or.inl h
    · exact Or.inr ⟨c, h2, h1, h3⟩

/-- A memory with `A`, its diagptr, `x` and `b`. -/
def pcgIluMem (base : Nat) (A : Csr Rat) (dp : Nat → Nat) (x b : Nat → Rat) : Mem (CTy Rat) :=
  withVec (withVec (csrMem 0 base A dp (fun _ => 0)) 0 A.m x) 9 A.m b

theorem pcgIluMem_input {A : Csr Rat} {dp : Nat → Nat} {x b : Nat → Rat} (hwf : A.WF) (hsq : A.n = A.m)
    (hs : ∀ i, i < A.m → A.RowSorted i) (hd : ∀ i, i < A.m → A.InRow i (dp i) ∧ A.col (dp i) = i) {sz : CArr → Int}
    (hsz : ∀ a, (A.m : Int) + 1 ≤ sz a ∧ (A.nnz : Int) ≤ sz a) : PcgIluInput sz (pcgIluMem 0 A dp x b) A dp b x where
  wf := hwf
  square := hsq
  sorted := hs
  pat := withVec_pat (withVec_pat (csrMem_pat 0 0 A _ _))
  val := csrMem_val 0 0 A dp (fun _ => 0)
  diag := fun i hi => ⟨(hd i hi).1, (hd i hi).2, by simp [pcgIluMem, withVec, csrMem, hi]⟩
  roomLu := (hsz _).2
  roomLU := ⟨(hsz _).1, (hsz _).2, fun _ => (hsz _).2, fun _ => by have := (hsz (.diagptr 3)).1; omega,
    fun _ => by have := (hsz (.idiag 3)).1; omega, by simp, by simp⟩
  vx := fun i hi => withVec_get (v := 0) (m := csrMem 0 0 A dp (fun _ => 0)) hi
  vb := fun i hi => withVec_get hi
  vroom := fun j _ => by have := (hsz (.vec j)).1; omega

/-- Two threads for three iterations. -/
def triShare : Share := ⟨fun t => if t = 0 then [0, 1] else [2], .node (.leaf 1) (.node (.leaf 2) (.leaf 0))⟩

theorem triShare_covers : triShare.Covers 2 3 := by
  refine ⟨?_, ?_⟩
  · show List.Perm ([0, 1, 2] : List Nat) [0, 1, 2]
    decide
  · show List.Perm ([1, 2, 0] : List Nat) [0, 1, 2]
    decide

/-- The hypotheses of C61_converges_partial can be met: the Laplacian, `b = (1, 1, 1)`, `x0 = (0, 1, 2)`. -/
example : (pcgIlu0 (fun _ => 7) 2 lapCsr.m (fun _ => triShare) id (1 / 1000) 3).Ok
    (pcgIluMem 0 lapCsr lapDp (fun i => i) (fun _ => 1)) (fun res m => ∃ xf : Nat → Rat,
      (∀ i : Nat, i < 3 → m (.vec 0) (i : Int) = some (xf i)) ∧ res.1 ≤ 3 ∧
      id (dotN 3 (fun i => 1 - lapCsr.mulVec xf i) fun i => 1 - lapCsr.mulVec xf i) /
        id (dotN 3 (fun i => 1 - lapCsr.mulVec (fun i => (i : Rat)) i) fun i => 1 - lapCsr.mulVec (fun i => (i : Rat)) i) <
        (1 / 1000 : Rat)) :=
  C61_converges_partial (A := lapCsr) (b := fun _ => 1) (x0 := fun i => (i : Rat)) (by decide)
    (pcgIluMem_input lapCsr_wf rfl lapCsr_sorted lapCsr_diag (fun _ => by decide)) lapCsr_symm lapCsr_symPat lapCsr_posDef lapCsr_pivots
    ⟨0, by decide, by rw [(lapCsr_mulVec _).1]; norm_num⟩ (fun _ => triShare_covers) rfl (fun v h => h) (by norm_num) (Nat.le_refl _)

/-! ### Where it fails -/

/-- Kershaw's matrix (3 -2 0 2; -2 3 -2 0; 0 -2 3 -2; 2 0 -2 3). -/
def kershaw : Csr Rat where
  m := 4
  n := 4
  ptr := fun i => 3 * i
  col := fun j => ([0, 1, 3, 0, 1, 2, 1, 2, 3, 0, 2, 3] : List Nat).getD j 0
  val := fun j => ([3, -2, 2, -2, 3, -2, -2, 3, -2, 2, -2, 3] : List Rat).getD j 0

/-- Positions of its diagonal. -/
def kershawDp : Nat → Nat := fun i => ([0, 4, 7, 11] : List Nat).getD i 0

theorem kershaw_wf : kershaw.WF := by
  refine ⟨rfl, ?_, ?_⟩
  · have : ∀ i < 4, kershaw.ptr i ≤ kershaw.ptr (i + 1) := by decide
    exact fun i hi => this i hi
  · have : ∀ j < 12, kershaw.col j < 4 := by decide
    exact fun j hj => this j hj

theorem kershaw_mulVec (x : Nat → Rat) : kershaw.mulVec x 0 = 3 * x 0 - 2 * x 1 + 2 * x 3 ∧ kershaw.mulVec x 1 = - 2 * x 0 + 3 * x 1 - 2 * x 2 ∧
    kershaw.mulVec x 2 = - 2 * x 1 + 3 * x 2 - 2 * x 3 ∧ kershaw.mulVec x 3 = 2 * x 0 - 2 * x 2 + 3 * x 3 := by
  have e0 : kershaw.row 0 = [(0, 3), (1, -2), (3, 2)] := by decide +kernel
  have e1 : kershaw.row 1 = [(0, -2), (1, 3), (2, -2)] := by decide +kernel
  have e2 : kershaw.row 2 = [(1, -2), (2, 3), (3, -2)] := by decide +kernel
  have e3 : kershaw.row 3 = [(0, 2), (2, -2), (3, 3)] := by decide +kernel
  rw [mulVec_eq_row kershaw_wf (i := 0) (by decide), mulVec_eq_row kershaw_wf (i := 1) (by decide), mulVec_eq_row kershaw_wf (i := 2) (by decide),
    mulVec_eq_row kershaw_wf (i := 3) (by decide), e0, e1, e2, e3]
  simp
  refine ⟨?_, ?_, ?_, ?_⟩ <;> ring

theorem kershaw_posDef : kershaw.PosDef := by
  intro x hx
  obtain ⟨h0, h1, h2, h3⟩ := kershaw_mulVec x
  have e : dotN kershaw.m x (kershaw.mulVec x) = 3 * ((x 0 - 2 / 3 * x 1 + 2 / 3 * x 3) * (x 0 - 2 / 3 * x 1 + 2 / 3 * x 3)) +
      5 / 3 * ((x 1 - 6 / 5 * x 2 + 4 / 5 * x 3) * (x 1 - 6 / 5 * x 2 + 4 / 5 * x 3)) +
      3 / 5 * ((x 2 - 2 / 3 * x 3) * (x 2 - 2 / 3 * x 3)) + 1 / 3 * (x 3 * x 3) := by
    show ∑ i ∈ Finset.range 4, _ = _
    rw [Finset.sum_range_succ, Finset.sum_range_succ, Finset.sum_range_succ, Finset.sum_range_succ, h0, h1, h2, h3]; simp; ring
  rw [e]
  have g0 := mul_self_nonneg (x 0 - 2 / 3 * x 1 + 2 / 3 * x 3)
  have g1 := mul_self_nonneg (x 1 - 6 / 5 * x 2 + 4 / 5 * x 3)
  have g2 := mul_self_nonneg (x 2 - 2 / 3 * x 3)
  have g3 := mul_self_nonneg (x 3)
  by_contra hc
  have hc := not_lt.1 hc
  have k3 : x 3 = 0 := mul_self_eq_zero.1 (by linarith)
  have k2 : x 2 - 2 / 3 * x 3 = 0 := mul_self_eq_zero.1 (by linarith)
  have k1 : x 1 - 6 / 5 * x 2 + 4 / 5 * x 3 = 0 := mul_self_eq_zero.1 (by linarith)
  have k0 : x 0 - 2 / 3 * x 1 + 2 / 3 * x 3 = 0 := mul_self_eq_zero.1 (by linarith)
  obtain ⟨i, hi, h⟩ := hx
  change i < 4 at hi
  obtain rfl | rfl | rfl | rfl : i = 0 ∨ i = 1 ∨ i = 2 ∨ i = 3 := by omega
  · exact h (by linarith)
  · exact h (by linarith)
  · exact h (by linarith)
  · exact h k3

theorem kershaw_split : SplitRows kershaw kershawDp fun i => kershaw.ptr (i + 1) := by
  refine split_of_diag kershaw_wf rfl (sorted_of_check (by decide)) ?_
  have : ∀ i < 4, (i < 4 ∧ kershaw.ptr i ≤ kershawDp i ∧ kershawDp i < kershaw.ptr (i + 1)) ∧ kershaw.col (kershawDp i) = i := by decide
  exact fun i hi => this i hi

/-- C61_preconditioner without the condition on the pivots is false: the incomplete factors of a symmetric positive definite matrix can
have a negative pivot, and then the preconditioner is not positive definite. -/
theorem C61_positive_definite_false :
    ¬ (∀ (A : Csr Rat) (dp ep : Nat → Nat), A.WF → A.n = A.m → SplitRows A dp ep → (∀ i, i < A.m → A.RowSorted i) → A.Symm → SymPat A →
      A.PosDef → Precond A.m (IluPrec A dp (ilu0 A dp A.m A.val))) := by
  intro h
  have hP := h kershaw kershawDp _ kershaw_wf rfl kershaw_split (sorted_of_check (by decide)) (symm_of_check (by decide +kernel))
    (symPat_of_check kershaw_wf (by decide +kernel)) kershaw_posDef
  have h1 : ∀ i < 4, ∑ j ∈ Finset.Ico (kershawDp i) (kershaw.ptr (i + 1)), ilu0 kershaw kershawDp 4 kershaw.val j *
      ([-2 / 5, -4 / 5, -2 / 3, -1 / 5] : List Rat).getD (kershaw.col j) 0 = ([0, 0, 0, 1] : List Rat).getD i 0 := by decide +kernel
  have h2 : ∀ i < 4, ∑ j ∈ Finset.Ico (kershaw.ptr i) (kershawDp i), ilu0 kershaw kershawDp 4 kershaw.val j *
      ([0, 0, 0, 1] : List Rat).getD (kershaw.col j) 0 + ([0, 0, 0, 1] : List Rat).getD i 0 = ([0, 0, 0, 1] : List Rat).getD i 0 := by decide +kernel
  have h3 := hP.pos (fun i => ([-2 / 5, -4 / 5, -2 / 3, -1 / 5] : List Rat).getD i 0) (fun i => ([0, 0, 0, 1] : List Rat).getD i 0)
    ⟨fun i => ([0, 0, 0, 1] : List Rat).getD i 0, fun i hi => h1 i hi, fun i hi => h2 i hi⟩ ⟨3, by decide, by decide⟩
  exact absurd h3 (by decide +kernel)

end SpMP.Props
