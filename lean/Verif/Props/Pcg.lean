import Verif.PcgRun
import Verif.Checks
import Verif.Props.Split
import Verif.Props.Linear
import Verif.Props.MMCrd
import Mathlib.Algebra.Order.Ring.Rat
import Mathlib.Tactic.Linarith
/-
C60: the preconditioned conjugate gradient solver of test/pcg.cpp.
-/
namespace SpMP.Props
open Spec

set_option linter.unusedSectionVars false

variable {R : Type} [Races CArr]

/-- C60, the inner product: with exact arithmetic `dot` returns the sum of the products of the components, for every team,
every sharing of the iterations among the threads and every order of combining the private sums; it changes nothing. -/
theorem C60_dot [CommRing R] {sz : CArr → Int} {T x y n : Nat} {sh : Share} {m : Mem (CTy R)} {xv yv : Nat → R}
    (hsh : ((List.range T).flatMap sh.its).Perm (List.range n) ∧ sh.tree.Admissible T)
    (hx : ∀ i : Nat, i < n → m (.vec x) (i : Int) = some (xv i))
    (hy : ∀ i : Nat, i < n → m (.vec y) (i : Int) = some (yv i)) :
    (dotV sz T x y sh).Ok m (fun r m' => r = ∑ i ∈ Finset.range n, xv i * yv i ∧ m' = m) :=
  dotV_ok hsh hx hy ⟨rfl, rfl⟩

section
variable [Field R] [LinearOrder R]

/-- What pcg_symgs is called with: `A` is held base 0 in object 0 with its inverse diagonal `e`, `x0` and `b` are in the
vectors, and the arrays have room. -/
structure PcgInput (sz : CArr → Int) (m0 : Mem (CTy R)) (A : Csr R) (o : Opt) (ep : Nat → Nat) (e b x0 : Nat → R) : Prop where
  wf : A.WF
  square : A.n = A.m
  pat : HoldsPat m0 0 0 A
  val : HoldsVal m0 0 A
  room : SizesOk sz 0 A o
  ext : HoldsExt m0 0 0 A o.extptr ep
  extUp : ∀ i j, i < A.m → ep i ≤ j → j < A.ptr (i + 1) → i < A.col j
  diagptr : o.diagptr → ∀ i : Nat, i < A.m → ∃ v, m0 (.diagptr 0) (i : Int) = some v
  idiag : ∀ i : Nat, i < A.m → m0 (.idiag 0) (i : Int) = some (e i)
  inv : ∀ i : Nat, i < A.m → e i * A.entry i i = 1
  vx : ∀ i : Nat, i < A.m → m0 (.vec 0) (i : Int) = some (x0 i)
  vb : ∀ i : Nat, i < A.m → m0 (.vec 1) (i : Int) = some (b i)
  vroom : ∀ j, j ∈ [0, 2, 3, 4, 5, 6] → (A.m : Int) ≤ sz (.vec j)

variable [IsStrictOrderedRing R]

/-- C60 (exact arithmetic, symmetric positive definite matrices, base 0, `x0` not already the solution): for every team and
every sharing of the inner products, pcg_symgs never divides by zero, follows the textbook method, and reports what the
specification says; the residual it has updated is the residual `b - A x` of the `x` it returns; the matrix and `b` are
unchanged. -/
theorem C60_pcg_partial {sz : CArr → Int} {T : Nat} {sh : Nat → Share} {nrm : R → R} {tol : R} {A : Csr R} {o : Opt}
    {ep : Nat → Nat} {e b x0 : Nat → R} {maxiter : Nat} {m0 : Mem (CTy R)} (hT : 1 ≤ T)
    (hin : PcgInput sz m0 A o ep e b x0) (hs : A.Symm) (hpd : A.PosDef) (hr0 : ∃ i, i < A.m ∧ b i ≠ A.mulVec x0 i)
    (hsh : ∀ n, (sh n).Covers T A.m) (hn0 : nrm 0 = 0) (hnp : ∀ v, 0 < v → 0 < nrm v) (htol : 0 < tol) :
    (pcgSymgs sz T A.m o sh nrm tol maxiter).Ok m0 (fun res m => ∃ xf : Nat → R,
      (∀ i : Nat, i < A.m → m (.vec 0) (i : Int) = some (xf i)) ∧
      PcgEnds A (SymGS A fun i => A.entry i i) b x0 nrm tol maxiter res xf ∧
      (0 < maxiter → res.2 = nrm (dotN A.m (fun i => b i - A.mulVec xf i) fun i => b i - A.mulVec xf i) /
        nrm (dotN A.m (fun i => b i - A.mulVec x0 i) fun i => b i - A.mulVec x0 i)) ∧
      (∀ a, a.ofObj 0 → m a = m0 a) ∧ m (.vec 1) = m0 (.vec 1)) := by
  refine Script.Ok.mono (pcgSymgs_ok (d := fun i => A.entry i i) (ep := ep) hT hin.wf hin.square hs hpd
    (fun _ _ => rfl) hin.inv hin.pat hin.val hin.room hin.ext hin.extUp hin.diagptr hin.idiag hin.vx hin.vb hr0 hsh hn0
    hnp htol hin.vroom) ?_
  rintro res m ⟨⟨xf, h1, h2⟩, h3⟩
  refine ⟨xf, h1, h2, ?_, ?_, h3 _ (by simp [CArr.ofObj]) (by simp [CArr.ofObj]) (by simp) (by simp) (by simp) (by simp)⟩
  · intro hmax
    obtain ⟨K, x, r, z, p, htr, hx0, a1, a2, _, a4⟩ := h2
    have hres := trace_residual hin.wf hin.square htr
    have e0 : dotN A.m (r 0) (r 0) = dotN A.m (fun i => b i - A.mulVec x0 i) fun i => b i - A.mulVec x0 i := by
      have : ∀ i, i < A.m → r 0 i = b i - A.mulVec x0 i := fun i hi => by
        rw [hres 0 (by omega) i hi, mulVec_congr hin.wf hin.square hi hx0]
      exact dotN_congr this this
    have eK : dotN A.m (r K) (r K) = dotN A.m (fun i => b i - A.mulVec xf i) fun i => b i - A.mulVec xf i := by
      have : ∀ i, i < A.m → r K i = b i - A.mulVec xf i := fun i hi => by
        rw [hres K (by omega) i hi, mulVec_congr hin.wf hin.square hi a2]
      exact dotN_congr this this
    rw [← e0, ← eK]
    rcases a4 with ⟨q1, _⟩ | ⟨q1, q2, _⟩
    · rw [q1]
    · rw [q1, if_neg (by omega)]
  · intro a ha
    cases a <;> first | exact (ha : False).elim | (cases (ha : _ = 0); exact h3 _ (by simp [CArr.ofObj]) (by simp [CArr.ofObj]) (by simp) (by simp) (by simp) (by simp))

/-- C60, convergence: with at least as many iterations allowed as the matrix has rows, the solver returns by its criterion,
and the returned `x` satisfies it: `‖b - A x‖ / ‖b - A x0‖ < tol`. -/
theorem C60_converges_partial {sz : CArr → Int} {T : Nat} {sh : Nat → Share} {nrm : R → R} {tol : R} {A : Csr R} {o : Opt}
    {ep : Nat → Nat} {e b x0 : Nat → R} {maxiter : Nat} {m0 : Mem (CTy R)} (hT : 1 ≤ T)
    (hin : PcgInput sz m0 A o ep e b x0) (hs : A.Symm) (hpd : A.PosDef) (hr0 : ∃ i, i < A.m ∧ b i ≠ A.mulVec x0 i)
    (hsh : ∀ n, (sh n).Covers T A.m) (hn0 : nrm 0 = 0) (hnp : ∀ v, 0 < v → 0 < nrm v) (htol : 0 < tol)
    (hmax : A.m ≤ maxiter) :
    (pcgSymgs sz T A.m o sh nrm tol maxiter).Ok m0 (fun res m => ∃ xf : Nat → R,
      (∀ i : Nat, i < A.m → m (.vec 0) (i : Int) = some (xf i)) ∧ res.1 ≤ A.m ∧
      nrm (dotN A.m (fun i => b i - A.mulVec xf i) fun i => b i - A.mulVec xf i) /
        nrm (dotN A.m (fun i => b i - A.mulVec x0 i) fun i => b i - A.mulVec x0 i) < tol) := by
  refine Script.Ok.mono (C60_pcg_partial hT hin hs hpd hr0 hsh hn0 hnp htol) ?_
  rintro res m ⟨xf, h1, h2, h3, _⟩
  have hlt := pcgEnds_maxiter hin.wf hin.square hs (symGS_precond hin.wf hin.square hs hpd fun _ _ => rfl) hn0 htol hr0 hmax h2
  refine ⟨xf, h1, ?_, ?_⟩
  · exact pcgEnds_count hin.wf hin.square hs (symGS_precond hin.wf hin.square hs hpd fun _ _ => rfl) hn0 htol hr0 hlt h2 hmax
  · obtain ⟨i, hi, _⟩ := hr0
    rw [← h3 (by omega)]
    exact hlt

/-- C60, determinism: what the specification allows as the end of a run is one result and one vector; so by
`C60_pcg_partial` the answer does not depend on the team, the sharing or the interleaving. -/
theorem C60_deterministic {nrm : R → R} {tol : R} {A : Csr R} {b x0 : Nat → R} {maxiter : Nat} (hwf : A.WF)
    (hsq : A.n = A.m) (hd : ∀ i, i < A.m → A.entry i i ≠ 0) {res res' : Nat × R} {xf xf' : Nat → R}
    (h : PcgEnds A (SymGS A fun i => A.entry i i) b x0 nrm tol maxiter res xf)
    (h' : PcgEnds A (SymGS A fun i => A.entry i i) b x0 nrm tol maxiter res' xf') : res = res' ∧ ∀ i, i < A.m → xf i = xf' i :=
  pcgEnds_unique hwf hsq (fun _ _ _ _ a a' => symGS_unique hwf hsq hd a a') h h'

/-- C60, progress: for the exact solution `xs`, the energy norm of the error of the returned `x` is smaller than that of the
`x` given, whatever the number of iterations (at least one), also when the criterion was not met. -/
theorem C60_error_partial {sz : CArr → Int} {T : Nat} {sh : Nat → Share} {nrm : R → R} {tol : R} {A : Csr R} {o : Opt}
    {ep : Nat → Nat} {e b x0 xs : Nat → R} {maxiter : Nat} {m0 : Mem (CTy R)} (hT : 1 ≤ T)
    (hin : PcgInput sz m0 A o ep e b x0) (hs : A.Symm) (hpd : A.PosDef) (hr0 : ∃ i, i < A.m ∧ b i ≠ A.mulVec x0 i)
    (hsh : ∀ n, (sh n).Covers T A.m) (hn0 : nrm 0 = 0) (hnp : ∀ v, 0 < v → 0 < nrm v) (htol : 0 < tol)
    (hmax : 1 ≤ maxiter) (hxs : ∀ i, i < A.m → A.mulVec xs i = b i) :
    (pcgSymgs sz T A.m o sh nrm tol maxiter).Ok m0 (fun _ m => ∃ xf : Nat → R,
      (∀ i : Nat, i < A.m → m (.vec 0) (i : Int) = some (xf i)) ∧
      dotN A.m (fun i => xs i - xf i) (A.mulVec fun i => xs i - xf i) <
        dotN A.m (fun i => xs i - x0 i) (A.mulVec fun i => xs i - x0 i)) := by
  refine Script.Ok.mono (C60_pcg_partial hT hin hs hpd hr0 hsh hn0 hnp htol) ?_
  rintro res m ⟨xf, h1, h2, _⟩
  refine ⟨xf, h1, ?_⟩
  obtain ⟨K, x, r, z, p, htr, hx0, a1, a2, _, a4⟩ := h2
  have hK : 0 < K := by
    rcases a4 with ⟨_, q, _⟩ | ⟨_, q, _⟩
    · exact q
    · omega
  have hdec : ∀ k, 0 < k → k ≤ K → dotN A.m (fun i => xs i - x k i) (A.mulVec fun i => xs i - x k i) <
      dotN A.m (fun i => xs i - x 0 i) (A.mulVec fun i => xs i - x 0 i) := by
    intro k
    induction k with
    | zero => intro h; omega
    | succ k ih =>
      intro _ hk
      have h := trace_energy hin.wf hin.square hs hpd htr hxs (k := k) (by omega)
      rcases Nat.eq_zero_or_pos k with rfl | hp
      · exact h
      · exact h.trans (ih hp (by omega))
  have h := hdec K hK (Nat.le_refl _)
  have hc : ∀ u v : Nat → R, (∀ i, i < A.m → u i = v i) →
      dotN A.m (fun i => xs i - u i) (A.mulVec fun i => xs i - u i) =
      dotN A.m (fun i => xs i - v i) (A.mulVec fun i => xs i - v i) := by
    intro u v huv
    refine dotN_congr (fun i hi => by rw [huv i hi]) fun i hi => ?_
    exact mulVec_congr hin.wf hin.square hi fun c hc => by rw [huv c hc]
  rw [hc _ _ a2, ← hc _ _ hx0]
  exact h

end

/-! ### Instances -/

/-- The matrix (2 1; 1 2). -/
def spdCsr : Csr Rat where
  m := 2
  n := 2
  ptr := fun i => 2 * i
  col := fun j => j % 2
  val := fun j => if j = 0 ∨ j = 3 then 2 else 1

theorem spdCsr_wf : spdCsr.WF := ⟨rfl, fun i _ => by simp [spdCsr], fun j _ => Nat.mod_lt _ (by decide)⟩

theorem spdCsr_symm : spdCsr.Symm := by
  intro i c hi hc
  change i < 2 at hi
  change c < 2 at hc
  obtain rfl | rfl : i = 0 ∨ i = 1 := by omega
  all_goals (obtain rfl | rfl : c = 0 ∨ c = 1 := by omega)
  all_goals decide +kernel

theorem spdCsr_mulVec (x : Nat → Rat) : spdCsr.mulVec x 0 = 2 * x 0 + x 1 ∧ spdCsr.mulVec x 1 = x 0 + 2 * x 1 := by
  have h : ∀ i, spdCsr.mulVec x i = spdCsr.val (2 * i) * x (spdCsr.col (2 * i)) +
      spdCsr.val (2 * i + 1) * x (spdCsr.col (2 * i + 1)) := by
    intro i
    unfold Csr.mulVec
    have e1 : spdCsr.ptr i = 2 * i := rfl
    have e2 : spdCsr.ptr (i + 1) = 2 * i + 2 := by show 2 * (i + 1) = _; omega
    rw [e1, e2, Finset.sum_Ico_succ_top (by omega), Finset.sum_Ico_succ_top (by omega)]
    simp
  exact ⟨by rw [h]; simp [spdCsr], by rw [h]; simp [spdCsr]⟩

theorem spdCsr_posDef : spdCsr.PosDef := by
  intro x hx
  have h1 := spdCsr_mulVec x
  have e : dotN spdCsr.m x (spdCsr.mulVec x) = x 0 * (2 * x 0 + x 1) + x 1 * (x 0 + 2 * x 1) := by
    show ∑ i ∈ Finset.range 2, _ = _
    rw [Finset.sum_range_succ, Finset.sum_range_succ, h1.1, h1.2]; simp
  rw [e]
  have h2 : x 0 ≠ 0 ∨ x 1 ≠ 0 := by
    obtain ⟨i, hi, h⟩ := hx
    change i < 2 at hi
    obtain rfl | rfl : i = 0 ∨ i = 1 := by omega
    · exact Or.inl h
    · exact Or.inr h
  have h3 : 0 < x 0 * x 0 ∨ 0 < x 1 * x 1 := by
    rcases h2 with h | h
    · exact Or.inl (lt_of_le_of_ne (mul_self_nonneg _) (Ne.symm (mul_self_ne_zero.2 h)))
    · exact Or.inr (lt_of_le_of_ne (mul_self_nonneg _) (Ne.symm (mul_self_ne_zero.2 h)))
  have h4 := mul_self_nonneg (x 0)
  have h5 := mul_self_nonneg (x 1)
  have h6 := mul_self_nonneg (x 0 + x 1)
  rcases h3 with h | h <;> nlinarith

/-- A memory with `A`, the inverse diagonal, `x` and `b`. -/
def pcgMem (base : Nat) (A : Csr Rat) (e x b : Nat → Rat) : Mem (CTy Rat) :=
  withVec (withVec (withIdiag (csrMem 0 base A (fun _ => 0) (fun _ => 0)) 0 A.m e) 0 A.m x) 1 A.m b

theorem pcgMem_input {A : Csr Rat} {e x b : Nat → Rat} (hwf : A.WF) (hsq : A.n = A.m)
    (hinv : ∀ i : Nat, i < A.m → e i * A.entry i i = 1) {sz : CArr → Int}
    (hsz : ∀ a, (A.m : Int) + 1 ≤ sz a ∧ (A.nnz : Int) ≤ sz a) :
    PcgInput sz (pcgMem 0 A e x b) A ⟨true, false, true, false, false⟩ (fun i => A.ptr (i + 1)) e b x where
  wf := hwf
  square := hsq
  pat := withVec_pat (withVec_pat (withIdiag_pat (csrMem_pat 0 0 A _ _)))
  val := csrMem_val 0 0 A (fun _ => 0) (fun _ => 0)
  room := ⟨(hsz _).1, (hsz _).2, fun _ => (hsz _).2, by simp, fun _ => by have := (hsz (.idiag 0)).1; omega, by simp, by simp⟩
  ext := ⟨by simp, fun _ _ _ => rfl, fun i hi => ⟨hwf.ptr_mono (by omega) hi, Nat.le_refl _⟩⟩
  extUp := fun i j _ h1 h2 => by omega
  diagptr := by simp
  idiag := fun i hi => withIdiag_get hi
  inv := hinv
  vx := fun i hi => withVec_get (v := 0) (m := withIdiag (csrMem 0 0 A (fun _ => 0) (fun _ => 0)) 0 A.m e) hi
  vb := fun i hi => withVec_get hi
  vroom := fun j _ => by have := (hsz (.vec j)).1; omega

/-- Two threads with one iteration each, the second thread's sum first. -/
def twoShare : Share := ⟨fun t => [1 - t], .node (.leaf 1) (.node (.leaf 2) (.leaf 0))⟩

theorem twoShare_covers : twoShare.Covers 2 2 := by
  refine ⟨?_, ?_⟩
  · show List.Perm ([1, 0] : List Nat) [0, 1]
    decide
  · show List.Perm ([1, 2, 0] : List Nat) [0, 1, 2]
    decide

/-- The hypotheses of C60_dot can be met. -/
example : (dotV (fun _ => 2) 2 0 1 twoShare).Ok (pcgMem 0 spdCsr (fun _ => 1 / 2) (fun i => i) (fun _ => 3))
    (fun r m' => r = ∑ i ∈ Finset.range 2, (i : Rat) * 3 ∧ m' = pcgMem 0 spdCsr (fun _ => 1 / 2) (fun i => i) (fun _ => 3)) :=
  C60_dot (n := 2) (xv := fun i => (i : Rat)) (yv := fun _ => 3) twoShare_covers
    (pcgMem_input (e := fun _ => 1 / 2) (sz := fun _ => 4) spdCsr_wf rfl (by
      intro i hi; change i < 2 at hi; obtain rfl | rfl : i = 0 ∨ i = 1 := by omega
      all_goals decide +kernel) (fun _ => by decide)).vx
    (pcgMem_input (e := fun _ => 1 / 2) (sz := fun _ => 4) spdCsr_wf rfl (by
      intro i hi; change i < 2 at hi; obtain rfl | rfl : i = 0 ∨ i = 1 := by omega
      all_goals decide +kernel) (fun _ => by decide)).vb

/-- The hypotheses of C60_converges_partial can be met: the matrix (2 1; 1 2), `b = (3, 3)`, `x0 = (0, 1)`. -/
example : (pcgSymgs (fun _ => 4) 2 spdCsr.m ⟨true, false, true, false, false⟩ (fun _ => twoShare) id (1 / 1000) 2).Ok
    (pcgMem 0 spdCsr (fun _ => 1 / 2) (fun i => i) (fun _ => 3)) (fun res m => ∃ xf : Nat → Rat,
      (∀ i : Nat, i < 2 → m (.vec 0) (i : Int) = some (xf i)) ∧ res.1 ≤ 2 ∧
      id (dotN 2 (fun i => 3 - spdCsr.mulVec xf i) fun i => 3 - spdCsr.mulVec xf i) /
        id (dotN 2 (fun i => 3 - spdCsr.mulVec (fun i => (i : Rat)) i) fun i => 3 - spdCsr.mulVec (fun i => (i : Rat)) i) <
        (1 / 1000 : Rat)) := by
  refine C60_converges_partial (A := spdCsr) (e := fun _ => 1 / 2) (b := fun _ => 3) (x0 := fun i => (i : Rat)) (by decide)
    (pcgMem_input spdCsr_wf rfl ?_ (fun _ => by decide)) spdCsr_symm spdCsr_posDef ⟨0, by decide, ?_⟩
    (fun _ => twoShare_covers) rfl (fun v h => h) (by norm_num) (Nat.le_refl _)
  · intro i hi
    change i < 2 at hi
    obtain rfl | rfl : i = 0 ∨ i = 1 := by omega
    all_goals decide +kernel
  · rw [(spdCsr_mulVec _).1]; norm_num

/-- The hypotheses of C60_deterministic can be met: the same run, ended by the criterion after one step. -/
example : ∃ xf, PcgEnds spdCsr (SymGS spdCsr fun i => spdCsr.entry i i) (fun _ => 3) (fun i => (i : Rat)) id (1 / 1000) 2 (1, 0) xf := by
  have hinv : ∀ i : Nat, i < spdCsr.m → (1 / 2 : Rat) * spdCsr.entry i i = 1 := by
    intro i hi
    change i < 2 at hi
    obtain rfl | rfl : i = 0 ∨ i = 1 := by omega
    all_goals decide +kernel
  let _ : Races CArr := Races.any
  have h := C60_pcg_partial (sz := fun _ => 4) (T := 2) (sh := fun _ => twoShare) (nrm := id) (tol := 1 / 1000) (maxiter := 2)
    (A := spdCsr) (e := fun _ => 1 / 2) (b := fun _ => 3) (x0 := fun i => (i : Rat)) (by decide)
    (pcgMem_input spdCsr_wf rfl hinv (fun _ => by decide)) spdCsr_symm spdCsr_posDef
    ⟨0, by decide, by rw [(spdCsr_mulVec _).1]; norm_num⟩ (fun _ => twoShare_covers) rfl (fun v h => h) (by norm_num)
  obtain ⟨r, m, hr, xf, _, h2, _⟩ := ok_run_proj h (fun r _ => r) (b := ((1, 0) : Nat × Rat)) (by decide +kernel)
  rw [hr] at h2
  exact ⟨xf, h2⟩

/-! ### Where it fails -/

/-- The 1x1 matrix (1). -/
def unitCsr : Csr Rat := ⟨1, 1, fun i => i, fun _ => 0, fun _ => 1⟩

/-- One thread with the only iteration. -/
def oneShare : Share := ⟨fun _ => [0], .node (.leaf 0) (.leaf 1)⟩

theorem oneShare_covers : oneShare.Covers 1 1 := by
  refine ⟨?_, ?_⟩
  · show List.Perm ([0] : List Nat) [0]
    exact List.Perm.refl _
  · show List.Perm ([0, 1] : List Nat) [0, 1]
    exact List.Perm.refl _

theorem unitCsr_wf : unitCsr.WF := ⟨rfl, fun i _ => by simp [unitCsr], fun j _ => by simp [unitCsr]⟩

theorem unitCsr_symm : unitCsr.Symm := by
  intro i c hi hc
  change i < 1 at hi
  change c < 1 at hc
  obtain rfl : i = 0 := by omega
  obtain rfl : c = 0 := by omega
  rfl

theorem unitCsr_posDef : unitCsr.PosDef := by
  intro x hx
  obtain ⟨i, hi, h⟩ := hx
  change i < 1 at hi
  obtain rfl : i = 0 := by omega
  have e : dotN unitCsr.m x (unitCsr.mulVec x) = x 0 * x 0 := by
    show ∑ i ∈ Finset.range 1, _ = _
    rw [Finset.sum_range_one]
    unfold Csr.mulVec
    show x 0 * ∑ j ∈ Finset.Ico 0 1, (1 : Rat) * x 0 = _
    simp
  rw [e]
  exact lt_of_le_of_ne (mul_self_nonneg _) (Ne.symm (mul_self_ne_zero.2 h))

theorem exact_start_ub : (pcgSymgs (fun _ => 4) 1 1 ⟨true, false, true, false, false⟩ (fun _ => oneShare) id (1 / 2 : Rat) 1).runUB
    (pcgMem 0 unitCsr (fun _ => 1) (fun _ => 1) (fun _ => 1)) = true := by decide +kernel

attribute [local irreducible] Script.Ok pcgSymgs in
/-- C60 without the condition on `x0` is false: started at the exact solution the residual is zero, the first step divides
zero by zero, and `x` would become NaN. -/
theorem C60_exact_start_false :
    ¬ (∀ (sz : CArr → Int) (T : Nat) (sh : Nat → Share) (tol : Rat) (A : Csr Rat) (o : Opt) (ep : Nat → Nat)
      (e b x0 : Nat → Rat) (maxiter : Nat) (m0 : Mem (CTy Rat)), 1 ≤ T → PcgInput sz m0 A o ep e b x0 → A.Symm → A.PosDef →
      (∀ n, (sh n).Covers T A.m) → 0 < tol → (pcgSymgs sz T A.m o sh id tol maxiter).Ok m0 (fun _ _ => True)) := by
  intro h
  have h1 := (h (fun _ => 4) 1 (fun _ => oneShare) (1 / 2) unitCsr ⟨true, false, true, false, false⟩ _ (fun _ => 1)
    (fun _ => 1) (fun _ => 1) 1 (pcgMem 0 unitCsr (fun _ => 1) (fun _ => 1) (fun _ => 1)) (by decide)
    (pcgMem_input unitCsr_wf rfl ?_ (fun _ => by decide)) unitCsr_symm unitCsr_posDef (fun _ => oneShare_covers)
    (by norm_num)).not_runUB
  · rw [show unitCsr.m = 1 from rfl, exact_start_ub] at h1
    cases h1
  · intro i hi
    change i < 1 at hi
    obtain rfl : i = 0 := by omega
    decide +kernel

theorem base1_ub : (pcgSymgs (fun _ => 5) 1 2 ⟨true, false, true, false, false⟩ (fun _ => ⟨fun _ => [0, 1], .node (.leaf 0) (.leaf 1)⟩)
    id (1 / 2 : Rat) 1).runUB (pcgMem 1 spdCsr (fun _ => 1 / 2) (fun _ => 1) (fun _ => 1)) = true := by decide +kernel

attribute [local irreducible] Script.Ok pcgSymgs in
/-- C60 is false for a matrix with 1-based indices: splitLU keeps the base, and the loop that scales U uses the row pointers
unshifted, so it reads past the values of U. -/
theorem C60_base1_false :
    ¬ (∀ (sz : CArr → Int) (A : Csr Rat) (e : Nat → Rat) (m0 : Mem (CTy Rat)) (sh : Nat → Share), A.WF → A.n = A.m →
      HoldsPat m0 0 1 A → HoldsVal m0 0 A → SizesOk sz 0 A ⟨true, false, true, false, false⟩ →
      (∀ i : Nat, i < A.m → m0 (.idiag 0) (i : Int) = some (e i)) → (∀ i, i < A.m → e i * A.entry i i = 1) →
      (∀ j, j < 2 → ∀ i : Nat, i < A.m → m0 (.vec j) (i : Int) = some 1) → (∀ j, (A.m : Int) ≤ sz (.vec j)) →
      A.Symm → A.PosDef → (∃ i, i < A.m ∧ (1 : Rat) ≠ A.mulVec (fun _ => 1) i) → (∀ n, (sh n).Covers 1 A.m) →
      (pcgSymgs sz 1 A.m ⟨true, false, true, false, false⟩ sh id (1 / 2) 1).Ok m0 (fun _ _ => True)) := by
  intro h
  have h1 := (h (fun _ => 5) spdCsr (fun _ => 1 / 2) (pcgMem 1 spdCsr (fun _ => 1 / 2) (fun _ => 1) (fun _ => 1))
    (fun _ => ⟨fun _ => [0, 1], .node (.leaf 0) (.leaf 1)⟩) spdCsr_wf rfl
    (withVec_pat (withVec_pat (withIdiag_pat (csrMem_pat 0 1 spdCsr _ _)))) (csrMem_val 0 1 spdCsr (fun _ => 0) (fun _ => 0))
    ⟨by decide, by decide, fun _ => by decide, by simp, fun _ => by decide, by simp, by simp⟩
    (fun i hi => withIdiag_get (v := 0) (m := csrMem 0 1 spdCsr (fun _ => 0) (fun _ => 0)) (f := fun _ => 1 / 2) hi) ?_ ?_ (fun _ => by decide) spdCsr_symm spdCsr_posDef ⟨0, by decide, ?_⟩
    (fun _ => ⟨List.Perm.refl _, List.Perm.refl _⟩)).not_runUB
  · rw [show spdCsr.m = 2 from rfl, base1_ub] at h1
    cases h1
  · intro i hi
    change i < 2 at hi
    obtain rfl | rfl : i = 0 ∨ i = 1 := by omega
    all_goals decide +kernel
  · intro j hj i hi
    obtain rfl | rfl : j = 0 ∨ j = 1 := by omega
    · exact withVec_get (v := 0) (m := withIdiag (csrMem 0 1 spdCsr (fun _ => 0) (fun _ => 0)) 0 spdCsr.m (fun _ => 1 / 2))
        (f := fun _ => 1) hi
    · exact withVec_get (v := 1) (f := fun _ => (1 : Rat)) hi
  · rw [(spdCsr_mulVec _).1]; norm_num

end SpMP.Props
