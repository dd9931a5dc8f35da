import Verif.PcgOptRun
import Verif.Props.PcgIlu
import Verif.Props.TasksEx
/-
C62: the two solvers of test/pcg.cpp that reorder the system for the point-to-point schedule.
-/
namespace SpMP.Props
open Spec

set_option linter.unusedSectionVars false

variable {R : Type} [Races CArr]

section
variable [Field R] [LinearOrder R]

/-- What the reordering solvers need beyond the reference solvers: values and no external columns, a schedule built by the library
for the matrix, and room for the permutations, the flags and the reordered vectors. Every thread that gets to write the last row pointer
of a permuted matrix writes the same number there (C58); the race policy has to tolerate that. -/
structure OptInput (sz : CArr → Int) (S : Schedule) (A : Csr R) (o : Opt) (dp : Nat → Nat) (ub : Bool) (L : List (List Nat)) : Prop where
  race : ∀ k, k ∈ [4, 5, 6] → Races.tol (CArr.rowptr k) (A.m : Int)
  built : Built S A dp (fun i => A.ptr (i + 1)) ub L
  values : o.values = true
  noext : o.extptr = false
  diag : ∀ i, i < A.m → A.InRow i (dp i) ∧ A.col (dp i) = i
  sorted : ∀ i, i < A.m → A.RowSorted i
  pattern : SymPat A
  vroom : ∀ j, j ∈ [8, 10] → (A.m : Int) ≤ sz (.vec j)
  flags : (S.ntasks : Int) ≤ sz (.itmp 0)
  perm : (A.m : Int) ≤ sz (.itmp 0)
  inverse : (A.m : Int) ≤ sz (.itmp 1)

theorem OptInput.schedulable {sz : CArr → Int} {S : Schedule} {A : Csr R} {o : Opt} {dp : Nat → Nat} {ub : Bool} {L : List (List Nat)}
    (h : OptInput sz S A o dp ub L) (hwf : A.WF) (hsq : A.n = A.m) : Schedulable A dp (fun i => A.ptr (i + 1)) where
  split := split_of_diag hwf hsq h.sorted h.diag
  inner := fun i q hi h1 h2 => by
    have : A.InRow i q := ⟨hi, by have := (h.diag i hi).1.2.1; omega, h2⟩
    rw [← hsq]; exact hwf.col_lt q (this.lt_nnz hwf)
  sym := h.pattern

variable [IsStrictOrderedRing R]

/-- C62, symmetric Gauss-Seidel (exact arithmetic, symmetric positive definite matrices, base 0, no external columns, `x0` not already the
solution): for every schedule the library builds, every interleaving and every sharing of the inner products, pcg_symgs_opt ends
without deadlock or undefined behaviour, having followed the textbook method on the system in its original order, with `x` in the
original order; the matrix and `b` are unchanged. -/
theorem C62_symgs_opt_partial {sz : CArr → Int} {S : Schedule} {sh : Nat → Share} {nrm : R → R} {tol : R} {A : Csr R} {o : Opt}
    {ep dp : Nat → Nat} {ub dbg : Bool} {L : List (List Nat)} {e b x0 : Nat → R} {maxiter : Nat} {m0 : Mem (CTy R)}
    (hin : PcgInput sz m0 A o ep e b x0) (hop : OptInput sz S A o dp ub L) (hs : A.Symm) (hpd : A.PosDef)
    (hr0 : ∃ i, i < A.m ∧ b i ≠ A.mulVec x0 i)
    (hsh : ∀ n, (sh n).Covers S.T A.m) (hn0 : nrm 0 = 0) (hnp : ∀ v, 0 < v → 0 < nrm v) (htol : 0 < tol) :
    (pcgSymgsOpt sz S A.m o dbg sh nrm tol maxiter).Ok m0 (fun res m => ∃ xf : Nat → R,
      (∀ i : Nat, i < A.m → m (.vec 0) (i : Int) = some (xf i)) ∧
      PcgEnds A (SymGS A fun i => A.entry i i) b x0 nrm tol maxiter res xf ∧
      (0 < maxiter → res.2 = nrm (dotN A.m (fun i => b i - A.mulVec xf i) fun i => b i - A.mulVec xf i) /
        nrm (dotN A.m (fun i => b i - A.mulVec x0 i) fun i => b i - A.mulVec x0 i)) ∧
      (∀ a, a.ofObj 0 → m a = m0 a) ∧ m (.vec 1) = m0 (.vec 1)) := by
  obtain ⟨lvl, hg, _, hSm, hT⟩ := hop.built.good (hop.schedulable hin.wf hin.square)
  refine Script.Ok.mono (pcgSymgsOpt_ok (d := fun i => A.entry i i) hop.race hg.tiling hg.levelled hT hSm hg.fwd hg.bwd hin.wf hin.square hs hpd
    (fun _ _ => rfl) hin.inv ⟨hop.values, hop.noext⟩ hin.pat hin.val hin.room hin.diagptr (fun _ i hi => ⟨dp i, hop.diag i hi⟩) hin.idiag hin.vx
    hin.vb hr0 hsh hn0 hnp htol ?_ hop.flags hop.perm hop.inverse) ?_
  · intro j hj
    by_cases h : j ∈ [8, 10]
    · exact hop.vroom j h
    · exact hin.vroom j (by simp at hj h ⊢; omega)
  rintro res m ⟨⟨xf, h1, h2⟩, h3⟩
  refine ⟨xf, h1, h2, ends_residual hin.wf hin.square h2, ?_, h3 _ (by simp [CArr.ofObj]) (by simp) (by simp) (by rintro j ⟨⟩; simp)⟩
  intro a ha
  cases a <;> first | exact (ha : False).elim | (cases (ha : _ = 0); exact h3 _ (by simp [CArr.ofObj]) (by simp) (by simp) (by simp))

/-- C62, incomplete factors: the same of pcg_ilu0_opt, whose factorisation runs on the schedule too. -/
theorem C62_ilu0_opt_partial {sz : CArr → Int} {S : Schedule} {sh : Nat → Share} {nrm : R → R} {tol : R} {A : Csr R} {o : Opt}
    {dp : Nat → Nat} {ub dbg : Bool} {L : List (List Nat)} {b x0 : Nat → R} {maxiter : Nat} {m0 : Mem (CTy R)}
    (hin : PcgIluInput sz m0 A dp b x0) (hop : OptInput sz S A o dp ub L)
    (hid : o.idiag = true → ∀ i : Nat, i < A.m → ∃ v, m0 (.idiag 0) (i : Int) = some v) (hs : A.Symm) (hpd : A.PosDef)
    (hpos : ∀ i, i < A.m → 0 < ilu0 A dp A.m A.val (dp i)) (hr0 : ∃ i, i < A.m ∧ b i ≠ A.mulVec x0 i)
    (hsh : ∀ n, (sh n).Covers S.T A.m) (hn0 : nrm 0 = 0) (hnp : ∀ v, 0 < v → 0 < nrm v) (htol : 0 < tol) :
    (pcgIlu0Opt sz S A.m o dbg sh nrm tol maxiter).Ok m0 (fun res m => ∃ xf : Nat → R,
      (∀ i : Nat, i < A.m → m (.vec 0) (i : Int) = some (xf i)) ∧
      PcgEnds A (IluPrec A dp (ilu0 A dp A.m A.val)) b x0 nrm tol maxiter res xf ∧
      (0 < maxiter → res.2 = nrm (dotN A.m (fun i => b i - A.mulVec xf i) fun i => b i - A.mulVec xf i) /
        nrm (dotN A.m (fun i => b i - A.mulVec x0 i) fun i => b i - A.mulVec x0 i)) ∧
      (∀ a, a.ofObj 0 → m a = m0 a) ∧ m (.vec 9) = m0 (.vec 9)) := by
  refine Script.Ok.mono (pcgIlu0Opt_ok hop.race hop.built hin.wf hin.square hin.sorted hs hop.pattern hpd hpos ⟨hop.values, hop.noext⟩ hin.pat hin.val
    hin.holds hid hin.roomLu hin.roomLU hin.vx hin.vb hr0 hsh hn0 hnp htol ?_ hop.flags hop.perm hop.inverse) ?_
  · intro j hj
    by_cases h : j ∈ [8, 10]
    · exact hop.vroom j h
    · exact hin.vroom j (by simp at hj h ⊢; omega)
  rintro res m ⟨⟨xf, h1, h2⟩, _, h3⟩
  refine ⟨xf, h1, h2, ends_residual hin.wf hin.square h2, ?_, h3 _ (by simp [CArr.ofObj]) (by simp) (by simp) (by rintro j ⟨⟩; simp)⟩
  intro a ha
  cases a <;> first | exact (ha : False).elim | (cases (ha : _ = 0); exact h3 _ (by simp [CArr.ofObj]) (by simp) (by simp) (by simp))

/-- C62, the same answer: on inputs with the same system, pcg_symgs with any team and pcg_symgs_opt with any schedule, in every
execution, return the same iteration count, the same residual and the same `x`. -/
theorem C62_symgs_same_partial {sz sz' : CArr → Int} {T : Nat} {S : Schedule} {sh sh' : Nat → Share} {nrm : R → R} {tol : R} {A : Csr R} {o o' : Opt}
    {ep ep' dp : Nat → Nat} {ub dbg : Bool} {L : List (List Nat)} {e e' b x0 : Nat → R} {maxiter : Nat} {m0 m0' : Mem (CTy R)} (hT : 1 ≤ T)
    (hin : PcgInput sz m0 A o ep e b x0) (hin' : PcgInput sz' m0' A o' ep' e' b x0) (hop : OptInput sz' S A o' dp ub L) (hs : A.Symm) (hpd : A.PosDef)
    (hr0 : ∃ i, i < A.m ∧ b i ≠ A.mulVec x0 i) (hsh : ∀ n, (sh n).Covers T A.m) (hsh' : ∀ n, (sh' n).Covers S.T A.m)
    (hn0 : nrm 0 = 0) (hnp : ∀ v, 0 < v → 0 < nrm v) (htol : 0 < tol) :
    ∃ (res : Nat × R) (xf : Nat → R),
      (pcgSymgs sz T A.m o sh nrm tol maxiter).Ok m0 (fun r m => r = res ∧ ∀ i : Nat, i < A.m → m (.vec 0) (i : Int) = some (xf i)) ∧
      (pcgSymgsOpt sz' S A.m o' dbg sh' nrm tol maxiter).Ok m0' (fun r m => r = res ∧ ∀ i : Nat, i < A.m → m (.vec 0) (i : Int) = some (xf i)) := by
  have h1 := C60_pcg_partial (sh := sh) (nrm := nrm) (tol := tol) (maxiter := maxiter) hT hin hs hpd hr0 hsh hn0 hnp htol
  have h2 := C62_symgs_opt_partial (sh := sh') (nrm := nrm) (tol := tol) (maxiter := maxiter) (dbg := dbg) hin' hop hs hpd hr0 hsh' hn0 hnp htol
  have hu := (symGS_precond hin.wf hin.square hs hpd (d := fun i => A.entry i i) fun _ _ => rfl).unique
  by_cases hex : ∃ res xf, PcgEnds A (SymGS A fun i => A.entry i i) b x0 nrm tol maxiter res xf
  · obtain ⟨res, xf, he⟩ := hex
    refine ⟨res, xf, Script.Ok.mono h1 ?_, Script.Ok.mono h2 ?_⟩ <;>
    · rintro r m ⟨xg, g1, g2, _⟩
      obtain ⟨q1, q2⟩ := pcgEnds_unique hin.wf hin.square hu g2 he
      exact ⟨q1, fun i hi => by rw [g1 i hi, q2 i hi]⟩
  · refine ⟨(0, 0), fun _ => 0, Script.Ok.mono h1 ?_, Script.Ok.mono h2 ?_⟩ <;>
    · rintro r m ⟨xg, _, g2, _⟩
      exact absurd ⟨_, _, g2⟩ hex

/-- C62, the same answer with incomplete factors. -/
theorem C62_ilu0_same_partial {sz sz' : CArr → Int} {T : Nat} {S : Schedule} {sh sh' : Nat → Share} {nrm : R → R} {tol : R} {A : Csr R} {o' : Opt}
    {dp : Nat → Nat} {ub dbg : Bool} {L : List (List Nat)} {b x0 : Nat → R} {maxiter : Nat} {m0 m0' : Mem (CTy R)} (hT : 1 ≤ T)
    (hin : PcgIluInput sz m0 A dp b x0) (hin' : PcgIluInput sz' m0' A dp b x0) (hop : OptInput sz' S A o' dp ub L)
    (hid : o'.idiag = true → ∀ i : Nat, i < A.m → ∃ v, m0' (.idiag 0) (i : Int) = some v) (hs : A.Symm) (hpd : A.PosDef)
    (hpos : ∀ i, i < A.m → 0 < ilu0 A dp A.m A.val (dp i))
    (hr0 : ∃ i, i < A.m ∧ b i ≠ A.mulVec x0 i) (hsh : ∀ n, (sh n).Covers T A.m) (hsh' : ∀ n, (sh' n).Covers S.T A.m)
    (hn0 : nrm 0 = 0) (hnp : ∀ v, 0 < v → 0 < nrm v) (htol : 0 < tol) :
    ∃ (res : Nat × R) (xf : Nat → R),
      (pcgIlu0 sz T A.m sh nrm tol maxiter).Ok m0 (fun r m => r = res ∧ ∀ i : Nat, i < A.m → m (.vec 0) (i : Int) = some (xf i)) ∧
      (pcgIlu0Opt sz' S A.m o' dbg sh' nrm tol maxiter).Ok m0' (fun r m => r = res ∧ ∀ i : Nat, i < A.m → m (.vec 0) (i : Int) = some (xf i)) := by
  have h1 := C61_pcg_ilu0_partial (sh := sh) (nrm := nrm) (tol := tol) (maxiter := maxiter) hT hin hs hop.pattern hpd hpos hr0 hsh hn0 hnp htol
  have h2 := C62_ilu0_opt_partial (sh := sh') (nrm := nrm) (tol := tol) (maxiter := maxiter) (dbg := dbg) hin' hop hid hs hpd hpos hr0 hsh' hn0 hnp htol
  have hu := (ilu_precond hin.wf hin.square hin.split hin.sorted hs hop.pattern hpos).unique
  by_cases hex : ∃ res xf, PcgEnds A (IluPrec A dp (ilu0 A dp A.m A.val)) b x0 nrm tol maxiter res xf
  · obtain ⟨res, xf, he⟩ := hex
    refine ⟨res, xf, Script.Ok.mono h1 ?_, Script.Ok.mono h2 ?_⟩ <;>
    · rintro r m ⟨xg, g1, g2, _⟩
      obtain ⟨q1, q2⟩ := pcgEnds_unique hin.wf hin.square hu g2 he
      exact ⟨q1, fun i hi => by rw [g1 i hi, q2 i hi]⟩
  · refine ⟨(0, 0), fun _ => 0, Script.Ok.mono h1 ?_, Script.Ok.mono h2 ?_⟩ <;>
    · rintro r m ⟨xg, _, g2, _⟩
      exact absurd ⟨_, _, g2⟩ hex

/-- C62, convergence of pcg_symgs_opt. -/
theorem C62_symgs_converges_partial {sz : CArr → Int} {S : Schedule} {sh : Nat → Share} {nrm : R → R} {tol : R} {A : Csr R} {o : Opt}
    {ep dp : Nat → Nat} {ub dbg : Bool} {L : List (List Nat)} {e b x0 : Nat → R} {maxiter : Nat} {m0 : Mem (CTy R)}
    (hin : PcgInput sz m0 A o ep e b x0) (hop : OptInput sz S A o dp ub L) (hs : A.Symm) (hpd : A.PosDef)
    (hr0 : ∃ i, i < A.m ∧ b i ≠ A.mulVec x0 i)
    (hsh : ∀ n, (sh n).Covers S.T A.m) (hn0 : nrm 0 = 0) (hnp : ∀ v, 0 < v → 0 < nrm v) (htol : 0 < tol) (hmax : A.m ≤ maxiter) :
    (pcgSymgsOpt sz S A.m o dbg sh nrm tol maxiter).Ok m0 (fun res m => ∃ xf : Nat → R,
      (∀ i : Nat, i < A.m → m (.vec 0) (i : Int) = some (xf i)) ∧ res.1 ≤ A.m ∧
      nrm (dotN A.m (fun i => b i - A.mulVec xf i) fun i => b i - A.mulVec xf i) /
        nrm (dotN A.m (fun i => b i - A.mulVec x0 i) fun i => b i - A.mulVec x0 i) < tol) := by
  refine Script.Ok.mono (C62_symgs_opt_partial hin hop hs hpd hr0 hsh hn0 hnp htol) ?_
  rintro res m ⟨xf, h1, h2, h3, _⟩
  have hM := symGS_precond hin.wf hin.square hs hpd (d := fun i => A.entry i i) fun _ _ => rfl
  have hlt := pcgEnds_maxiter hin.wf hin.square hs hM hn0 htol hr0 hmax h2
  refine ⟨xf, h1, pcgEnds_count hin.wf hin.square hs hM hn0 htol hr0 hlt h2 hmax, ?_⟩
  obtain ⟨i, hi, _⟩ := hr0
  rw [← h3 (by omega)]
  exact hlt

/-- C62, convergence of pcg_ilu0_opt. -/
theorem C62_ilu0_converges_partial {sz : CArr → Int} {S : Schedule} {sh : Nat → Share} {nrm : R → R} {tol : R} {A : Csr R} {o : Opt}
    {dp : Nat → Nat} {ub dbg : Bool} {L : List (List Nat)} {b x0 : Nat → R} {maxiter : Nat} {m0 : Mem (CTy R)}
    (hin : PcgIluInput sz m0 A dp b x0) (hop : OptInput sz S A o dp ub L)
    (hid : o.idiag = true → ∀ i : Nat, i < A.m → ∃ v, m0 (.idiag 0) (i : Int) = some v) (hs : A.Symm) (hpd : A.PosDef)
    (hpos : ∀ i, i < A.m → 0 < ilu0 A dp A.m A.val (dp i)) (hr0 : ∃ i, i < A.m ∧ b i ≠ A.mulVec x0 i)
    (hsh : ∀ n, (sh n).Covers S.T A.m) (hn0 : nrm 0 = 0) (hnp : ∀ v, 0 < v → 0 < nrm v) (htol : 0 < tol) (hmax : A.m ≤ maxiter) :
    (pcgIlu0Opt sz S A.m o dbg sh nrm tol maxiter).Ok m0 (fun res m => ∃ xf : Nat → R,
      (∀ i : Nat, i < A.m → m (.vec 0) (i : Int) = some (xf i)) ∧ res.1 ≤ A.m ∧
      nrm (dotN A.m (fun i => b i - A.mulVec xf i) fun i => b i - A.mulVec xf i) /
        nrm (dotN A.m (fun i => b i - A.mulVec x0 i) fun i => b i - A.mulVec x0 i) < tol) := by
  refine Script.Ok.mono (C62_ilu0_opt_partial hin hop hid hs hpd hpos hr0 hsh hn0 hnp htol) ?_
  rintro res m ⟨xf, h1, h2, h3, _⟩
  have hM := ilu_precond hin.wf hin.square hin.split hin.sorted hs hop.pattern hpos
  have hlt := pcgEnds_maxiter hin.wf hin.square hs hM hn0 htol hr0 hmax h2
  refine ⟨xf, h1, pcgEnds_count hin.wf hin.square hs hM hn0 htol hr0 hlt h2 hmax, ?_⟩
  obtain ⟨i, hi, _⟩ := hr0
  rw [← h3 (by omega)]
  exact hlt

end

/-! ### Instances -/

/-- The matrix (2 0 -1; 0 2 -1; -1 -1 2), with the pattern of `vee`. -/
def veeSpd : Csr Rat := ⟨3, 3, vee.ptr, vee.col, fun j => ([2, -1, 2, -1, -1, -1, 2] : List Rat).getD j 0⟩

theorem veeSpd_wf : veeSpd.WF := by
  refine ⟨rfl, ?_, ?_⟩
  · have : ∀ i < 3, veeSpd.ptr i ≤ veeSpd.ptr (i + 1) := by decide
    exact fun i hi => this i hi
  · have : ∀ j < 7, veeSpd.col j < 3 := by decide
    exact fun j hj => this j hj

theorem veeSpd_sorted : ∀ i, i < veeSpd.m → veeSpd.RowSorted i := sorted_of_check (by decide)

theorem veeSpd_diag : ∀ i, i < veeSpd.m → veeSpd.InRow i (veeDp i) ∧ veeSpd.col (veeDp i) = i := by
  have : ∀ i < 3, (i < 3 ∧ veeSpd.ptr i ≤ veeDp i ∧ veeDp i < veeSpd.ptr (i + 1)) ∧ veeSpd.col (veeDp i) = i := by decide
  exact fun i hi => this i hi

theorem veeSpd_symm : veeSpd.Symm := symm_of_check (by decide +kernel)

theorem veeSpd_symPat : SymPat veeSpd := symPat_of_check veeSpd_wf (by decide +kernel)

theorem veeSpd_mulVec (x : Nat → Rat) : veeSpd.mulVec x 0 = 2 * x 0 - x 2 ∧ veeSpd.mulVec x 1 = 2 * x 1 - x 2 ∧
    veeSpd.mulVec x 2 = - x 0 - x 1 + 2 * x 2 := by
  have e0 : veeSpd.row 0 = [(0, 2), (2, -1)] := by decide +kernel
  have e1 : veeSpd.row 1 = [(1, 2), (2, -1)] := by decide +kernel
  have e2 : veeSpd.row 2 = [(0, -1), (1, -1), (2, 2)] := by decide +kernel
  rw [mulVec_eq_row veeSpd_wf (i := 0) (by decide), mulVec_eq_row veeSpd_wf (i := 1) (by decide), mulVec_eq_row veeSpd_wf (i := 2) (by decide),
    e0, e1, e2]
  simp
  refine ⟨?_, ?_, ?_⟩ <;> ring

theorem veeSpd_posDef : veeSpd.PosDef := by
  intro x hx
  obtain ⟨h0, h1, h2⟩ := veeSpd_mulVec x
  have e : dotN veeSpd.m x (veeSpd.mulVec x) = x 0 * x 0 + (x 0 - x 2) * (x 0 - x 2) + (x 1 - x 2) * (x 1 - x 2) + x 1 * x 1 := by
    show ∑ i ∈ Finset.range 3, _ = _
    rw [Finset.sum_range_succ, Finset.sum_range_succ, Finset.sum_range_succ, h0, h1, h2]; simp; ring
  rw [e]
  have g0 := mul_self_nonneg (x 0)
  have g1 := mul_self_nonneg (x 0 - x 2)
  have g2 := mul_self_nonneg (x 1 - x 2)
  have g3 := mul_self_nonneg (x 1)
  by_contra hc
  have hc := not_lt.1 hc
  have k0 : x 0 = 0 := mul_self_eq_zero.1 (by linarith)
  have k2 : x 1 = 0 := mul_self_eq_zero.1 (by linarith)
  have k1 : x 0 - x 2 = 0 := mul_self_eq_zero.1 (by linarith)
  obtain ⟨i, hi, h⟩ := hx
  change i < 3 at hi
  obtain rfl | rfl | rfl : i = 0 ∨ i = 1 ∨ i = 2 := by omega
  · exact h k0
  · exact h k2
  · exact h (by linarith)

theorem veeSpd_pivots : ∀ i, i < veeSpd.m → 0 < ilu0 veeSpd veeDp veeSpd.m veeSpd.val (veeDp i) := by
  have : ∀ i < 3, 0 < ilu0 veeSpd veeDp 3 veeSpd.val (veeDp i) := by decide +kernel
  exact fun i hi => this i hi

/-- A schedule of `veeSpd` for two threads as the library builds it, with transitive reduction. -/
theorem veeSpd_built : ∃ S, Built S veeSpd veeDp (fun i => veeSpd.ptr (i + 1)) false exLevels ∧ S.T = 2 := by
  obtain ⟨P, lvl, h1, h2, _⟩ := C30_task_partition_partial (useBarrier := false) (agg := false) (T := 2) (m := 3) (cost := fun _ => 1) (L := exLevels)
    ⟨fun _ => 0, fun _ => 0, fun _ => 0⟩ (by decide) vee_levels.rows (fun _ _ => by decide)
  exact ⟨_, ⟨vee_levels, false, 2, fun _ => 1, _, P, by decide, fun _ _ => Nat.one_pos, h1,
    Or.inr ⟨_, _, rfl, List.Perm.refl _, List.Perm.refl _, rfl⟩⟩, h2⟩

theorem veeSpd_opt {S : Schedule} {o : Opt} (hr : ∀ k, k ∈ [4, 5, 6] → Races.tol (CArr.rowptr k) (3 : Int))
    (h : Built S veeSpd veeDp (fun i => veeSpd.ptr (i + 1)) false exLevels) (hv : o.values = true) (he : o.extptr = false) :
    OptInput (fun _ => (8 + S.ntasks : Int)) S veeSpd o veeDp false exLevels := by
  have hm : (veeSpd.m : Int) = 3 := rfl
  exact ⟨hr, h, hv, he, veeSpd_diag, veeSpd_sorted, veeSpd_symPat, fun _ _ => by omega, by omega, by omega, by omega⟩

/-- The hypotheses of C62_symgs_same_partial (and so of C62_symgs_opt_partial) can be met: `b = (1, 1, 1)`, `x0 = (0, 1, 2)`. -/
example : ∃ S : Schedule, S.T = 2 ∧ ∃ (res : Nat × Rat) (xf : Nat → Rat),
    @Script.Ok CArr _ Races.any _ _ (pcgSymgs (fun _ => 8) 2 3 ⟨true, false, true, false, false⟩ (fun _ => triShare) id (1 / 1000) 5)
      (pcgMem 0 veeSpd (fun _ => 1 / 2) (fun i => i) (fun _ => 1)) (fun r m => r = res ∧ ∀ i : Nat, i < 3 → m (.vec 0) (i : Int) = some (xf i)) ∧
    @Script.Ok CArr _ Races.any _ _ (pcgSymgsOpt (fun _ => (8 + S.ntasks : Int)) S 3 ⟨true, false, true, false, false⟩ true (fun _ => triShare) id (1 / 1000) 5)
      (pcgMem 0 veeSpd (fun _ => 1 / 2) (fun i => i) (fun _ => 1)) (fun r m => r = res ∧ ∀ i : Nat, i < 3 → m (.vec 0) (i : Int) = some (xf i)) := by
  obtain ⟨S, hb, hT⟩ := veeSpd_built
  have hinv : ∀ i : Nat, i < veeSpd.m → (1 / 2 : Rat) * veeSpd.entry i i = 1 := by
    have : ∀ i < 3, (1 / 2 : Rat) * veeSpd.entry i i = 1 := by decide +kernel
    exact fun i hi => this i hi
  have hm : (veeSpd.m : Int) = 3 := rfl
  have hz : (veeSpd.nnz : Int) = 7 := rfl
  refine ⟨S, hT, ?_⟩
  let _ : Races CArr := Races.any
  exact C62_symgs_same_partial (A := veeSpd) (nrm := id) (e := fun _ => 1 / 2) (e' := fun _ => 1 / 2) (b := fun _ => 1) (x0 := fun i => (i : Rat)) (by decide)
    (pcgMem_input veeSpd_wf rfl hinv (fun _ => by decide)) (pcgMem_input veeSpd_wf rfl hinv (fun _ => ⟨by omega, by omega⟩))
    (veeSpd_opt (fun _ _ => trivial) hb rfl rfl) veeSpd_symm veeSpd_posDef ⟨0, by decide, by rw [(veeSpd_mulVec _).1]; norm_num⟩ (fun _ => triShare_covers)
    (fun _ => by rw [hT]; exact triShare_covers) rfl (fun v h => h) (by norm_num)

/-- The hypotheses of C62_ilu0_same_partial and C62_ilu0_converges_partial can be met. -/
example : ∃ S : Schedule, S.T = 2 ∧ (∃ (res : Nat × Rat) (xf : Nat → Rat),
    @Script.Ok CArr _ Races.any _ _ (pcgIlu0 (fun _ => 8) 2 3 (fun _ => triShare) id (1 / 1000) 5)
      (pcgIluMem 0 veeSpd veeDp (fun i => i) (fun _ => 1)) (fun r m => r = res ∧ ∀ i : Nat, i < 3 → m (.vec 0) (i : Int) = some (xf i)) ∧
    @Script.Ok CArr _ Races.any _ _ (pcgIlu0Opt (fun _ => (8 + S.ntasks : Int)) S 3 ⟨true, true, false, false, false⟩ true (fun _ => triShare) id (1 / 1000) 5)
      (pcgIluMem 0 veeSpd veeDp (fun i => i) (fun _ => 1)) (fun r m => r = res ∧ ∀ i : Nat, i < 3 → m (.vec 0) (i : Int) = some (xf i))) ∧
    @Script.Ok CArr _ Races.any _ _ (pcgIlu0Opt (fun _ => (8 + S.ntasks : Int)) S 3 ⟨true, true, false, false, false⟩ true (fun _ => triShare) id (1 / 1000) 3)
      (pcgIluMem 0 veeSpd veeDp (fun i => i) (fun _ => 1)) (fun res m => ∃ xf : Nat → Rat,
        (∀ i : Nat, i < 3 → m (.vec 0) (i : Int) = some (xf i)) ∧ res.1 ≤ 3 ∧
        id (dotN 3 (fun i => 1 - veeSpd.mulVec xf i) fun i => 1 - veeSpd.mulVec xf i) /
          id (dotN 3 (fun i => 1 - veeSpd.mulVec (fun i => (i : Rat)) i) fun i => 1 - veeSpd.mulVec (fun i => (i : Rat)) i) < (1 / 1000 : Rat)) := by
  obtain ⟨S, hb, hT⟩ := veeSpd_built
  have hm : (veeSpd.m : Int) = 3 := rfl
  have hz : (veeSpd.nnz : Int) = 7 := rfl
  refine ⟨S, hT, ?_⟩
  let _ : Races CArr := Races.any
  refine ⟨C62_ilu0_same_partial (A := veeSpd) (nrm := id) (b := fun _ => 1) (x0 := fun i => (i : Rat)) (by decide)
    (pcgIluMem_input veeSpd_wf rfl veeSpd_sorted veeSpd_diag (fun _ => by decide)) (pcgIluMem_input veeSpd_wf rfl veeSpd_sorted veeSpd_diag (fun _ => ⟨by omega, by omega⟩))
    (veeSpd_opt (fun _ _ => trivial) hb rfl rfl) (by simp) veeSpd_symm veeSpd_posDef veeSpd_pivots ⟨0, by decide, by rw [(veeSpd_mulVec _).1]; norm_num⟩ (fun _ => triShare_covers)
    (fun _ => by rw [hT]; exact triShare_covers) rfl (fun v h => h) (by norm_num), ?_⟩
  exact C62_ilu0_converges_partial (A := veeSpd) (nrm := id) (b := fun _ => 1) (x0 := fun i => (i : Rat))
    (pcgIluMem_input veeSpd_wf rfl veeSpd_sorted veeSpd_diag (fun _ => ⟨by omega, by omega⟩))
    (veeSpd_opt (fun _ _ => trivial) hb rfl rfl) (by simp) veeSpd_symm veeSpd_posDef veeSpd_pivots ⟨0, by decide, by rw [(veeSpd_mulVec _).1]; norm_num⟩
    (fun _ => by rw [hT]; exact triShare_covers) rfl (fun v h => h) (by norm_num) (Nat.le_refl _)

end SpMP.Props
