import Verif.PcgProgramOpt
import Verif.Props.PcgProgramIlu
import Verif.Props.PcgOpt
/-
C80, the solvers on the reordered system on the generated matrix.
-/
namespace SpMP.Props
open SpMP SpMP.Spec Finset

variable {R : Type} [Races CArr] [Field R] [LinearOrder R] [IsStrictOrderedRing R]

theorem cube_zero {n : Nat} : ∀ i, i < n * n * n → (SpMP.lapCsr n n n (26 : R) (-1)).mulVec (fun _ => (0 : R)) i = 0 := by
  intro i hi; rw [lap_stencil hi]; simp [stencil]

theorem cube_start {n : Nat} (hn : 1 ≤ n) :
    ∃ i, i < (SpMP.lapCsr n n n (26 : R) (-1)).m ∧ (1 : R) ≠ (SpMP.lapCsr n n n (26 : R) (-1)).mulVec (fun _ => (0 : R)) i := by
  have hpos : 0 < n * n * n := Nat.mul_pos (Nat.mul_pos hn hn) hn
  exact ⟨0, hpos, by rw [cube_zero 0 hpos]; exact one_ne_zero⟩

/-- What the end of a run means on the cube. -/
theorem cube_post {n : Nat} (hn : 1 ≤ n) {M : (Nat → R) → (Nat → R) → Prop} (hM : Precond (SpMP.lapCsr n n n (26 : R) (-1)).m M) {nrm : R → R}
    {tol : R} {maxiter : Nat} {res : Nat × R} {xf : Nat → R} (hn0 : nrm 0 = 0) (htol : 0 < tol) (hmax : 0 < maxiter)
    (g2 : PcgEnds (SpMP.lapCsr n n n (26 : R) (-1)) M (fun _ => 1) (fun _ => 0) nrm tol maxiter res xf) :
    res.2 = nrm (cubeResidual n xf) / nrm ((n * n * n : Nat) : R) ∧ (n * n * n ≤ maxiter → res.1 ≤ n * n * n ∧ res.2 < tol) := by
  have hA : (SpMP.lapCsr n n n (26 : R) (-1)).WF := SpMP.lapCsr_wf _ _ _ _ _
  have hsy := lap27_symm (R := R) (nx := n) (ny := n) (nz := n)
  have hr0 := cube_start (R := R) hn
  refine ⟨?_, fun hmx => ?_⟩
  · rw [ends_residual hA rfl g2 hmax]
    congr 2
    · exact Finset.sum_congr rfl fun i hi => by beta_reduce; rw [lap_stencil (mem_range.1 hi)]
    · unfold dotN
      rw [Finset.sum_congr (g := fun _ => (1 : R)) rfl fun i hi => by beta_reduce; rw [cube_zero i (mem_range.1 hi)]; ring]
      rw [Finset.sum_const, nsmul_eq_mul, card_range, mul_one]
      rfl
  · have hlt := pcgEnds_maxiter hA rfl hsy hM hn0 htol hr0 hmx g2
    exact ⟨pcgEnds_count hA rfl hsy hM hn0 htol hr0 hlt g2 hmx, hlt⟩

/-- What the two solvers need: `S` is a schedule the library builds for the matrix of the cube, whose diagonal entries are at `dp`, and
there is room for the permutations, the flags and the vectors; the last row pointer of a permuted matrix may be written by several
threads (with one value, C58). -/
structure CubeSchedule (R : Type) [Ring R] (sz : CArr → Int) (S : Schedule) (n : Nat) (dp : Nat → Nat) (ub : Bool) (L : List (List Nat)) : Prop where
  race : ∀ k, k ∈ [4, 5, 6] → Races.tol (CArr.rowptr k) ((n * n * n : Nat) : Int)
  diag : ∀ i, i < n * n * n → (SpMP.lapCsr n n n (26 : R) (-1)).InRow i (dp i) ∧ (SpMP.lapCsr n n n (26 : R) (-1)).col (dp i) = i
  built : Built S (SpMP.lapCsr n n n (26 : R) (-1)) dp (fun i => (SpMP.lapCsr n n n (26 : R) (-1)).ptr (i + 1)) ub L
  vroom : ∀ j, j ∈ [0, 1, 2, 3, 4, 5, 6, 8, 9, 10] → ((n * n * n : Nat) : Int) ≤ sz (.vec j)
  flags : (S.ntasks : Int) ≤ sz (.itmp 0)
  perm : ((n * n * n : Nat) : Int) ≤ sz (.itmp 0)
  inverse : ((n * n * n : Nat) : Int) ≤ sz (.itmp 1)

omit [LinearOrder R] [IsStrictOrderedRing R] in
theorem CubeSchedule.opt {sz : CArr → Int} {S : Schedule} {n : Nat} {dp : Nat → Nat} {ub : Bool} {L : List (List Nat)}
    (h : CubeSchedule R sz S n dp ub L) : OptInput sz S (SpMP.lapCsr n n n (26 : R) (-1)) allOpt dp ub L where
  race := h.race
  built := h.built
  values := rfl
  noext := rfl
  diag := h.diag
  sorted := lap27_sorted _ _
  pattern := lap27_symPat _ _
  vroom := fun j hj => h.vroom j (by simp at hj ⊢; omega)
  flags := h.flags
  perm := h.perm
  inverse := h.inverse

/-- **C80**, the second solver (exact arithmetic): as `C80_program_partial` for symmetric Gauss-Seidel on the reordered system, for every
schedule the library builds for the matrix and every interleaving of its point-to-point synchronised sweeps. -/
theorem C80_symgs_opt_partial {sz : CArr → Int} {S : Schedule} {n : Nat} {dp : Nat → Nat} {ub dbg : Bool} {L : List (List Nat)} {sh : Nat → Share}
    {nrm : R → R} {tol : R} {maxiter : Nat} {m0 : Mem (CTy R)} (hn : 1 ≤ n) (hS : CubeSchedule R sz S n dp ub L)
    (hroom : SizesOk sz 0 (SpMP.lapCsr n n n (26 : R) (-1)) allOpt) (hsh : ∀ q, (sh q).Covers S.T (n * n * n))
    (hn0 : nrm 0 = 0) (hnp : ∀ v, 0 < v → 0 < nrm v) (htol : 0 < tol) (hmax : 0 < maxiter) :
    (pcgProgramOpt sz S n dbg sh nrm tol maxiter).Ok m0 (fun res m => ∃ u : Nat → R,
      (∀ i : Nat, i < n * n * n → m (.vec 0) (i : Int) = some (u i)) ∧
      res.2 = nrm (cubeResidual n u) / nrm ((n * n * n : Nat) : R) ∧
      (n * n * n ≤ maxiter → res.1 ≤ n * n * n ∧ res.2 < tol)) := by
  have hA : (SpMP.lapCsr n n n (26 : R) (-1)).WF := SpMP.lapCsr_wf _ _ _ _ _
  have hsy := lap27_symm (R := R) (nx := n) (ny := n) (nz := n)
  have hpd := lap27_posDef (R := R) (nx := n) (ny := n) (nz := n)
  unfold pcgProgramOpt
  rw [Script.ok_bind]
  refine Script.Ok.mono (laplacian_ok Iff.rfl Iff.rfl (Or.inl rfl)) ?_
  rintro _ m ⟨h1, h2, h3, _⟩
  refine seq_rule (wp_fillVec (fun _ => trivial) (hS.vroom 1 (by simp)) fun m1 a1 a2 => ?_)
  refine seq_rule (wp_fillVec (fun _ => trivial) (hS.vroom 0 (by simp)) fun m2 b1 b2 => ?_)
  have hf : ∀ a, a ≠ .vec 0 → a ≠ .vec 1 → m2 a = m a := fun a g0 g1 => (b2 a g0).trans (a2 a g1)
  have hin : PcgInput sz m2 (SpMP.lapCsr n n n (26 : R) (-1)) allOpt (fun i => (SpMP.lapCsr n n n (26 : R) (-1)).ptr (i + 1))
      (fun _ => 1 / 26) (fun _ => 1) (fun _ => 0) :=
    { wf := hA
      square := rfl
      pat := ⟨fun i hi => by rw [hf _ (by simp) (by simp)]; exact h1.rowptr i hi,
        fun j hj => by rw [hf _ (by simp) (by simp)]; exact h1.colidx j hj⟩
      val := fun j hj => by rw [hf _ (by simp) (by simp)]; exact h2 j hj
      room := hroom
      ext := ⟨by simp [allOpt], fun _ _ _ => rfl, fun i hi => ⟨hA.ptr_mono (by omega) hi, Nat.le_refl _⟩⟩
      extUp := fun i j _ g1 g2 => by omega
      diagptr := fun _ i hi => by
        obtain ⟨j, _, _, _, q, _⟩ := h3 i hi
        exact ⟨_, by rw [hf _ (by simp) (by simp)]; exact q⟩
      idiag := fun i hi => by
        obtain ⟨j, _, _, _, _, q, _⟩ := h3 i hi
        rw [hf _ (by simp) (by simp)]; exact q
      inv := fun i hi => lap_inv hi
      vx := b1
      vb := fun i hi => by rw [b2 _ (by simp)]; exact a1 i hi
      vroom := fun j hj => hS.vroom j (by simp at hj ⊢; omega) }
  refine Script.Ok.mono (C62_symgs_opt_partial hin hS.opt hsy hpd (cube_start hn) hsh hn0 hnp htol) ?_
  rintro res m' ⟨xf, g1, g2, _⟩
  exact ⟨xf, g1, cube_post hn (symGS_precond hA rfl hsy hpd fun _ _ => rfl) hn0 htol hmax g2⟩

/-- **C80**, the fourth solver (exact arithmetic): the same with incomplete factors, which are computed under the same schedule. -/
theorem C80_ilu_opt_partial {sz : CArr → Int} {S : Schedule} {n : Nat} {dp : Nat → Nat} {ub dbg : Bool} {L : List (List Nat)} {sh : Nat → Share}
    {nrm : R → R} {tol : R} {maxiter : Nat} {m0 : Mem (CTy R)} (hn : 1 ≤ n) (hS : CubeSchedule R sz S n dp ub L)
    (hlu : ((SpMP.lapCsr n n n (26 : R) (-1)).nnz : Int) ≤ sz (.vec 1))
    (hroom : SizesOk sz 3 (SpMP.lapCsr n n n (26 : R) (-1)) ⟨true, true, true, false, false⟩) (hsh : ∀ q, (sh q).Covers S.T (n * n * n))
    (hn0 : nrm 0 = 0) (hnp : ∀ v, 0 < v → 0 < nrm v) (htol : 0 < tol) (hmax : 0 < maxiter) :
    (pcgProgramIluOpt sz S n dbg sh nrm tol maxiter).Ok m0 (fun res m => ∃ u : Nat → R,
      (∀ i : Nat, i < n * n * n → m (.vec 0) (i : Int) = some (u i)) ∧
      res.2 = nrm (cubeResidual n u) / nrm ((n * n * n : Nat) : R) ∧
      (n * n * n ≤ maxiter → res.1 ≤ n * n * n ∧ res.2 < tol)) := by
  have hA : (SpMP.lapCsr n n n (26 : R) (-1)).WF := SpMP.lapCsr_wf _ _ _ _ _
  have hsy := lap27_symm (R := R) (nx := n) (ny := n) (nz := n)
  have hpd := lap27_posDef (R := R) (nx := n) (ny := n) (nz := n)
  unfold pcgProgramIluOpt
  rw [Script.ok_bind]
  refine Script.Ok.mono (laplacian_ok Iff.rfl Iff.rfl (Or.inl rfl)) ?_
  rintro _ m ⟨h1, h2, h3, _⟩
  refine seq_rule (wp_fillVec (fun _ => trivial) (hS.vroom 9 (by simp)) fun m1 a1 a2 => ?_)
  refine seq_rule (wp_fillVec (fun _ => trivial) (hS.vroom 0 (by simp)) fun m2 b1 b2 => ?_)
  have hf : ∀ a, a ≠ .vec 0 → a ≠ .vec 9 → m2 a = m a := fun a g0 g1 => (b2 a g0).trans (a2 a g1)
  have hin : PcgIluInput sz m2 (SpMP.lapCsr n n n (26 : R) (-1)) dp (fun _ => 1) (fun _ => 0) :=
    { wf := hA
      square := rfl
      sorted := lap27_sorted _ _
      pat := ⟨fun i hi => by rw [hf _ (by simp) (by simp)]; exact h1.rowptr i hi,
        fun j hj => by rw [hf _ (by simp) (by simp)]; exact h1.colidx j hj⟩
      val := fun j hj => by rw [hf _ (by simp) (by simp)]; exact h2 j hj
      diag := fun i hi => by
        obtain ⟨j, q1, q2, _, q, _⟩ := h3 i hi
        obtain ⟨d1, d2⟩ := hS.diag i hi
        have e : j = dp i := sorted_inj (lap27_sorted _ _ i hi) q1.2.1 q1.2.2 d1.2.1 d1.2.2 (q2.trans d2.symm)
        refine ⟨d1, d2, ?_⟩
        rw [hf _ (by simp) (by simp), q, e]
        simp
      roomLu := hlu
      roomLU := hroom
      vx := b1
      vb := fun i hi => by rw [b2 _ (by simp)]; exact a1 i hi
      vroom := fun j hj => hS.vroom j (by simp at hj ⊢; omega) }
  have hpiv := lap27_pivots (R := R) hS.diag
  refine Script.Ok.mono (C62_ilu0_opt_partial hin hS.opt (fun _ i hi => by
    obtain ⟨j, _, _, _, _, q, _⟩ := h3 i hi
    exact ⟨_, by rw [hf _ (by simp) (by simp)]; exact q⟩) hsy hpd hpiv (cube_start hn) hsh hn0 hnp htol) ?_
  rintro res m' ⟨xf, g1, g2, _⟩
  exact ⟨xf, g1, cube_post hn (ilu_precond hA rfl hin.split hin.sorted hsy (lap27_symPat _ _) hpiv) hn0 htol hmax g2⟩

/-! ### Instances: the cube with two points per edge, in which every point depends on all before it -/

/-- Its levels. -/
def cubeLevels : List (List Nat) := [[0], [1], [2], [3], [4], [5], [6], [7]]

omit [Races CArr] in
theorem cube_dep {j i : Nat} : Dep (SpMP.lapCsr 2 2 2 (26 : Rat) (-1)) j i ↔ j < i ∧ i < 8 := by
  have hall : ∀ i < 8, ∀ j < i, j ∈ lapCols 2 2 2 i := by decide +kernel
  constructor
  · rintro ⟨h, p, hp, _⟩
    exact ⟨h, hp.1⟩
  · rintro ⟨h, h8⟩
    exact ⟨h, (lap27_inRow (show i < 2 * 2 * 2 from h8)).2 (hall i h8 j h)⟩

omit [Races CArr] in
theorem cube_levels : LevelDecomp (Dep (SpMP.lapCsr 2 2 2 (26 : Rat) (-1))) 8 cubeLevels := by
  have hm : ∀ k i, i ∈ cubeLevels.getD k [] ↔ k = i ∧ i < 8 := by
    intro k i
    by_cases hk : k < 8
    · have : ∀ k < 8, cubeLevels.getD k [] = [k] := by decide
      rw [this k hk, List.mem_singleton]; omega
    · have : cubeLevels.getD k [] = [] := by
        rw [List.getD_eq_getElem?_getD, List.getElem?_eq_none (show 8 ≤ k by omega)]; rfl
      rw [this]; simp; omega
  refine ⟨by decide, by decide, ?_, ?_, ?_⟩
  · intro k i j hi hd
    obtain ⟨rfl, h8⟩ := (hm k i).1 hi
    have := cube_dep.1 hd
    exact ⟨j, this.1, (hm j j).2 ⟨rfl, by omega⟩⟩
  · intro k i hi
    obtain ⟨rfl, h8⟩ := (hm k i).1 hi
    clear hi
    induction k with
    | zero => exact Chain.start 0
    | succ k ih => exact Chain.step (ih (by omega)) (cube_dep.2 ⟨by omega, h8⟩)
  · intro k i k' hi hc
    obtain ⟨rfl, h8⟩ := (hm k i).1 hi
    clear hi
    have : ∀ q r, Chain (Dep (SpMP.lapCsr 2 2 2 (26 : Rat) (-1))) q r → q ≤ r := by
      intro q r h
      induction h with
      | start i => exact Nat.zero_le _
      | step _ hd ih => have := (cube_dep.1 hd).1; omega
    exact this _ _ hc

omit [Races CArr] in
theorem cube_built : ∃ S, Built S (SpMP.lapCsr 2 2 2 (26 : Rat) (-1)) (fun i => 9 * i) (fun i => (SpMP.lapCsr 2 2 2 (26 : Rat) (-1)).ptr (i + 1))
    false cubeLevels ∧ S.T = 2 := by
  obtain ⟨P, lvl, h1, h2, _⟩ := C30_task_partition_partial (useBarrier := false) (agg := false) (T := 2) (m := 8) (cost := fun _ => 1) (L := cubeLevels)
    ⟨fun _ => 0, fun _ => 0, fun _ => 0⟩ (by decide) cube_levels.rows (fun _ _ => by decide)
  exact ⟨_, ⟨cube_levels, false, 2, fun _ => 1, _, P, by decide, fun _ _ => Nat.one_pos, h1,
    Or.inr ⟨_, _, rfl, List.Perm.refl _, List.Perm.refl _, rfl⟩⟩, h2⟩

omit [Races CArr] in
theorem cube_diag : ∀ i, i < 2 * 2 * 2 → (SpMP.lapCsr 2 2 2 (26 : Rat) (-1)).InRow i (9 * i) ∧ (SpMP.lapCsr 2 2 2 (26 : Rat) (-1)).col (9 * i) = i := by
  have : ∀ i < 8, (i < 8 ∧ (SpMP.lapCsr 2 2 2 (26 : Rat) (-1)).ptr i ≤ 9 * i ∧ 9 * i < (SpMP.lapCsr 2 2 2 (26 : Rat) (-1)).ptr (i + 1)) ∧
      (SpMP.lapCsr 2 2 2 (26 : Rat) (-1)).col (9 * i) = i := by decide +kernel
  exact fun i hi => this i hi

omit [Races CArr] in
theorem halfShare_covers : halfShare.Covers 2 (2 * 2 * 2) := by
  refine ⟨?_, ?_⟩
  · show List.Perm ([0, 1, 2, 3, 4, 5, 6, 7] : List Nat) (List.range 8)
    decide
  · show List.Perm ([1, 2, 0] : List Nat) [0, 1, 2]
    decide

omit [Races CArr] in
/-- The hypotheses of C80_symgs_opt_partial and C80_ilu_opt_partial can be met, with a schedule for two threads. -/
example : ∃ S : Schedule, S.T = 2 ∧
    @Script.Ok CArr _ Races.any _ _ (pcgProgramOpt (fun _ => (64 + S.ntasks : Int)) S 2 true (fun _ => halfShare) id (1 / 1000) 20)
      (fun _ _ => none) (fun res m => ∃ u : Nat → Rat, (∀ i : Nat, i < 2 * 2 * 2 → m (.vec 0) (i : Int) = some (u i)) ∧
        res.2 = id (cubeResidual 2 u) / id ((2 * 2 * 2 : Nat) : Rat) ∧ (2 * 2 * 2 ≤ 20 → res.1 ≤ 2 * 2 * 2 ∧ res.2 < 1 / 1000)) ∧
    @Script.Ok CArr _ Races.any _ _ (pcgProgramIluOpt (fun _ => (64 + S.ntasks : Int)) S 2 true (fun _ => halfShare) id (1 / 1000) 20)
      (fun _ _ => none) (fun res m => ∃ u : Nat → Rat, (∀ i : Nat, i < 2 * 2 * 2 → m (.vec 0) (i : Int) = some (u i)) ∧
        res.2 = id (cubeResidual 2 u) / id ((2 * 2 * 2 : Nat) : Rat) ∧ (2 * 2 * 2 ≤ 20 → res.1 ≤ 2 * 2 * 2 ∧ res.2 < 1 / 1000)) := by
  obtain ⟨S, hb, hT⟩ := cube_built
  have h : (SpMP.lapCsr 2 2 2 (26 : Rat) (-1)).nnz = 64 := by decide +kernel
  have h' : (SpMP.lapCsr 2 2 2 (26 : Rat) (-1)).m = 8 := rfl
  refine ⟨S, hT, ?_⟩
  let _ : Races CArr := Races.any
  have hS : CubeSchedule Rat (fun _ => (64 + S.ntasks : Int)) S 2 (fun i => 9 * i) false cubeLevels :=
    ⟨fun _ _ => trivial, cube_diag, hb, fun _ _ => by omega, by omega, by omega, by omega⟩
  have hsh : ∀ q : Nat, ((fun _ => halfShare : Nat → Share) q).Covers S.T (2 * 2 * 2) := fun _ => by rw [hT]; exact halfShare_covers
  refine ⟨C80_symgs_opt_partial (by decide) hS ?_ hsh rfl (fun v h => h) (by norm_num) (by decide),
    C80_ilu_opt_partial (by decide) hS (by rw [h]; omega) ?_ hsh rfl (fun v h => h) (by norm_num) (by decide)⟩
  · refine ⟨?_, ?_, fun _ => ?_, fun _ => ?_, fun _ => ?_, fun _ => ?_, fun _ => ?_⟩ <;> (try rw [h']) <;> (try rw [h]) <;> omega
  · refine ⟨?_, ?_, fun _ => ?_, fun _ => ?_, fun _ => ?_, fun _ => ?_, fun _ => ?_⟩ <;> (try rw [h']) <;> (try rw [h]) <;> omega

end SpMP.Props
