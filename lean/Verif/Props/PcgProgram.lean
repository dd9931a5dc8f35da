import Verif.PcgProgram
import Verif.Props.LapSpd
import Verif.Props.Pcg
/-
C80: the solver program on the generated matrix.
-/
namespace SpMP.Props
open SpMP SpMP.Spec Finset

variable {R : Type}

/-- The coordinates of point `r` of the cube with `n` points per edge. -/
def cubePoint (n r : Nat) : Nat × Nat × Nat := (r % n, r / n % n, r / n / n)

/-- Another point, at distance at most one in each coordinate. -/
def CubeNbr (n r c : Nat) : Prop := c ≠ r ∧ Near (cubePoint n r) (cubePoint n c)

instance (n r c : Nat) : Decidable (CubeNbr n r c) := by unfold CubeNbr Near; infer_instance

/-- The 27-point operator at point `r`: 26 times the value there, less the values at its neighbours. -/
def stencil [CommRing R] (n : Nat) (u : Nat → R) (r : Nat) : R :=
  26 * u r - ∑ c ∈ (range (n * n * n)).filter (CubeNbr n r), u c

/-- The sum of the squares of the residuals of `u` for the right-hand side 1. -/
def cubeResidual [CommRing R] (n : Nat) (u : Nat → R) : R := ∑ r ∈ range (n * n * n), (1 - stencil n u r) * (1 - stencil n u r)

theorem cubePoint_in {n r : Nat} (hr : r < n * n * n) : InGrid n n n (cubePoint n r) ∧ gridRow n n (cubePoint n r) = r := by
  obtain ⟨c1, c2, c3, c4⟩ := lap_coords hr
  exact ⟨⟨c3, c2, c1⟩, c4⟩

theorem lapCols_cube {n r : Nat} (hr : r < n * n * n) :
    lapCols n n n r = insert r ((range (n * n * n)).filter (CubeNbr n r)) := by
  obtain ⟨hp, he⟩ := cubePoint_in hr
  ext c
  have hm := mem_lapCols hp (c := c)
  rw [he] at hm
  rw [hm, mem_insert, mem_filter, mem_range]
  constructor
  · rintro ⟨q, hq, hn, rfl⟩
    have hc := gridRow_lt hq
    obtain ⟨h1, h2⟩ := cubePoint_in hc
    have hqe := gridRow_inj h1 hq h2
    by_cases h : gridRow n n q = r
    · exact Or.inl h
    · exact Or.inr ⟨hc, h, by rw [hqe]; exact hn⟩
  · rintro (rfl | ⟨hc, _, hn⟩)
    · exact ⟨_, hp, by unfold Near; omega, he.symm⟩
    · obtain ⟨h1, h2⟩ := cubePoint_in hc
      exact ⟨_, h1, hn, h2.symm⟩

theorem lap_stencil [CommRing R] {n r : Nat} (hr : r < n * n * n) (u : Nat → R) :
    (lapCsr n n n (26 : R) (-1)).mulVec u r = stencil n u r := by
  rw [lap_mulVec hr, lapCols_cube hr, Finset.sum_insert (by simp [CubeNbr])]
  unfold stencil
  ring

section
variable {sz : CArr → Int} {W Rd : CArr → Int → Prop}

theorem wp_fillVec {v n : Nat} {c : R} {m0 : Mem (CTy R)} {Q : Unit → Mem (CTy R) → Prop} (hW : ∀ i, W (.vec v) i)
    (hs : (n : Int) ≤ sz (.vec v))
    (hQ : ∀ m, (∀ j : Nat, j < n → m (.vec v) (j : Int) = some c) → (∀ a, a ≠ .vec v → m a = m0 a) → Q () m) :
    wp sz W Rd (fillVec v n c) m0 Q := by
  unfold fillVec
  refine wp_forUp (fun i _ m => (∀ j : Nat, (j : Int) < i → m (.vec v) (j : Int) = some c) ∧ ∀ a, a ≠ .vec v → m a = m0 a)
    ⟨fun j hj => by omega, fun _ _ => rfl⟩ ?_ ?_
  · rintro i _ m h0 hi ⟨h1, h2⟩
    refine wp_write.2 ⟨hW _, h0, by omega, ?_, ?_⟩
    · intro j hj
      by_cases he : (j : Int) = i
      · rw [he]; exact Mem.get_same _ _ _ _
      · rw [Mem.get_ne _ _ _ _ _ he]; exact h1 j (by omega)
    · intro a ha
      rw [Mem.set_other _ _ _ _ _ ha]; exact h2 a ha
  · rintro _ m ⟨h1, h2⟩
    exact hQ m (fun j hj => h1 j (by omega)) h2
end

variable [Field R] [LinearOrder R] [IsStrictOrderedRing R]

/-- **C80** (exact arithmetic; the first of the four solvers): run with a number `n`, the program generates its matrix, and the
solver ends without undefined behaviour for every team, sharing of the inner products and interleaving; the relative
residual it prints is that of the 27-point operator on the `n`-cube for the right-hand side 1 at the `x` it leaves, and if as many
iterations are allowed as there are points, it is below the tolerance. -/
theorem C80_program_partial {sz : CArr → Int} {T n : Nat} {sh : Nat → Share} {nrm : R → R} {tol : R} {maxiter : Nat}
    {m0 : Mem (CTy R)} (hT : 1 ≤ T) (hn : 1 ≤ n) (hroom : SizesOk sz 0 (lapCsr n n n (26 : R) (-1)) allOpt)
    (hvec : ∀ j, j ∈ [0, 1, 2, 3, 4, 5, 6] → ((n * n * n : Nat) : Int) ≤ sz (.vec j)) (hsh : ∀ q, (sh q).Covers T (n * n * n))
    (hn0 : nrm 0 = 0) (hnp : ∀ v, 0 < v → 0 < nrm v) (htol : 0 < tol) (hmax : 0 < maxiter) :
    (pcgProgram sz T n sh nrm tol maxiter).Ok m0 (fun res m => ∃ u : Nat → R,
      (∀ i : Nat, i < n * n * n → m (.vec 0) (i : Int) = some (u i)) ∧
      res.2 = nrm (cubeResidual n u) / nrm ((n * n * n : Nat) : R) ∧
      (n * n * n ≤ maxiter → res.1 ≤ n * n * n ∧ res.2 < tol)) := by
  have hpos : 0 < n * n * n := Nat.mul_pos (Nat.mul_pos hn hn) hn
  have hA : (lapCsr n n n (26 : R) (-1)).WF := lapCsr_wf _ _ _ _ _
  have hsy := lap27_symm (R := R) (nx := n) (ny := n) (nz := n)
  have hpd := lap27_posDef (R := R) (nx := n) (ny := n) (nz := n)
  unfold pcgProgram
  rw [Script.ok_bind]
  refine Script.Ok.mono (laplacian_ok Iff.rfl Iff.rfl (Or.inl rfl)) ?_
  rintro _ m ⟨h1, h2, h3, _⟩
  refine seq_rule (wp_fillVec (fun _ => trivial) (hvec 1 (by simp)) fun m1 a1 a2 => ?_)
  refine seq_rule (wp_fillVec (fun _ => trivial) (hvec 0 (by simp)) fun m2 b1 b2 => ?_)
  have hf : ∀ a, a ≠ .vec 0 → a ≠ .vec 1 → m2 a = m a := fun a g0 g1 => (b2 a g0).trans (a2 a g1)
  have hin : PcgInput sz m2 (lapCsr n n n (26 : R) (-1)) allOpt (fun i => (lapCsr n n n (26 : R) (-1)).ptr (i + 1))
      (fun _ => 1 / 26) (fun _ => 1) (fun _ => 0) :=
    { wf := hA
      square := rfl
      pat := ⟨fun i hi => by rw [hf _ (by simp) (by simp)]; exact h1.rowptr i hi,
        fun j hj => by rw [hf _ (by simp) (by simp)]; exact h1.colidx j hj⟩
      val := fun j hj => by rw [hf _ (by simp) (by simp)]; exact h2 j hj
      room := hroom
      ext := ⟨by simp [allOpt], fun _ _ _ => rfl, fun i hi => ⟨hA.ptr_mono (by omega) hi, Nat.le_refl _⟩⟩
      extUp := fun i j _ g1 g2 => by omega
      diagptr := fun _ i hi => by
        obtain ⟨j, _, _, _, q, _⟩ := h3 i hi
        exact ⟨_, by rw [hf _ (by simp) (by simp)]; exact q⟩
      idiag := fun i hi => by
        obtain ⟨j, _, _, _, _, q, _⟩ := h3 i hi
        rw [hf _ (by simp) (by simp)]; exact q
      inv := fun i hi => lap_inv hi
      vx := b1
      vb := fun i hi => by rw [b2 _ (by simp)]; exact a1 i hi
      vroom := fun j hj => hvec j (by simp at hj ⊢; omega) }
  have hz : ∀ i, i < n * n * n → (lapCsr n n n (26 : R) (-1)).mulVec (fun _ => (0 : R)) i = 0 := by
    intro i hi; rw [lap_stencil hi]; simp [stencil]
  have hr0 : ∃ i, i < (lapCsr n n n (26 : R) (-1)).m ∧ (1 : R) ≠ (lapCsr n n n (26 : R) (-1)).mulVec (fun _ => (0 : R)) i :=
    ⟨0, hpos, by rw [hz 0 hpos]; exact one_ne_zero⟩
  refine Script.Ok.mono (C60_pcg_partial hT hin hsy hpd hr0 hsh hn0 hnp htol) ?_
  rintro res m' ⟨xf, g1, g2, g3, _⟩
  refine ⟨xf, g1, ?_, fun hmx => ?_⟩
  · rw [g3 hmax]
    congr 2
    · exact Finset.sum_congr rfl fun i hi => by beta_reduce; rw [lap_stencil (mem_range.1 hi)]
    · unfold dotN
      rw [Finset.sum_congr (g := fun _ => (1 : R)) rfl fun i hi => by beta_reduce; rw [hz i (mem_range.1 hi)]; ring]
      rw [Finset.sum_const, nsmul_eq_mul, card_range, mul_one]
      rfl
  · have hlt := pcgEnds_maxiter hA rfl hsy (symGS_precond hA rfl hsy hpd fun _ _ => rfl) hn0 htol hr0 hmx g2
    exact ⟨pcgEnds_count hA rfl hsy (symGS_precond hA rfl hsy hpd fun _ _ => rfl) hn0 htol hr0 hlt g2 hmx, hlt⟩

/-- Two threads with half of the 8 iterations each. -/
def halfShare : Share := ⟨fun t => [4 * t, 4 * t + 1, 4 * t + 2, 4 * t + 3], .node (.leaf 1) (.node (.leaf 2) (.leaf 0))⟩

-- the cube with two points per edge, two threads
example : (pcgProgram (fun _ => 64) 2 2 (fun _ => halfShare) id (1 / 1000) 20).Ok (fun _ _ => none) (fun res m => ∃ u : Nat → Rat,
      (∀ i : Nat, i < 8 → m (.vec 0) (i : Int) = some (u i)) ∧ res.2 = cubeResidual 2 u / 8 ∧ res.1 ≤ 8 ∧ res.2 < 1 / 1000) := by
  refine Script.Ok.mono (C80_program_partial (by decide) (by decide) ?_ ?_ (fun _ => ⟨?_, ?_⟩) rfl (fun v h => h) (by norm_num)
    (by decide)) ?_
  · have h : (lapCsr 2 2 2 (26 : Rat) (-1)).nnz = 64 := by decide +kernel
    have h' : (lapCsr 2 2 2 (26 : Rat) (-1)).m = 8 := rfl
    refine ⟨?_, ?_, ?_, ?_, ?_, ?_, ?_⟩ <;> simp [h, h']
  · intro j _; decide
  · show List.Perm ([0, 1, 2, 3, 4, 5, 6, 7] : List Nat) (List.range 8)
    decide
  · show List.Perm ([1, 2, 0] : List Nat) [0, 1, 2]
    decide
  · rintro res m ⟨u, h1, h2, h3⟩
    exact ⟨u, h1, by simpa using h2, h3 (by decide)⟩

-- the operator at a corner of that cube is 26 times the value less the seven others
example : stencil 2 (fun i => (i : Rat)) 0 = -28 := by decide +kernel

omit [LinearOrder R] [IsStrictOrderedRing R] [_root_.Field R] in
theorem cString_none {l : List Char} (h : '\x00' ∉ l) {rest : List (Option Char)} (hr : cString rest = none) :
    cString (l.map some ++ rest) = none := by
  induction l with
  | nil => exact hr
  | cons c l ih =>
    rw [List.mem_cons, not_or] at h
    rw [List.map_cons, List.cons_append, cString, if_neg (fun e => h.1 e.symm), ih h.2]
    rfl

/-- With the name of a matrix as argument the program is undefined before it solves anything: the copy of the name without its
last four characters is never terminated, so that the buffer is read past what has been written (or written past its end). -/
theorem C80_matrix_name_ub {arg : List Char} (h4 : 4 ≤ arg.length) (h0 : '\x00' ∉ arg) : rhsName arg = none := by
  unfold rhsName strncpy
  by_cases hl : (List.replicate 1024 (none : Option Char)).length < arg.length - 4
  · rw [if_pos hl]
  · rw [if_neg hl, show arg.length - 4 - arg.length = 0 by omega, List.replicate_zero, List.append_nil]
    dsimp only
    rw [cString_none (fun hm => h0 (List.mem_of_mem_take hm))]
    · rfl
    · rw [List.drop_replicate]
      cases 1024 - (arg.length - 4) with
      | zero => rfl
      | succ k => rfl

-- inline_1.mtx, the example of the usage message with its ending
example : rhsName "inline_1.mtx".toList = none := C80_matrix_name_ub (by decide) (by decide)

end SpMP.Props
