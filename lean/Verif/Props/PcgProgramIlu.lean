import Verif.PcgProgramIlu
import Verif.Props.PcgProgram
import Verif.Props.PcgIlu
/-
C80, the solver with incomplete factors on the generated matrix.
-/
namespace SpMP.Props
open SpMP SpMP.Spec Finset

variable {R : Type}

section
variable {nx ny nz : Nat}

theorem lap27_sorted (d o : R) : ∀ i, i < nx * ny * nz → (SpMP.lapCsr nx ny nz d o).RowSorted i := by
  intro i hi j j' h1 h2 h3
  have hp : ((SpMP.lapCsr nx ny nz d o).row i).Pairwise (fun x y => x.1 < y.1) := by
    rw [show (SpMP.lapCsr nx ny nz d o).row i = _ from Csr.ofRows_row hi]
    exact lapList_sorted
  have hl := Csr.row_length (SpMP.lapCsr nx ny nz d o) i
  have := List.pairwise_iff_getElem.1 hp (j - (SpMP.lapCsr nx ny nz d o).ptr i) (j' - (SpMP.lapCsr nx ny nz d o).ptr i)
    (by omega) (by omega) (by omega)
  rw [Csr.row_getElem, Csr.row_getElem] at this
  rw [show (SpMP.lapCsr nx ny nz d o).ptr i + (j - (SpMP.lapCsr nx ny nz d o).ptr i) = j by omega,
    show (SpMP.lapCsr nx ny nz d o).ptr i + (j' - (SpMP.lapCsr nx ny nz d o).ptr i) = j' by omega] at this
  exact this

theorem lap27_inRow {d o : R} {i c : Nat} (hi : i < nx * ny * nz) :
    (∃ p, (SpMP.lapCsr nx ny nz d o).InRow i p ∧ (SpMP.lapCsr nx ny nz d o).col p = c) ↔ c ∈ lapCols nx ny nz i := by
  rw [← lapRows_cols d o i, List.mem_toFinset, List.mem_map,
    ← show (SpMP.lapCsr nx ny nz d o).row i = _ from Csr.ofRows_row hi]
  constructor
  · rintro ⟨p, ⟨_, h1, h2⟩, rfl⟩
    exact ⟨_, Csr.mem_row.2 ⟨p, h1, h2, rfl⟩, rfl⟩
  · rintro ⟨e, he, rfl⟩
    obtain ⟨p, h1, h2, rfl⟩ := Csr.mem_row.1 he
    exact ⟨p, ⟨hi, h1, h2⟩, rfl⟩

theorem lap27_symPat (d o : R) : SymPat (SpMP.lapCsr nx ny nz d o) := by
  intro i j hi hj h
  exact (lap27_inRow hj).2 ((lapCols_symm hi hj).1 ((lap27_inRow hi).1 h))

theorem lapCols_card_last {p : Nat × Nat × Nat} (hp : InGrid nx ny nz p) (h0 : p.1 + 1 = nx) :
    (lapCols nx ny nz (gridRow nx ny p)).card < 27 := by
  have h : (lapCols nx ny nz (gridRow nx ny p)).card ≤ (nbr nx p.1).length * ((nbr ny p.2.1).length * (nbr nz p.2.2).length) := by
    unfold lapCols
    rw [show lapRows nx ny nz (26 : Int) (-1) (gridRow nx ny p) = _ from lapRows_eq hp.2.1 hp.1]
    refine Nat.le_trans (List.toFinset_card_le _) ?_
    rw [List.length_map, lapList_length]
  have a : (nbr nx p.1).length ≤ 2 := by unfold nbr; rw [List.length_range']; omega
  have hbc : (nbr ny p.2.1).length * (nbr nz p.2.2).length ≤ 3 * 3 := Nat.mul_le_mul (nbr_le ny p.2.1).1 (nbr_le nz p.2.2).1
  exact Nat.lt_of_le_of_lt (Nat.le_trans h (Nat.mul_le_mul a hbc)) (by decide)

variable [Field R] [LinearOrder R] [IsStrictOrderedRing R]

/-- The incomplete factors of the generated matrix have positive pivots. -/
theorem lap27_pivots {dp : Nat → Nat}
    (hd : ∀ i, i < nx * ny * nz → (SpMP.lapCsr nx ny nz (26 : R) (-1)).InRow i (dp i) ∧ (SpMP.lapCsr nx ny nz (26 : R) (-1)).col (dp i) = i) :
    ∀ i, i < nx * ny * nz → 0 < ilu0 (SpMP.lapCsr nx ny nz (26 : R) (-1)) dp (nx * ny * nz) (SpMP.lapCsr nx ny nz (26 : R) (-1)).val (dp i) := by
  have hA : (SpMP.lapCsr nx ny nz (26 : R) (-1)).WF := SpMP.lapCsr_wf _ _ _ _ _
  have hsum : ∀ i, i < nx * ny * nz → ∑ c ∈ range (nx * ny * nz), (SpMP.lapCsr nx ny nz (26 : R) (-1)).entry i c =
      27 - ((lapCols nx ny nz i).card : R) := by
    intro i hi
    have h := mulVec_entries hA rfl (i := i) hi (fun _ => (1 : R))
    rw [lap_mulVec hi] at h
    simp only [mul_one, Finset.sum_const, nsmul_eq_mul] at h
    exact h.symm
  refine C61_pivots hA rfl (split_of_diag hA rfl (lap27_sorted _ _) hd) (lap27_sorted _ _) ?_ ?_ ?_
  · intro i c hi _ hne
    rw [lap_entry hi]
    split_ifs with h1 h2
    · exact absurd h2.symm hne
    · linarith [zero_lt_one (α := R)]
    · exact le_refl _
  · intro i hi
    refine le_of_le_of_eq ?_ (hsum i hi).symm
    obtain ⟨p, hp, rfl⟩ := grid_point hi
    have : ((lapCols nx ny nz (gridRow nx ny p)).card : R) ≤ 27 := by exact_mod_cast (lapCols_card hp).1
    linarith
  · intro i hi
    obtain ⟨⟨a, b, c⟩, hp, rfl⟩ := grid_point hi
    by_cases hl : a + 1 = nx
    · left
      refine lt_of_lt_of_eq ?_ (hsum _ hi).symm
      have : ((lapCols nx ny nz (gridRow nx ny (a, b, c))).card : R) < 27 := by exact_mod_cast lapCols_card_last hp hl
      linarith
    · right
      have ha : a < nx := hp.1
      have hq : InGrid nx ny nz (a + 1, b, c) := ⟨by show a + 1 < nx; omega, hp.2⟩
      have hlt : gridRow nx ny (a, b, c) < gridRow nx ny (a + 1, b, c) := by unfold gridRow; dsimp only; omega
      refine ⟨gridRow nx ny (a + 1, b, c), hlt, gridRow_lt hq, ?_⟩
      rw [lap_entry hi, if_pos ((mem_lapCols hp).2 ⟨_, hq, by unfold Near; dsimp only; omega, rfl⟩), if_neg (by omega)]
      linarith [zero_lt_one (α := R)]
end

variable [Field R] [LinearOrder R] [IsStrictOrderedRing R]

/-- **C80**, the third solver (exact arithmetic): as `C80_program_partial` for the solver preconditioned by incomplete factors; the
factors exist, because no pivot is zero. -/
theorem C80_ilu_partial {sz : CArr → Int} {T n : Nat} {sh : Nat → Share} {nrm : R → R} {tol : R} {maxiter : Nat}
    {m0 : Mem (CTy R)} (hT : 1 ≤ T) (hn : 1 ≤ n) (hlu : ((SpMP.lapCsr n n n (26 : R) (-1)).nnz : Int) ≤ sz (.vec 1))
    (hroom : SizesOk sz 3 (SpMP.lapCsr n n n (26 : R) (-1)) ⟨true, true, true, false, false⟩)
    (hvec : ∀ j, j ∈ [0, 2, 3, 4, 5, 6, 9] → ((n * n * n : Nat) : Int) ≤ sz (.vec j)) (hsh : ∀ q, (sh q).Covers T (n * n * n))
    (hn0 : nrm 0 = 0) (hnp : ∀ v, 0 < v → 0 < nrm v) (htol : 0 < tol) (hmax : 0 < maxiter) :
    (pcgProgramIlu sz T n sh nrm tol maxiter).Ok m0 (fun res m => ∃ u : Nat → R,
      (∀ i : Nat, i < n * n * n → m (.vec 0) (i : Int) = some (u i)) ∧
      res.2 = nrm (cubeResidual n u) / nrm ((n * n * n : Nat) : R) ∧
      (n * n * n ≤ maxiter → res.1 ≤ n * n * n ∧ res.2 < tol)) := by
  have hpos : 0 < n * n * n := Nat.mul_pos (Nat.mul_pos hn hn) hn
  have hA : (SpMP.lapCsr n n n (26 : R) (-1)).WF := SpMP.lapCsr_wf _ _ _ _ _
  have hsy := lap27_symm (R := R) (nx := n) (ny := n) (nz := n)
  have hpd := lap27_posDef (R := R) (nx := n) (ny := n) (nz := n)
  unfold pcgProgramIlu
  rw [Script.ok_bind]
  refine Script.Ok.mono (laplacian_ok Iff.rfl Iff.rfl (Or.inl rfl)) ?_
  rintro _ m ⟨h1, h2, h3, _⟩
  refine seq_rule (wp_fillVec (fun _ => trivial) (hvec 9 (by simp)) fun m1 a1 a2 => ?_)
  refine seq_rule (wp_fillVec (fun _ => trivial) (hvec 0 (by simp)) fun m2 b1 b2 => ?_)
  have hf : ∀ a, a ≠ .vec 0 → a ≠ .vec 9 → m2 a = m a := fun a g0 g1 => (b2 a g0).trans (a2 a g1)
  have h3' : ∀ i : Nat, ∃ j : Nat, i < n * n * n → (SpMP.lapCsr n n n (26 : R) (-1)).InRow i j ∧
      (SpMP.lapCsr n n n (26 : R) (-1)).col j = i ∧ m2 (.diagptr 0) (i : Int) = some (j : Int) := by
    intro i
    by_cases hi : i < n * n * n
    · obtain ⟨j, q1, q2, _, q, _⟩ := h3 i hi
      refine ⟨j, fun _ => ⟨q1, q2, ?_⟩⟩
      rw [hf _ (by simp) (by simp), q]
      simp
    · exact ⟨0, fun h => absurd h hi⟩
  choose dp hdp using h3'
  have hin : PcgIluInput sz m2 (SpMP.lapCsr n n n (26 : R) (-1)) dp (fun _ => 1) (fun _ => 0) :=
    { wf := hA
      square := rfl
      sorted := lap27_sorted _ _
      pat := ⟨fun i hi => by rw [hf _ (by simp) (by simp)]; exact h1.rowptr i hi,
        fun j hj => by rw [hf _ (by simp) (by simp)]; exact h1.colidx j hj⟩
      val := fun j hj => by rw [hf _ (by simp) (by simp)]; exact h2 j hj
      diag := hdp
      roomLu := hlu
      roomLU := hroom
      vx := b1
      vb := fun i hi => by rw [b2 _ (by simp)]; exact a1 i hi
      vroom := fun j hj => hvec j (by simp at hj ⊢; omega) }
  have hpiv := lap27_pivots (R := R) (fun i hi => ⟨(hdp i hi).1, (hdp i hi).2.1⟩)
  have hz : ∀ i, i < n * n * n → (SpMP.lapCsr n n n (26 : R) (-1)).mulVec (fun _ => (0 : R)) i = 0 := by
    intro i hi; rw [lap_stencil hi]; simp [stencil]
  have hr0 : ∃ i, i < (SpMP.lapCsr n n n (26 : R) (-1)).m ∧ (1 : R) ≠ (SpMP.lapCsr n n n (26 : R) (-1)).mulVec (fun _ => (0 : R)) i :=
    ⟨0, hpos, by rw [hz 0 hpos]; exact one_ne_zero⟩
  refine Script.Ok.mono (C61_pcg_ilu0_partial hT hin hsy (lap27_symPat _ _) hpd hpiv hr0 hsh hn0 hnp htol) ?_
  rintro res m' ⟨xf, g1, g2, g3, _⟩
  refine ⟨xf, g1, ?_, fun hmx => ?_⟩
  · rw [g3 hmax]
    congr 2
    · exact Finset.sum_congr rfl fun i hi => by beta_reduce; rw [lap_stencil (mem_range.1 hi)]
    · unfold dotN
      rw [Finset.sum_congr (g := fun _ => (1 : R)) rfl fun i hi => by beta_reduce; rw [hz i (mem_range.1 hi)]; ring]
      rw [Finset.sum_const, nsmul_eq_mul, card_range, mul_one]
      rfl
  · have hM := ilu_precond hA rfl hin.split hin.sorted hsy (lap27_symPat _ _) hpiv
    have hlt := pcgEnds_maxiter hA rfl hsy hM hn0 htol hr0 hmx g2
    exact ⟨pcgEnds_count hA rfl hsy hM hn0 htol hr0 hlt g2 hmx, hlt⟩

-- the cube with two points per edge, two threads
example : (pcgProgramIlu (fun _ => 64) 2 2 (fun _ => halfShare) id (1 / 1000) 20).Ok (fun _ _ => none) (fun res m => ∃ u : Nat → Rat,
      (∀ i : Nat, i < 8 → m (.vec 0) (i : Int) = some (u i)) ∧ res.2 = cubeResidual 2 u / 8 ∧ res.1 ≤ 8 ∧ res.2 < 1 / 1000) := by
  have h : (SpMP.lapCsr 2 2 2 (26 : Rat) (-1)).nnz = 64 := by decide +kernel
  have h' : (SpMP.lapCsr 2 2 2 (26 : Rat) (-1)).m = 8 := rfl
  refine Script.Ok.mono (C80_ilu_partial (by decide) (by decide) (by rw [h]; decide) ?_ ?_ (fun _ => ⟨?_, ?_⟩) rfl (fun v h => h)
    (by norm_num) (by decide)) ?_
  · refine ⟨?_, ?_, ?_, ?_, ?_, ?_, ?_⟩ <;> simp [h, h']
  · intro j _; decide
  · show List.Perm ([0, 1, 2, 3, 4, 5, 6, 7] : List Nat) (List.range 8)
    decide
  · show List.Perm ([1, 2, 0] : List Nat) [0, 1, 2]
    decide
  · rintro res m ⟨u, h1, h2, h3⟩
    exact ⟨u, h1, by simpa using h2, h3 (by decide)⟩

end SpMP.Props
