import Verif.PcgIlu
import Verif.PcgIluMath
import Verif.PcgRun
import Verif.Props.Ilu
/-
The proof that pcg_ilu0 follows the textbook method. Models no function.
-/
namespace SpMP
open Spec

set_option linter.unusedSectionVars false

variable {R : Type} [Races CArr]

section
variable [Sub R] [Mul R] [Div R]

/-- The sequential factorisation computes the incomplete factors. -/
theorem ilu0Ref_ok {sz : CArr → Int} {m0 : Mem (CTy R)} {A : Csr R} {dp ep : Nat → Nat} (hwf : A.WF) (hsp : SplitRows A dp ep)
    (hs : ∀ i, i < A.m → A.RowSorted i) (hp : HoldsPat m0 0 0 A) (hv : HoldsVal m0 0 A)
    (hd : ∀ i : Nat, i < A.m → m0 (.diagptr 0) (i : Int) = some ((dp i : Int))) (hsz : (A.nnz : Int) ≤ sz (.vec 1)) :
    (ilu0Ref sz 0 A.m A.nnz).Ok m0 (fun _ m' =>
      (∀ i : Nat, i < A.nnz → m' (.vec 1) (i : Int) = some (ilu0 A dp A.m A.val i)) ∧ ∀ b, b ≠ .vec 1 → m' b = m0 b) := by
  unfold ilu0Ref
  rw [Script.ok_bind]
  refine Script.Ok.mono (Props.iluInit_ok (m0 := m0) hv hsz) ?_
  rintro _ m1 ⟨g1, g2, g3⟩
  refine seq_rule ?_
  have hmem : IluMem m1 0 A dp := by
    refine ⟨⟨?_, ?_⟩, ?_⟩
    · intro i hi; rw [g2 _ (by simp)]; exact hp.rowptr i hi
    · intro i hi; rw [g2 _ (by simp)]; exact hp.colidx i hi
    · intro i hi; rw [g2 _ (by simp), hd i hi]; simp
  have hk := iluRow_block (sz := sz) hwf hsp hs hmem hsz
  have hk' : IsBlockKernel sz m1 A.m A.nnz A.InRow A.Nbr (fun r => iluRowRef 0 (r : Int)) (elimRow A dp) := by
    intro r hr y
    have := hk r hr y
    unfold iluRow at this
    unfold iluRowRef
    simpa using this
  refine blockLoop_ok (y0 := A.val) (fun k => rfl) hk' g1 _ ?_
  rintro m' rfl
  refine Script.ok_done_of ?_
  rw [blockSweep_ilu0]
  have h3 := onlyY_of_withY m1 A.nnz (ilu0 A dp A.m A.val)
  refine ⟨h3.1, fun b hb => ?_⟩
  by_cases hb' : b = .itmp 0
  · subst hb'; rw [← g2 _ hb]; rfl
  · funext i
    rw [h3.2 b i hb' (fun h => hb h.1), g2 b hb]

end

section
variable [CommRing R]

theorem luObject_ok {sz : CArr → Int} {m0 : Mem (CTy R)} {A : Csr R} {lu : Nat → R} (hp : HoldsPat m0 0 0 A)
    (hl : ∀ i : Nat, i < A.nnz → m0 (.vec 1) (i : Int) = some (lu i)) (h1 : (A.m : Int) + 1 ≤ sz (.rowptr 3))
    (h2 : (A.nnz : Int) ≤ sz (.colidx 3)) (h3 : (A.nnz : Int) ≤ sz (.values 3)) :
    (luObject sz A.m A.nnz).Ok m0 (fun _ m' => HoldsPat m' 3 0 { A with val := lu } ∧ HoldsVal m' 3 { A with val := lu } ∧
      ∀ a, ¬ a.ofObj 3 → m' a = m0 a) := by
  unfold luObject
  rw [Script.ok_bind]
  refine Script.Ok.mono (copyArr_ok (by simp) (by push_cast; exact h1) (fun i hi => ⟨_, hp.rowptr i (by omega)⟩)) ?_
  rintro _ m1 ⟨a1, a2⟩
  rw [Script.ok_bind]
  refine Script.Ok.mono (copyArr_ok (by simp) h2 (fun i hi => ⟨_, by rw [a2 _ (by simp)]; exact hp.colidx i hi⟩)) ?_
  rintro _ m2 ⟨b1, b2⟩
  refine Script.Ok.mono (copyArr_ok (by simp) h3 (fun i hi => ⟨_, by rw [b2 _ (by simp), a2 _ (by simp)]; exact hl i hi⟩)) ?_
  rintro _ m3 ⟨c1, c2⟩
  refine ⟨⟨fun i hi => ?_, fun i hi => ?_⟩, fun i hi => ?_, fun a ha => ?_⟩
  · rw [c2 _ (by simp), b2 _ (by simp), a1 i (by have : i ≤ A.m := hi; omega), hp.rowptr i hi]; rfl
  · rw [c2 _ (by simp), b1 i hi, a2 _ (by simp), hp.colidx i hi]; rfl
  · rw [c1 i hi, b2 _ (by simp), a2 _ (by simp), hl i hi]; rfl
  · rw [c2 a (fun h => ha (by rw [h]; simp [CArr.ofObj])), b2 a (fun h => ha (by rw [h]; simp [CArr.ofObj])),
      a2 a (fun h => ha (by rw [h]; simp [CArr.ofObj]))]

theorem unitDiag_ok {sz : CArr → Int} {m0 : Mem (CTy R)} {k m : Nat} :
    (unitDiag sz k m).Ok m0 (fun _ m' => (∀ i : Nat, i < m → m' (.idiag k) (i : Int) = some (1 : R)) ∧
      ∀ a, a ≠ .idiag k → m' a = m0 a) := by
  unfold unitDiag
  refine par_rule
    (W := fun t b i => b = .idiag k ∧ i = (t : Int)) (R := fun t b i => b = .idiag k ∧ i = (t : Int))
    (Q := fun t _ m' => m' (.idiag k) (t : Int) = some (1 : R)) ?_ ?_ ?_
  · rintro t u b i ht hu htu ⟨rfl, rfl⟩ ⟨_, h⟩
    omega
  · intro t ht
    refine wp_write.2 ⟨⟨rfl, rfl⟩, by omega, ?_, ?_⟩
    · simp only [scaleSize, if_true]; omega
    · simp
  · intro _ m' hq hf
    refine Script.ok_done_of ⟨?_, ?_⟩
    · intro i hi
      obtain ⟨mt, h1, h2⟩ := hq i hi
      rw [h2 _ _ ⟨rfl, rfl⟩]; exact h1
    · intro b hb; funext i; exact hf b i (by rintro t _ ⟨h, _⟩; exact hb h)

end

section
variable [Field R]

theorem split_of_diag {A : Csr R} {dp : Nat → Nat} (hwf : A.WF) (hsq : A.n = A.m) (hs : ∀ i, i < A.m → A.RowSorted i)
    (hd : ∀ i, i < A.m → A.InRow i (dp i) ∧ A.col (dp i) = i) : SplitRows A dp fun i => A.ptr (i + 1) where
  bounds i hi := ⟨(hd i hi).1.2.1, (hd i hi).1.2.2, Nat.le_refl _⟩
  diag i hi := (hd i hi).2
  lower i p hi h1 h2 := by
    have := hs i hi p (dp i) h1 h2 (hd i hi).1.2.2
    have := (hd i hi).2
    omega
  upper i p hi h1 h2 := by
    have := hs i hi (dp i) p (hd i hi).1.2.1 h1 h2
    have := (hd i hi).2
    omega
  ext i p hi h1 h2 := by omega

/-- The triangles of the incomplete factors. -/
theorem luCsr_mul {A : Csr R} {dp ep : Nat → Nat} {lu : Nat → R} (hwf : A.WF) (hsq : A.n = A.m) (hsp : SplitRows A dp ep) {i : Nat}
    (hi : i < A.m) (y : Nat → R) :
    ({ A with val := lu } : Csr R).lowMul y i = ∑ c ∈ Finset.range A.m, loE A dp lu i c * y c ∧
    lu (dp i) * y i + ({ A with val := lu } : Csr R).upMul y i = ∑ c ∈ Finset.range A.m, upE A dp lu i c * y c := by
  obtain ⟨B, hB⟩ : ∃ B : Csr R, B = { A with val := lu } := ⟨_, rfl⟩
  have hwB : B.WF := by rw [hB]; exact ⟨hwf.1, hwf.2, hwf.3⟩
  have hb := hsp.bounds i hi
  have hent : ∀ c, B.entry i c = loE A dp lu i c + upE A dp lu i c := by
    intro c
    rw [entry_eq_part hwB (by rw [hB]; exact hi), hB]
    exact (Finset.sum_Ico_consecutive _ (by omega : A.ptr i ≤ dp i) (by omega : dp i ≤ A.ptr (i + 1))).symm
  rw [← hB]
  have hBm : B.m = A.m := by rw [hB]
  have hBn : B.n = B.m := by rw [hB]; exact hsq
  constructor
  · rw [lowMul_entries hwB hBn (by omega), hBm]
    refine Finset.sum_congr rfl fun c _ => ?_
    by_cases h : c < i
    · rw [if_pos h, hent, upE_zero hsp hi h, add_zero]
    · rw [if_neg h, loE_zero hsp hi (by omega), zero_mul]
  · rw [upMul_entries hwB hBn (by omega), hBm]
    have : ∀ c ∈ Finset.range A.m, upE A dp lu i c * y c =
        (if c = i then lu (dp i) * y i else 0) + if i < c then B.entry i c * y c else 0 := by
      intro c _
      rcases Nat.lt_trichotomy i c with hlt | rfl | hgt
      · rw [if_neg (by omega), if_pos hlt, hent, loE_zero hsp hi (by omega)]; ring
      · rw [if_pos rfl, if_neg (by omega), upE_diag hsp hi, add_zero]
      · rw [if_neg (by omega), if_neg (by omega), upE_zero hsp hi hgt]; ring
    rw [Finset.sum_congr rfl this, Finset.sum_add_distrib, Finset.sum_ite_eq', if_pos (Finset.mem_range.2 hi)]

/-- The preconditioner from the triangles of the incomplete factors. -/
theorem iluPrec_of_triSolve {A : Csr R} {dp ep : Nat → Nat} {lu z r : Nat → R} (hwf : A.WF) (hsq : A.n = A.m) (hsp : SplitRows A dp ep)
    (hpiv : ∀ i, i < A.m → lu (dp i) ≠ 0)
    (h : TriSolve A.m (lowCsr { A with val := lu }) (upCsr { A with val := lu }) (fun _ => 1) (fun i => 1 / lu (dp i)) z r) :
    IluPrec A dp lu z r := by
  have hwB : ({ A with val := lu } : Csr R).WF := ⟨hwf.1, hwf.2, hwf.3⟩
  obtain ⟨y, h1, h2⟩ := h
  refine (iluPrec_iff hwf hsq hsp).2 ⟨y, fun i hi => ?_, fun i hi => ?_⟩
  · have e := h2 i hi
    have hm : (upCsr { A with val := lu }).mulVec z i = ({ A with val := lu } : Csr R).upMul z i := by
      rw [Props.mulVec_eq_row (upCsr_wf hwB) hi, show (upCsr { A with val := lu }).row i = _ from Csr.ofRows_row hi]; rfl
    rw [hm] at e
    rw [← (luCsr_mul (lu := lu) hwf hsq hsp hi z).2]
    have hne := hpiv i hi
    rw [mul_one_div, eq_div_iff hne] at e
    linear_combination e
  · have e := h1 i hi
    have hm : (lowCsr { A with val := lu }).mulVec y i = ({ A with val := lu } : Csr R).lowMul y i := by
      rw [Props.mulVec_eq_row (lowCsr_wf hwB) hi, show (lowCsr { A with val := lu }).row i = _ from Csr.ofRows_row hi]; rfl
    rw [hm] at e
    rw [← (luCsr_mul (lu := lu) hwf hsq hsp hi y).1]
    linear_combination e

end

section run
variable [Field R] [LinearOrder R] [IsStrictOrderedRing R]
variable {sz : CArr → Int} {T : Nat} {sh : Nat → Share} {nrm : R → R} {tol : R} {A : Csr R} {b x0 : Nat → R}

theorem pcgIlu0_ok {dp : Nat → Nat} {maxiter : Nat} {m0 : Mem (CTy R)}
    (hT : 1 ≤ T) (hwf : A.WF) (hsq : A.n = A.m) (hs : ∀ i, i < A.m → A.RowSorted i) (hsy : A.Symm) (hpat : SymPat A) (hpd : A.PosDef)
    (hpos : ∀ i, i < A.m → 0 < ilu0 A dp A.m A.val (dp i))
    (hp : HoldsPat m0 0 0 A) (hv : HoldsVal m0 0 A) (hd : HoldsDiag m0 0 0 A dp)
    (hszl : (A.nnz : Int) ≤ sz (.vec 1)) (hsz3 : SizesOk sz 3 A ⟨true, true, true, false, false⟩)
    (hvx : VecIs m0 0 A.m x0) (hvb : VecIs m0 9 A.m b) (hr0 : ∃ i, i < A.m ∧ b i ≠ A.mulVec x0 i)
    (hsh : ∀ n, (sh n).Covers T A.m) (hn0 : nrm 0 = 0) (hnp : ∀ v, 0 < v → 0 < nrm v) (htol : 0 < tol)
    (hsz : ∀ j, j ∈ [0, 2, 3, 4, 5, 6] → (A.m : Int) ≤ sz (.vec j)) :
    (pcgIlu0 sz T A.m sh nrm tol maxiter).Ok m0 (fun res m' =>
      (∃ xf, VecIs m' 0 A.m xf ∧ PcgEnds A (IluPrec A dp (ilu0 A dp A.m A.val)) b x0 nrm tol maxiter res xf) ∧
      (∀ i : Nat, i < A.nnz → m' (.vec 1) (i : Int) = some (ilu0 A dp A.m A.val i)) ∧
      ∀ a, ¬ a.ofObj 1 → ¬ a.ofObj 2 → ¬ a.ofObj 3 → a ≠ .itmp 0 → a ≠ .itmp 1 →
        (∀ j, a = .vec j → j ∉ [0, 1, 2, 3, 4, 5, 6, 7]) → m' a = m0 a) := by
  have hsp := split_of_diag hwf hsq hs fun i hi => ⟨(hd i hi).1, (hd i hi).2.1⟩
  have hprec := ilu_precond hwf hsq hsp hs hsy hpat hpos
  unfold pcgIlu0
  refine seq_rule ?_
  unfold baseNnz
  have q0 := hp.rowptr 0 (by omega)
  have q1 := hp.rowptr A.m (Nat.le_refl _)
  rw [hwf.ptr_zero] at q0
  refine wp_rd _ trivial q0 ?_
  refine wp_rd _ trivial q1 ?_
  refine wp_pure.2 ?_
  have e1 : (((0 : Nat) : Int) + ((0 : Nat) : Int)).toNat = 0 := rfl
  have e2 : (((A.ptr A.m : Nat) : Int) + ((0 : Nat) : Int) - (((0 : Nat) : Int) + ((0 : Nat) : Int))).toNat = A.nnz := by
    show _ = A.ptr A.m
    omega
  dsimp only
  rw [e1, e2, Script.ok_bind]
  refine Script.Ok.mono (ilu0Ref_ok hwf hsp hs hp hv (fun i hi => by rw [(hd i hi).2.2]; simp) hszl) ?_
  generalize hF : ilu0 A dp A.m A.val = F at *
  rintro _ m1 ⟨a1, a2⟩
  rw [Script.ok_bind]
  refine Script.Ok.mono (luObject_ok (lu := F) (hp.of_eq (a2 _ (by simp)) (a2 _ (by simp))) a1 hsz3.rowptr hsz3.colidx (hsz3.values rfl)) ?_
  rintro _ m2 ⟨b1, b2, b3⟩
  obtain ⟨B, hB⟩ : ∃ B : Csr R, B = { A with val := F } := ⟨_, rfl⟩
  rw [← hB] at b1 b2
  have hwB : B.WF := by rw [hB]; exact ⟨hwf.1, hwf.2, hwf.3⟩
  have hBm : B.m = A.m := by rw [hB]
  have hBn : B.n = A.m := by rw [hB]; exact hsq
  have hBrow : ∀ i j, B.InRow i j ↔ A.InRow i j := by rw [hB]; exact fun _ _ => Iff.rfl
  have hBcol : B.col = A.col := by rw [hB]
  have hBval : B.val = F := by rw [hB]
  have hBptr : B.ptr = A.ptr := by rw [hB]
  have hBnnz : B.nnz = A.nnz := by rw [hB]; rfl
  rw [Script.ok_bind, ← hBm]
  refine Script.Ok.mono (computeInverseDiag_ok hwB b1 b2 (fun _ => ?_) (by simp) (fun _ => ?_) ?_) ?_
  · intro i hi
    rw [hBm] at hi
    refine ⟨by unfold Csr.RowSorted; rw [hBptr, hBcol]; exact hs i hi, dp i, (hBrow _ _).2 (hd i hi).1, ?_⟩
    rw [hBcol]; exact (hd i hi).2.1
  · rw [hBm]; exact hsz3.diagptr rfl
  · rw [hBm]; exact hsz3.idiag rfl
  rintro _ m3 ⟨⟨dp', c1, c2⟩, c3⟩
  have hdp : ∀ i, i < A.m → dp' i = dp i := by
    intro i hi
    have h1 := c1 i (by omega)
    have h2 := (hBrow _ _).1 h1.1
    refine sorted_inj (hs i hi) h2.2.1 h2.2.2 (hd i hi).1.2.1 (hd i hi).1.2.2 ?_
    rw [(hd i hi).2.1, ← hBcol]; exact h1.2.1
  rw [Script.ok_bind]
  refine Script.Ok.mono (splitLU_ok (k := 3) (kl := 1) (ku := 2) (base := 0) (ep := fun i => B.ptr (i + 1)) hT (by omega) hwB (Or.inl rfl)
    (by omega) (b1.of_eq (c3 _ (by simp) (by simp)) (c3 _ (by simp) (by simp))) (b2.of_eq (c3 _ (by simp) (by simp)))
    ⟨by rw [hBm]; exact hsz3.rowptr, by rw [hBnnz]; exact hsz3.colidx, by rw [hBnnz]; exact hsz3.values, by rw [hBm]; exact hsz3.diagptr,
      by rw [hBm]; exact hsz3.idiag, by simp, by simp⟩
    ⟨by simp, fun _ _ _ => rfl, fun i hi => ⟨hwB.ptr_mono (by omega) hi, Nat.le_refl _⟩⟩ (fun i j _ h1 h2 => by omega)
    (fun _ i hi => ⟨_, (c1 i hi).2.2⟩) (fun i hi => ⟨_, c2 i hi⟩)) ?_
  rintro _ m4 ⟨s1, s2, s3, s4, s5, _, s7⟩
  rw [Script.ok_bind, hBm]
  refine Script.Ok.mono unitDiag_ok ?_
  rintro _ m5 ⟨u1, u2⟩
  have fr : ∀ a, ¬ a.ofObj 1 → ¬ a.ofObj 2 → ¬ a.ofObj 3 → a ≠ .itmp 0 → a ≠ .itmp 1 → a ≠ .vec 1 → m5 a = m0 a := by
    intro a h1 h2 h3 h4 h5 h6
    rw [u2 a (fun h => h1 (by rw [h]; simp [CArr.ofObj])), s7 a h1 h2 h4 h5, c3 a (fun h => h3 (by rw [h]; simp [CArr.ofObj]))
      (fun h => h3 (by rw [h]; simp [CArr.ofObj])), b3 a h3, a2 a h6]
  have hlu : m5 (.vec 1) = m1 (.vec 1) := by
    rw [u2 _ (by simp), s7 _ (by simp [CArr.ofObj]) (by simp [CArr.ofObj]) (by simp) (by simp), c3 _ (by simp) (by simp), b3 _ (by simp [CArr.ofObj])]
  have hne : ∀ i, i < A.m → F (dp i) ≠ 0 := fun i hi => ne_of_gt (hpos i hi)
  have hobj : TriObj m5 1 2 A.m (lowCsr B) (upCsr B) (fun _ => 1) (fun i => 1 / F (dp i)) := by
    refine ⟨lowCsr_wf hwB, upCsr_wf hwB, hBm, hBm, hBn, hBn, s1.of_eq (u2 _ (by simp)) (u2 _ (by simp)), s2.of_eq (u2 _ (by simp)),
      s3.of_eq (u2 _ (by simp)) (u2 _ (by simp)), s4.of_eq (u2 _ (by simp)), u1, fun i hi => ?_⟩
    rw [u2 _ (by simp), (s5 i (by omega)).2, c2 i (by omega), hdp i hi, hBval]
  have hlow : ∀ i j, i < A.m → (lowCsr B).ptr i ≤ j → j < (lowCsr B).ptr (i + 1) → (lowCsr B).col j < i := by
    intro i j hi h1 h2
    have : ((lowCsr B).col j, (lowCsr B).val j) ∈ (lowCsr B).row i := Csr.mem_row.2 ⟨j, h1, h2, rfl⟩
    rw [show (lowCsr B).row i = lowRow B i from Csr.ofRows_row (by omega)] at this
    unfold lowRow at this
    rw [List.mem_filter] at this
    simpa using this.2
  have hup : ∀ i j, i < A.m → (upCsr B).ptr i ≤ j → j < (upCsr B).ptr (i + 1) → i < (upCsr B).col j := by
    intro i j hi h1 h2
    have : ((upCsr B).col j, (upCsr B).val j) ∈ (upCsr B).row i := Csr.mem_row.2 ⟨j, h1, h2, rfl⟩
    rw [show (upCsr B).row i = upRow B i from Csr.ofRows_row (by omega)] at this
    unfold upRow at this
    rw [List.mem_filter] at this
    simpa using this.2
  refine Script.Ok.mono (pcgMain_ok (M := IluPrec A dp F) (x0 := x0) (b := b)
    (Inv := fun m => HoldsPat m 0 0 A ∧ HoldsVal m 0 A ∧ TriObj m 1 2 A.m (lowCsr B) (upCsr B) (fun _ => 1) (fun i => 1 / F (dp i))) hT hwf hsq hpd
    hprec ⟨fun _ h => h.1, fun _ h => h.2.1, ?_, ?_⟩ ⟨?_, ?_, hobj⟩ ?_ ?_ hr0 hsh hn0 hnp htol
    (by simp) (by omega) (hsz 0 (by simp)) (fun j hj => hsz j (List.mem_cons_of_mem _ hj))) ?_
  · intro m m' h hf
    exact ⟨h.1.of_eq (hf _ (by simp) (by simp)) (hf _ (by simp) (by simp)), h.2.1.of_eq (hf _ (by simp) (by simp)), h.2.2.frame hf⟩
  · intro m rv Q h hr hQ
    refine refSolve_ok h.2.2 hlow hup hr (hsz 3 (by simp)) (hsz 4 (by simp)) fun m' z hz ht hf => ?_
    rw [hB] at ht
    exact hQ m' z hz (iluPrec_of_triSolve hwf hsq hsp hne ht) fun a h3 h4 _ => hf a h3 h4
  · exact hp.of_eq (fr _ (by simp [CArr.ofObj]) (by simp [CArr.ofObj]) (by simp [CArr.ofObj]) (by simp) (by simp) (by simp))
      (fr _ (by simp [CArr.ofObj]) (by simp [CArr.ofObj]) (by simp [CArr.ofObj]) (by simp) (by simp) (by simp))
  · exact hv.of_eq (fr _ (by simp [CArr.ofObj]) (by simp [CArr.ofObj]) (by simp [CArr.ofObj]) (by simp) (by simp) (by simp))
  · exact VecIs.frame hvx (fr _ (by simp [CArr.ofObj]) (by simp [CArr.ofObj]) (by simp [CArr.ofObj]) (by simp) (by simp) (by simp))
  · exact VecIs.frame hvb (fr _ (by simp [CArr.ofObj]) (by simp [CArr.ofObj]) (by simp [CArr.ofObj]) (by simp) (by simp) (by simp))
  · rintro res m6 ⟨k1, k2⟩
    refine ⟨k1, fun i hi => ?_, fun a h1 h2 h3 h4 h5 ha => ?_⟩
    · rw [k2 _ (by simp) (by simp) (by simp), hlu]; exact a1 i hi
    · rw [k2 a h4 (fun h => by simpa using ha 0 h) (fun j hj => by have := ha j hj; simp at this ⊢; tauto),
        fr a h1 h2 h3 h4 h5 (fun h => by simpa using ha 1 h)]

end run
end SpMP
