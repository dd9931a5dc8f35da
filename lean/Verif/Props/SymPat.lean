import Verif.SymPatMain
import Verif.Spec.SymPat
import Verif.Props.Permute
import Mathlib.Data.List.Nodup
import Mathlib.Tactic.IntervalCases
/-
Property theorem C21 (getSymmetricNnzPattern).
-/

namespace SpMP.Props
open SpMP SpMP.Spec

variable {R : Type}

theorem mem_locCols {A : Csr R} {ep : Nat → Nat} {i c : Nat} : c ∈ locCols A ep i ↔ LocEntry A ep i c := by
  unfold locCols LocEntry
  simp only [List.mem_map, List.mem_range'_1]
  constructor
  · rintro ⟨j, ⟨h1, h2⟩, h3⟩; exact ⟨j, h1, by omega, h3⟩
  · rintro ⟨j, h1, h2, h3⟩; exact ⟨j, ⟨h1, by omega⟩, h3⟩

theorem locCols_nodup {A : Csr R} {ep : Nat → Nat} (h : LocSorted A ep) {i : Nat} (hi : i < A.m) : (locCols A ep i).Nodup := by
  unfold locCols
  refine List.Nodup.map_on ?_ (List.nodup_range')
  intro x hx y hy he
  rw [List.mem_range'_1] at hx hy
  rcases Nat.lt_trichotomy x y with hlt | heq | hgt
  · have := h i x y hi hx.1 hlt (by omega); omega
  · exact heq
  · have := h i y x hi hy.1 hgt (by omega); omega

theorem symMiss_nodup {A : Csr R} {ep : Nat → Nat} (h : LocSorted A ep) (c : Nat) : (symMiss A ep c).Nodup := by
  unfold symMiss
  have hall : (symAll A ep).Nodup := by
    unfold symAll symItemsRows
    rw [List.nodup_flatMap]
    refine ⟨?_, ?_⟩
    · intro i hi
      rw [List.mem_range'_1] at hi
      unfold symItems
      refine List.Nodup.map_on ?_ ((locCols_nodup h (by omega)).filter _)
      intro x _ y _ he; exact (Prod.mk.inj he).1
    · refine (List.nodup_range' (s := 0) (n := A.m)).imp ?_
      intro a b hab x h1 h2
      have h1 := (mem_symItems.1 (show (x.1, x.2) ∈ _ from h1)).1
      have h2 := (mem_symItems.1 (show (x.1, x.2) ∈ _ from h2)).1
      exact hab (h1.symm.trans h2)
  refine List.Nodup.map_on ?_ (hall.filter _)
  rintro ⟨x1, x2⟩ hx ⟨y1, y2⟩ hy he
  have h1 := (List.mem_filter.1 hx).2
  have h2 := (List.mem_filter.1 hy).2
  simp only [decide_eq_true_eq] at h1 h2 he
  rw [h1, h2, he]

/-- C21 for base-0 matrices (see `C21_base1_false`): for every team size and every interleaving, `getSymmetricNnzPattern` returns true
exactly when the local pattern is symmetric. Otherwise the returned arrays (`itmp 0` row pointer, `itmp 1` diagonal pointer, `itmp 2`
external pointer, `itmp 3` columns) hold the symmetric closure of the pattern, the diagonal pointer of a row with a diagonal entry
marks such an entry, and the source matrix does not change. -/
theorem C21_symmetricPattern_partial {sz : CArr → Int} {T k : Nat} {A : Csr R} {ext : Bool} {ep : Nat → Nat} {m0 : Mem (CTy R)}
    (hT : 1 ≤ T) (hwf : A.WF) (hp : HoldsPat m0 k 0 A) (he : HoldsExt m0 k 0 A ext ep)
    (hloc : ∀ i j, i < A.m → A.ptr i ≤ j → j < ep i → A.col j < A.m) (hs : LocSorted A ep) :
    (symPattern (R := R) sz T k A.m ext).Ok m0 (fun r m =>
      (r = true ↔ LocSymmetric A ep) ∧ (∀ a i, (∀ j, a ≠ .itmp j) → m a i = m0 a i) ∧
      (r = false → ∃ (B : Csr Unit) (eb : Nat → Nat), SymClosure A ep B eb ∧
        (∀ i : Nat, i ≤ A.m → m (.itmp 0) (i : Int) = some (B.ptr i : Int)) ∧
        (∀ j : Nat, j < B.nnz → m (.itmp 3) (j : Int) = some (B.col j : Int)) ∧
        (ext = true → ∀ i : Nat, i < A.m → m (.itmp 2) (i : Int) = some (eb i : Int)) ∧
        ∀ i, i < A.m → LocEntry A ep i i → ∃ j : Nat, B.InRow i j ∧ B.col j = i ∧ m (.itmp 1) (i : Int) = some (j : Int))) := by
  have h : SymHyp m0 k A ext ep := ⟨hwf, hp, he, hloc, fun i j j' h1 h2 h3 h4 => Nat.le_of_lt (hs i j j' h1 h2 h3 h4)⟩
  refine Script.Ok.mono (symPattern_ok hT h) ?_
  rintro r m ⟨h1, h2, h3⟩
  refine ⟨h1.trans ?_, h2, ?_⟩
  · rw [List.eq_nil_iff_forall_not_mem]
    constructor
    · intro hn i c hi hc
      by_contra hcon
      exact hn (c, i) (mem_symItemsRows.2 ⟨by omega, by omega, mem_locCols.2 hc, fun hh => hcon (mem_locCols.1 hh)⟩)
    · rintro hn ⟨c, i⟩ hx
      have := mem_symItemsRows.1 hx
      exact this.2.2.2 (mem_locCols.2 (hn i c (by omega) (mem_locCols.1 this.2.2.1)))
  intro hr
  obtain ⟨L, hL⟩ := h3 hr
  let rows : Nat → List (Nat × Unit) := fun i => if i < A.m then ((L i) ++ (List.range' (ep i) (A.ptr (i + 1) - ep i)).map A.col).map (fun c => (c, ())) else []
  have hlen : ∀ i, i < A.m → (L i).length = (ep i - A.ptr i) + (symMiss A ep i).length := by
    intro i hi; rw [(hL.row i hi).1.length_eq, List.length_append, locCols_length]
  have hrl : ∀ i, i < A.m → (rows i).length = (L i).length + (A.ptr (i + 1) - ep i) := by
    intro i hi; simp only [rows, if_pos hi]; simp
  have hst : ∀ i, i ≤ A.m → rowStart rows i = symStart A ep i := by
    intro i hi
    induction i with
    | zero => rfl
    | succ i ih =>
      rw [rowStart_succ, symStart_succ, ih (by omega), hrl i (by omega), hlen i (by omega)]
      have := he.2.2 i (by omega)
      omega
  let B : Csr Unit := Csr.ofRows A.m A.n rows ()
  have hBp : ∀ i, i ≤ A.m → B.ptr i = symStart A ep i := hst
  have hBl : ∀ i q (hi : i < A.m) (hq : q < (L i).length), B.col (B.ptr i + q) = (L i)[q] := by
    intro i q hi hq
    have hq' : q < (rows i).length := by rw [hrl i hi]; omega
    rw [show B.col (B.ptr i + q) = (rows i)[q].1 from Csr.ofRows_col hi hq']
    simp only [rows, if_pos hi, List.getElem_map, List.getElem_append_left hq]
  have hBe : ∀ i q, i < A.m → q < A.ptr (i + 1) - ep i → B.col (B.ptr i + (L i).length + q) = A.col (ep i + q) := by
    intro i q hi hq
    have hq' : (L i).length + q < (rows i).length := by rw [hrl i hi]; omega
    rw [Nat.add_assoc, show B.col (B.ptr i + ((L i).length + q)) = (rows i)[(L i).length + q].1 from Csr.ofRows_col hi hq']
    simp only [rows, if_pos hi, List.getElem_map]
    rw [List.getElem_append_right (by omega)]
    simp
  have hBs : ∀ i, i < A.m → B.ptr (i + 1) = B.ptr i + (L i).length + (A.ptr (i + 1) - ep i) := by
    intro i hi
    have := hrl i hi
    show rowStart rows (i + 1) = rowStart rows i + _ + _
    rw [rowStart_succ]; omega
  have hentry : ∀ i c, i < A.m → (LocEntry B (fun i => B.ptr i + (L i).length) i c ↔ c ∈ L i) := by
    intro i c hi
    constructor
    · rintro ⟨j, j1, j2, j3⟩
      have := hBl i (j - B.ptr i) hi (by dsimp only at j2; omega)
      rw [show B.ptr i + (j - B.ptr i) = j by omega, j3] at this
      rw [this]; exact List.getElem_mem _
    · intro hc
      obtain ⟨q, hq, rfl⟩ := List.getElem_of_mem hc
      exact ⟨B.ptr i + q, by omega, by dsimp only; omega, hBl i q hi hq⟩
  have hmemL : ∀ i c, i < A.m → (c ∈ L i ↔ LocEntry A ep i c ∨ (c < A.m ∧ LocEntry A ep c i)) := by
    intro i c hi
    rw [(hL.row i hi).1.mem_iff, List.mem_append, mem_symMiss, mem_locCols, mem_locCols]
    constructor
    · rintro (h | ⟨h1, h2, _⟩)
      · exact Or.inl h
      · exact Or.inr ⟨h1, h2⟩
    · rintro (h | ⟨h1, h2⟩)
      · exact Or.inl h
      · by_cases hc : LocEntry A ep i c
        · exact Or.inl hc
        · exact Or.inr ⟨h1, h2, hc⟩
  have hcolm : ∀ j : Nat, j < B.nnz → m (.itmp 3) (j : Int) = some (B.col j : Int) := by
    intro j hj
    obtain ⟨i, q, g1, g2, rfl⟩ := rowStart_find rows hj
    change i < A.m at g1
    have e := hst i (by omega)
    have hrow := hL.row i g1
    by_cases hq : q < (L i).length
    · rw [show B.col (rowStart rows i + q) = _ from hBl i q g1 hq, e]
      have := hrow.2.2.1 q hq
      rw [← this]; push_cast; rfl
    · have hq2 : q - (L i).length < A.ptr (i + 1) - ep i := by rw [hrl i g1] at g2; omega
      have h5 := hBe i (q - (L i).length) g1 hq2
      rw [show B.ptr i + (L i).length + (q - (L i).length) = rowStart rows i + q by show rowStart rows i + _ + _ = _; omega] at h5
      rw [h5, e]
      have := hrow.2.2.2.1 (q - (L i).length) hq2
      rw [← this]
      exact congrArg (m (.itmp 3)) (by push_cast; omega)
  refine ⟨B, fun i => B.ptr i + (L i).length, ⟨rfl, rfl, ?_, ?_, ?_, ?_, ?_⟩, ?_, hcolm, ?_, ?_⟩
  · intro i hi
    have := hBs i hi
    omega
  · intro i c hi
    rw [hentry i c hi, hmemL i c hi]
  · intro i j j' hi j1 j2 j3
    change i < A.m at hi
    dsimp only at j3
    have e1 := hBl i (j - B.ptr i) hi (by omega)
    have e2 := hBl i (j' - B.ptr i) hi (by omega)
    rw [show B.ptr i + (j - B.ptr i) = j by omega] at e1
    rw [show B.ptr i + (j' - B.ptr i) = j' by omega] at e2
    rw [e1, e2]
    have hnd : (L i).Nodup := by
      rw [(hL.row i hi).1.nodup_iff, List.nodup_append]
      refine ⟨locCols_nodup hs hi, symMiss_nodup hs i, ?_⟩
      intro a ha b hb hab
      subst hab
      exact (mem_symMiss.1 hb).2.2 ha
    have hle := List.pairwise_iff_getElem.1 (hL.row i hi).2.1 (j - B.ptr i) (j' - B.ptr i) (by omega) (by omega) (by omega)
    refine Nat.lt_of_le_of_ne hle ?_
    intro heq
    have := (List.Nodup.getElem_inj_iff hnd).1 heq
    omega
  · intro i hi; have := hBs i hi; omega
  · intro i q hi hq; exact hBe i q hi hq
  · intro i hi; rw [hBp i hi]; exact hL.ptr i hi
  · intro hex i hi
    dsimp only
    rw [(hL.row i hi).2.2.2.2.1 hex, hBp i (by omega)]; push_cast; rfl
  · intro i hi hd
    have hin : i ∈ L i := (hmemL i i hi).2 (Or.inl hd)
    obtain ⟨q, hq, hqe⟩ := List.getElem_of_mem hin
    have hss := hBs i hi
    have hb1 := hBp i (by omega)
    have hb2 := hBp (i + 1) hi
    have hc := (hL.row i hi).2.2.1 q hq
    rw [hqe] at hc
    obtain ⟨j, j1, j2, j3, j4⟩ := (hL.row i hi).2.2.2.2.2 ⟨symStart A ep i + q, by omega, by omega, by rw [← hc]; push_cast; rfl⟩
    have hin : B.InRow i j := ⟨hi, by omega, by omega⟩
    refine ⟨j, hin, ?_, j4⟩
    have hwfB : j < B.nnz := by
      have : B.ptr (i + 1) ≤ B.nnz := rowStart_mono rows (show i + 1 ≤ A.m by omega)
      omega
    have := hcolm j hwfB
    rw [j3] at this
    have := Option.some.inj this
    omega

/-- 2x2, upper triangular: row 0 = (0, 0), (0, 1); row 1 = (1, 1). -/
def symCsr : Csr Int where
  m := 2
  n := 2
  ptr := fun i => if i = 0 then 0 else if i = 1 then 2 else 3
  col := fun j => if j = 0 then 0 else 1
  val := fun j => j + 1

theorem symCsr_wf : symCsr.WF := by
  refine ⟨rfl, ?_, ?_⟩
  · intro i hi; change i < 2 at hi; interval_cases i <;> decide
  · intro j hj; change j < 3 at hj; interval_cases j <;> decide

/-- The hypotheses of C21 are met by this matrix, whose pattern is not symmetric. -/
example : ∃ m0 : Mem (CTy Int), symCsr.WF ∧ HoldsPat m0 0 0 symCsr ∧ HoldsExt m0 0 0 symCsr false (fun i => symCsr.ptr (i + 1)) ∧
    (∀ i j, i < symCsr.m → symCsr.ptr i ≤ j → j < symCsr.ptr (i + 1) → symCsr.col j < symCsr.m) ∧
    LocSorted symCsr (fun i => symCsr.ptr (i + 1)) ∧ ¬ LocSymmetric symCsr (fun i => symCsr.ptr (i + 1)) := by
  refine ⟨csrMem 0 0 symCsr (fun _ => 0) (fun _ => 0), symCsr_wf, csrMem_pat 0 0 symCsr _ _,
    ⟨fun h => (by cases h), fun _ _ _ => rfl, fun i hi => ⟨symCsr_wf.ptr_step i hi, Nat.le_refl _⟩⟩, ?_, ?_, ?_⟩
  · intro i j hi h1 h2
    exact symCsr_wf.col_lt j (Nat.lt_of_lt_of_le h2 (symCsr_wf.ptr_le_nnz hi))
  · intro i j j' hi h1 h2 h3
    change i < 2 at hi
    interval_cases i
    · change 0 ≤ j at h1; change j' < 2 at h3
      interval_cases j'
      · omega
      · interval_cases j; decide
    · change 2 ≤ j at h1; change j' < 3 at h3; omega
  · intro h
    obtain ⟨j, j1, j2, j3⟩ := h 0 1 (by decide) ⟨1, by decide, by decide, by decide⟩
    change 2 ≤ j at j1; change j < 3 at j2
    interval_cases j
    revert j3; decide

/-- C21 is false for base-1 matrices: the counters are indexed without subtracting the base, so the last row writes beyond the end. -/
theorem C21_base1_false :
    ¬ (∀ (sz : CArr → Int) (A : Csr Int) (m0 : Mem (CTy Int)) (ep : Nat → Nat), A.WF → HoldsPat m0 0 1 A → HoldsExt m0 0 1 A false ep →
      (∀ i j, i < A.m → A.ptr i ≤ j → j < ep i → A.col j < A.m) → LocSorted A ep →
      (symPattern (R := Int) sz 1 0 A.m false).Ok m0 (fun r _ => r = true ↔ LocSymmetric A ep)) := by
  intro h
  let m0 : Mem (CTy Int) := csrMem 0 1 symCsr (fun _ => 0) (fun _ => 0)
  have h1 := (h (fun _ => 9) symCsr m0 (fun i => symCsr.ptr (i + 1)) symCsr_wf (csrMem_pat 0 1 symCsr _ _)
    ⟨fun h => (by cases h), fun _ _ _ => rfl, fun i hi => ⟨symCsr_wf.ptr_step i hi, Nat.le_refl _⟩⟩ ?_ ?_).not_runUB
  · have h3 : (symPattern (R := Int) (fun _ => 9) 1 0 2 false).runUB m0 = true := by
      decide +kernel
    rw [show symCsr.m = 2 from rfl, h3] at h1
    cases h1
  · intro i j hi h1 h2
    exact symCsr_wf.col_lt j (Nat.lt_of_lt_of_le h2 (symCsr_wf.ptr_le_nnz hi))
  · intro i j j' hi h1 h2 h3
    change i < 2 at hi
    interval_cases i
    · change 0 ≤ j at h1; change j' < 2 at h3
      interval_cases j'
      · omega
      · interval_cases j; decide
    · change 2 ≤ j at h1; change j' < 3 at h3; omega

end SpMP.Props
