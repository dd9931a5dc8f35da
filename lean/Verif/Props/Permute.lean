import Verif.PermuteCols
import Verif.Props.Linear
import Mathlib.Tactic.IntervalCases
import Mathlib.Algebra.BigOperators.Fin
/-
Property theorems C18 (permute), C19 (permuteRows) and C54 (permuteColsInPlace).
-/

namespace SpMP.Props
open SpMP SpMP.Spec

variable {R : Type}

/-- C18 except for a null row permutation in a debug build and sorting without values (see `C18_null_debug_false`,
`C18_sort_novalues_false`): `permute(columnPerm = cp, rowInversePerm = ri, sort)` returns a matrix of the same size and base whose
row `i` is source row `ri i`: its local part with every column `c` relabelled `cp c`, in source order or sorted by column, then its
external part unchanged. The external pointer of row `i` marks the end of the local part, the inverse diagonal is the one of row
`ri i`, the diagonal pointer marks the first entry of column `cp (ri i)`, and nothing outside the result changes.
`ep r` is the position where the external entries of row `r` start. -/
theorem C18_permute_partial {sz : CArr → Int} {T k k2 base nl : Nat} {A : Csr R} {o : Opt} {dbg hasRow sort : Bool}
    {ep ri cp : Nat → Nat} {m0 : Mem (CTy R)} (hT : 1 ≤ T) (hk : k ≠ k2) (hb : base = 0 ∨ base = 1) (hwf : A.WF)
    (hp : HoldsPat m0 k base A) (hv : o.values = true → HoldsVal m0 k A) (he : HoldsExt m0 k base A o.extptr ep)
    (hrow : hasRow = true → ∀ i : Nat, i < A.m → m0 (.itmp 0) (i : Int) = some (ri i : Int))
    (hnull : hasRow = false → ∀ i, i < A.m → ri i = i) (hri : IsPermFn A.m ri)
    (hcol : ∀ c : Nat, c < nl → m0 (.itmp 1) (c : Int) = some (cp c : Int)) (hcp : IsPermFn nl cp) (hnl : nl ≤ A.n)
    (hloc : ∀ i j, i < A.m → A.ptr i ≤ j → j < ep i → A.col j < nl)
    (hdiag : o.diagptr = true → ∀ i, i < A.m → ∃ j, A.ptr i ≤ j ∧ j < ep i ∧ A.col j = i)
    (hid : o.idiag = true → ∀ i : Nat, i < A.m → ∃ v, m0 (.idiag k) (i : Int) = some v)
    (hnoext : o.values = false → ∀ i, i < A.m → ep i = A.ptr (i + 1)) (hsort : sort = true → o.values = true)
    (hdbg : dbg = true → hasRow = true ∨ A.m = 0) :
    (permute sz T k k2 A.m o dbg hasRow sort).Ok m0 (fun _ m =>
      (∃ B : Csr R, B.m = A.m ∧ B.n = A.n ∧ B.WF ∧ HoldsPat m k2 base B ∧ (o.values = true → HoldsVal m k2 B) ∧
      ∀ i, i < A.m → ∃ L : List (Nat × R),
        B.row i = L ++ (A.row (ri i)).drop (ep (ri i) - A.ptr (ri i)) ∧
        L.Perm (((A.row (ri i)).take (ep (ri i) - A.ptr (ri i))).map fun x => (cp x.1, x.2)) ∧
        (sort = false → L = ((A.row (ri i)).take (ep (ri i) - A.ptr (ri i))).map fun x => (cp x.1, x.2)) ∧
        (sort = true → L.Pairwise fun a b => a.1 ≤ b.1) ∧
        (o.extptr = true → m (.extptr k2) (i : Int) = some ((B.ptr i : Int) + L.length + base)) ∧
        (o.idiag = true → m (.idiag k2) (i : Int) = m0 (.idiag k) (ri i : Int)) ∧
        (o.diagptr = true → ∃ p : Nat, B.ptr i ≤ p ∧ p < B.ptr i + L.length ∧ B.col p = cp (ri i) ∧
          (∀ p', B.ptr i ≤ p' → p' < p → B.col p' ≠ cp (ri i)) ∧ m (.diagptr k2) (i : Int) = some ((p : Int) + base))) ∧
      ∀ a, ¬ a.ofObj k2 → m a = m0 a) :=
  permute_ok trivial ⟨hk, hwf, hp, hv, he, ⟨hrow, hnull⟩, hri, hcol, hcp, hnl, hloc, hdiag, hid, hnoext, hsort⟩ hT hb hdbg

theorem mulVec_eq_row {S : Type} [CommRing S] {A : Csr S} (hwf : A.WF) {i : Nat} (hi : i < A.m) (x : Nat → S) :
    A.mulVec x i = ((A.row i).map fun e => e.2 * x e.1).sum := by
  have hle := hwf.ptr_mono (i := i) (j := i + 1) (by omega) hi
  unfold Csr.mulVec
  rw [Finset.sum_Ico_eq_sum_range]
  have : (A.row i).map (fun e => e.2 * x e.1) =
      (List.range (A.ptr (i + 1) - A.ptr i)).map fun q => A.val (A.ptr i + q) * x (A.col (A.ptr i + q)) := by
    refine List.ext_getElem (by simp [Csr.row_length]) ?_
    intro q h1 h2
    rw [List.getElem_map, Csr.row_getElem, List.getElem_map, List.getElem_range]
  rw [this]
  rfl

/-- A consequence for users of the linear system: multiplying the permuted matrix with the permuted vector permutes the product. -/
theorem C18_product_partial {S : Type} [CommRing S] {sz : CArr → Int} {T k k2 base : Nat} {A : Csr S} {dbg sort : Bool}
    {ri cp : Nat → Nat} {m0 : Mem (CTy S)} (hT : 1 ≤ T) (hk : k ≠ k2) (hb : base = 0 ∨ base = 1) (hwf : A.WF)
    (hp : HoldsPat m0 k base A) (hv : HoldsVal m0 k A)
    (hrow : ∀ i : Nat, i < A.m → m0 (.itmp 0) (i : Int) = some (ri i : Int)) (hri : IsPermFn A.m ri)
    (hcol : ∀ c : Nat, c < A.n → m0 (.itmp 1) (c : Int) = some (cp c : Int)) (hcp : IsPermFn A.n cp)
    (x x' : Nat → S) (hx : ∀ c, c < A.n → x' (cp c) = x c) :
    (permute sz T k k2 A.m ⟨true, false, false, false, false⟩ dbg true sort).Ok m0 (fun _ m =>
      ∃ B : Csr S, B.m = A.m ∧ HoldsPat m k2 base B ∧ HoldsVal m k2 B ∧
        ∀ i, i < A.m → B.mulVec x' i = A.mulVec x (ri i)) := by
  refine Script.Ok.mono (C18_permute_partial (ep := fun i => A.ptr (i + 1)) (nl := A.n) (ri := ri) (cp := cp) (base := base)
    hT hk hb hwf hp (fun _ => hv) ⟨by simp, fun _ _ _ => rfl, fun i hi => ⟨hwf.ptr_mono (by omega) hi, Nat.le_refl _⟩⟩
    (fun _ => hrow) (by simp) hri hcol hcp (Nat.le_refl _) ?_ (by simp) (by simp) (by simp) (by simp) (by simp)) ?_
  · intro i j hi h1 h2
    have := hwf.ptr_le_nnz (i := i + 1) hi
    exact hwf.col_lt j (by omega)
  · rintro _ m ⟨⟨B, b1, b2, b3, b4, b5, b6⟩, _⟩
    refine ⟨B, b1, b4, b5 rfl, ?_⟩
    intro i hi
    have hr := hri.1 i hi
    obtain ⟨L, l1, l2, _⟩ := b6 i hi
    rw [mulVec_eq_row b3 (by omega), mulVec_eq_row hwf hr, l1]
    rw [List.drop_eq_nil_of_le (by rw [Csr.row_length]), List.append_nil]
    rw [List.take_of_length_le (by rw [Csr.row_length])] at l2
    rw [(l2.map _).sum_eq, List.map_map]
    congr 1
    refine List.map_congr_left ?_
    intro e he
    obtain ⟨j, h1, h2, rfl⟩ := Csr.mem_row.1 he
    have := hwf.ptr_le_nnz (i := ri i + 1) hr
    simp only [Function.comp]
    rw [hx _ (hwf.col_lt j (by omega))]

/-- Memory `m` with `itmp 0` holding `f` and `itmp 1` holding `g`, both of length `n`. -/
def withPerms (m : Mem (CTy R)) (n : Nat) (f g : Nat → Nat) : Mem (CTy R)
  | .itmp 0, i => if 0 ≤ i ∧ i < n then some (f i.toNat : Int) else none
  | .itmp 1, i => if 0 ≤ i ∧ i < n then some (g i.toNat : Int) else none
  | a, i => m a i

theorem withPerms_pat {m : Mem (CTy R)} {n : Nat} {f g : Nat → Nat} {k b : Nat} {A : Csr R} (h : HoldsPat m k b A) :
    HoldsPat (withPerms m n f g) k b A := ⟨h.rowptr, h.colidx⟩

theorem withPerms_val {m : Mem (CTy R)} {n : Nat} {f g : Nat → Nat} {k : Nat} {A : Csr R} (h : HoldsVal m k A) :
    HoldsVal (withPerms m n f g) k A := h

/-- `(1 2; 0 3)`, the 2x2 example. -/
def permCsr : Csr Int where
  m := 2
  n := 2
  ptr := fun i => [0, 2, 3].getD i 3
  col := fun j => [0, 1, 1].getD j 0
  val := fun j => [1, 2, 3].getD j 0

theorem permCsr_wf : permCsr.WF := by
  refine ⟨rfl, ?_, ?_⟩
  · intro i hi
    change i < 2 at hi
    interval_cases i <;> decide
  · intro j hj
    change j < 3 at hj
    interval_cases j <;> decide

theorem swap_perm : IsPermFn 2 (fun i => 1 - i) := by
  refine ⟨fun i hi => by dsimp only; omega, fun i j hi hj h => by dsimp only at h; omega⟩

/-- The hypotheses of C18 are met by the 2x2 example in base 1 with diagonal pointers, both permutations swapping. -/
example : ∃ m0 : Mem (CTy Int), HoldsPat m0 0 1 permCsr ∧ HoldsVal m0 0 permCsr ∧
    (∀ i : Nat, i < permCsr.m → m0 (.itmp 0) (i : Int) = some ((1 - i : Nat) : Int)) ∧ IsPermFn permCsr.m (fun i => 1 - i) ∧
    (∀ i : Nat, i < permCsr.n → m0 (.itmp 1) (i : Int) = some ((1 - i : Nat) : Int)) ∧ IsPermFn permCsr.n (fun i => 1 - i) ∧
    HoldsExt m0 0 1 permCsr false (fun i => permCsr.ptr (i + 1)) ∧
    ∀ i, i < permCsr.m → ∃ j, permCsr.ptr i ≤ j ∧ j < permCsr.ptr (i + 1) ∧ permCsr.col j = i := by
  refine ⟨withPerms (csrMem 0 1 permCsr (fun _ => 0) (fun _ => 0)) 2 (fun i => 1 - i) (fun i => 1 - i),
    withPerms_pat (csrMem_pat 0 1 permCsr _ _), withPerms_val (csrMem_val 0 1 permCsr _ _), ?_, swap_perm, ?_, swap_perm, ⟨by simp, fun _ _ _ => rfl, ?_⟩, ?_⟩
  · intro i hi; change i < 2 at hi; interval_cases i <;> rfl
  · intro i hi; change i < 2 at hi; interval_cases i <;> rfl
  · intro i hi; change i < 2 at hi; interval_cases i <;> exact ⟨by decide, by decide⟩
  · intro i hi
    change i < 2 at hi
    interval_cases i
    · exact ⟨0, by decide, by decide, rfl⟩
    · exact ⟨2, by decide, by decide, rfl⟩

/-- C18 fails in a debug build for a null row permutation (which the code otherwise takes as the identity): the assertion
`isPerm(inversePerm, m)` dereferences it. -/
theorem C18_null_debug_false :
    ¬ (∀ (sz : CArr → Int) (A : Csr Int) (m0 : Mem (CTy Int)), A.WF → HoldsPat m0 0 0 A → HoldsVal m0 0 A →
      (∀ c : Nat, c < A.n → m0 (.itmp 1) (c : Int) = some (c : Int)) →
      (permute sz 1 0 1 A.m ⟨true, false, false, false, false⟩ true false false).Ok m0 (fun _ m =>
        ∃ B : Csr Int, B.m = A.m ∧ HoldsPat m 1 0 B ∧ ∀ i, i < A.m → B.row i = A.row i)) := by
  intro h
  let m0 : Mem (CTy Int) := withPerms (csrMem 0 0 permCsr (fun _ => 0) (fun _ => 0)) 2 (fun i => i) (fun i => i)
  have h1 := (h (fun _ => 9) permCsr m0 permCsr_wf (withPerms_pat (csrMem_pat 0 0 permCsr _ _)) (withPerms_val (csrMem_val 0 0 permCsr _ _)) ?_).not_runUB
  · have h3 : (permute (R := Int) (fun _ => 9) 1 0 1 2 ⟨true, false, false, false, false⟩ true false false).runUB m0 = true := by
      decide +kernel
    rw [show permCsr.m = 2 from rfl, h3] at h1
    cases h1
  · intro i hi; change i < 2 at hi; interval_cases i <;> rfl

/-- C18 fails when sorting a pattern-only matrix: the insertion sort moves values through a null pointer. -/
theorem C18_sort_novalues_false :
    ¬ (∀ (sz : CArr → Int) (A : Csr Int) (m0 : Mem (CTy Int)), A.WF → HoldsPat m0 0 0 A →
      (∀ i : Nat, i < A.m → m0 (.itmp 0) (i : Int) = some (i : Int)) →
      (∀ c : Nat, c < A.n → m0 (.itmp 1) (c : Int) = some ((1 - c : Nat) : Int)) →
      (permute sz 1 0 1 A.m ⟨false, false, false, false, false⟩ false true true).Ok m0 (fun _ m =>
        ∃ B : Csr Int, B.m = A.m ∧ HoldsPat m 1 0 B)) := by
  intro h
  let m0 : Mem (CTy Int) := withPerms (csrMem 0 0 permCsr (fun _ => 0) (fun _ => 0)) 2 (fun i => i) (fun i => 1 - i)
  have h1 := (h (fun _ => 9) permCsr m0 permCsr_wf (withPerms_pat (csrMem_pat 0 0 permCsr _ _)) ?_ ?_).not_runUB
  · have h3 : (permute (R := Int) (fun _ => 9) 1 0 1 2 ⟨false, false, false, false, false⟩ false true true).runUB m0 = true := by
      decide +kernel
    rw [show permCsr.m = 2 from rfl, h3] at h1
    cases h1
  · intro i hi; change i < 2 at hi; interval_cases i <;> rfl
  · intro i hi; change i < 2 at hi; interval_cases i <;> rfl

/-- C19 for base-0 matrices (see `C19_base1_false`): `permuteRows(inversePerm = ri)` returns a matrix of the same size whose row
`i` is source row `ri i`, entry for entry; external and diagonal pointers keep their position relative to the row, the inverse
diagonal is copied, and nothing outside the result changes. -/
theorem C19_permuteRows_partial {sz : CArr → Int} {T k k2 : Nat} {A : Csr R} {o : Opt} {dbg hasRow : Bool}
    {ep dp ri : Nat → Nat} {m0 : Mem (CTy R)} (hT : 1 ≤ T) (hk : k ≠ k2) (hwf : A.WF)
    (hp : HoldsPat m0 k 0 A) (hv : o.values = true → HoldsVal m0 k A) (he : HoldsExt m0 k 0 A o.extptr ep)
    (hrow : hasRow = true → ∀ i : Nat, i < A.m → m0 (.itmp 0) (i : Int) = some (ri i : Int))
    (hnull : hasRow = false → ∀ i, i < A.m → ri i = i) (hri : IsPermFn A.m ri)
    (hdp : o.diagptr = true → ∀ i : Nat, i < A.m → A.ptr i ≤ dp i ∧ m0 (.diagptr k) (i : Int) = some (dp i : Int))
    (hid : o.idiag = true → ∀ i : Nat, i < A.m → ∃ v, m0 (.idiag k) (i : Int) = some v)
    (hdbg : dbg = true → hasRow = true ∨ A.m = 0) :
    (permuteRows sz T k k2 A.m o dbg hasRow).Ok m0 (fun _ m =>
      (∃ B : Csr R, B.m = A.m ∧ B.n = A.n ∧ B.WF ∧ HoldsPat m k2 0 B ∧ (o.values = true → HoldsVal m k2 B) ∧
      ∀ i, i < A.m → B.row i = A.row (ri i) ∧
        (o.extptr = true → m (.extptr k2) (i : Int) = some ((B.ptr i + (ep (ri i) - A.ptr (ri i)) : Nat) : Int)) ∧
        (o.diagptr = true → m (.diagptr k2) (i : Int) = some ((B.ptr i + (dp (ri i) - A.ptr (ri i)) : Nat) : Int)) ∧
        (o.idiag = true → m (.idiag k2) (i : Int) = m0 (.idiag k) (ri i : Int))) ∧
      ∀ a, ¬ a.ofObj k2 → m a = m0 a) :=
  permuteRows_ok trivial ⟨hk, hwf, hp, hv, he, ⟨hrow, hnull⟩, hri, hdp, hid⟩ hT hdbg

/-- The hypotheses of C19 are met by the 2x2 example with diagonal pointers. -/
example : ∃ m0 : Mem (CTy Int), HoldsPat m0 0 0 permCsr ∧ HoldsVal m0 0 permCsr ∧
    (∀ i : Nat, i < permCsr.m → m0 (.itmp 0) (i : Int) = some ((1 - i : Nat) : Int)) ∧ IsPermFn permCsr.m (fun i => 1 - i) ∧
    ∀ i : Nat, i < permCsr.m → permCsr.ptr i ≤ 2 * i ∧ m0 (.diagptr 0) (i : Int) = some ((2 * i : Nat) : Int) := by
  refine ⟨withPerms (csrMem 0 0 permCsr (fun i => 2 * i) (fun _ => 0)) 2 (fun i => 1 - i) (fun i => 1 - i),
    withPerms_pat (csrMem_pat 0 0 permCsr _ _), withPerms_val (csrMem_val 0 0 permCsr _ _), ?_, swap_perm, ?_⟩
  · intro i hi; change i < 2 at hi; interval_cases i <;> rfl
  · intro i hi; change i < 2 at hi; interval_cases i <;> exact ⟨by decide, rfl⟩

/-- C19 is false for base-1 matrices: the arrays of the result are indexed with the base added, so that already for the 1x1
matrix (5) `rowptr[2]` of the result is read. -/
theorem C19_base1_false :
    ¬ (∀ (sz : CArr → Int) (A : Csr Int) (m0 : Mem (CTy Int)) (ri : Nat → Nat), A.WF → HoldsPat m0 0 1 A → HoldsVal m0 0 A →
      (∀ i : Nat, i < A.m → m0 (.itmp 0) (i : Int) = some (ri i : Int)) → IsPermFn A.m ri →
      (permuteRows sz 1 0 1 A.m ⟨true, false, false, false, false⟩ false true).Ok m0 (fun _ m =>
        ∃ B : Csr Int, B.m = A.m ∧ HoldsPat m 1 1 B ∧ HoldsVal m 1 B ∧ ∀ i, i < A.m → B.row i = A.row (ri i))) := by
  intro h
  let m0 : Mem (CTy Int) := withPerms (csrMem 0 1 oneCsr (fun _ => 0) (fun _ => 0)) 1 (fun i => i) (fun i => i)
  have h1 := (h (fun _ => 9) oneCsr m0 (fun i => i) oneCsr_wf (withPerms_pat (csrMem_pat 0 1 oneCsr _ _)) (withPerms_val (csrMem_val 0 1 oneCsr _ _)) ?_
    ⟨fun _ h => h, fun _ _ _ _ h => h⟩).not_runUB
  · have h3 : (permuteRows (R := Int) (fun _ => 9) 1 0 1 1 ⟨true, false, false, false, false⟩ false true).runUB m0 = true := by
      decide +kernel
    rw [show oneCsr.m = 1 from rfl, h3] at h1
    cases h1
  · intro i hi; change i < 1 at hi; interval_cases i; rfl

/-- C54 except for debug builds of base-1 or wide matrices and for missing values (see `C54_base1_debug_false`,
`C54_novalues_false`): `permuteColsInPlace(perm = cp)` keeps the row pointers and the external part of every row and relabels the
columns of its local part. Without diagonal pointers the local part is then sorted by column. With diagonal pointers the entry that
was on the diagonal stays at its place, the diagonal pointer marks it, and the entries before and after it are sorted separately. -/
theorem C54_permuteColsInPlace_partial {sz : CArr → Int} {k base nl : Nat} {A : Csr R} {o : Opt} {dbg : Bool}
    {ep cp : Nat → Nat} {m0 : Mem (CTy R)} (hb : base = 0 ∨ base = 1) (hwf : A.WF)
    (hp : HoldsPat m0 k base A) (hv : o.values = true → HoldsVal m0 k A) (he : HoldsExt m0 k base A o.extptr ep)
    (hcol : ∀ c : Nat, c < nl → m0 (.itmp 1) (c : Int) = some (cp c : Int)) (hcp : IsPermFn nl cp) (hnl : nl ≤ A.n)
    (hloc : ∀ i j, i < A.m → A.ptr i ≤ j → j < ep i → A.col j < nl)
    (hdiag : o.diagptr = true → ∀ i, i < A.m → ∃ j, A.ptr i ≤ j ∧ j < ep i ∧ A.col j = i)
    (hdbg : dbg = true → base = 0 ∧ nl ≤ A.m) (hvals : o.diagptr = false ∨ base = 1 → o.values = true)
    (hz : (A.nnz : Int) ≤ sz (.colidx k)) (hz2 : o.values = true → (A.nnz : Int) ≤ sz (.values k))
    (hz3 : o.diagptr = true → (A.m : Int) ≤ sz (.diagptr k)) :
    (permuteColsInPlace sz k A.m o dbg).Ok m0 (fun _ m =>
      (∃ B : Csr R, B.m = A.m ∧ B.n = A.n ∧ B.WF ∧ HoldsPat m k base B ∧ (o.values = true → HoldsVal m k B) ∧
        (∀ i, i ≤ A.m → B.ptr i = A.ptr i) ∧
        ∀ i, i < A.m → ∃ L loc : List (Nat × R), B.row i = L ++ (A.row i).drop (ep i - A.ptr i) ∧
          loc = ((A.row i).take (ep i - A.ptr i)).map (fun x => (cp x.1, x.2)) ∧
          (o.diagptr = false → L.Perm loc ∧ L.Pairwise fun a b => a.1 ≤ b.1) ∧
          (o.diagptr = true → ∃ (x : Nat) (L1 L2 : List (Nat × R)) (v : R),
            (A.row i)[x]? = some (i, v) ∧ (∀ z, z < x → ∀ y, (A.row i)[z]? = some y → y.1 ≠ i) ∧
            L = L1 ++ (cp i, v) :: L2 ∧
            L1.Perm (loc.take x) ∧ (L1.Pairwise fun a b => a.1 ≤ b.1) ∧
            L2.Perm (loc.drop (x + 1)) ∧ (L2.Pairwise fun a b => a.1 ≤ b.1) ∧
            m (.diagptr k) (i : Int) = some (((A.ptr i + x : Nat) : Int) + base))) ∧
      ∀ a, a ≠ .colidx k → a ≠ .values k → a ≠ .diagptr k → m a = m0 a) := by
  refine Script.Ok.mono (permuteColsInPlace_ok ⟨hwf, hp, hv, he, hcol, hcp, hnl, hloc, hdiag, hdbg, hvals⟩ hb hz hz2 hz3) ?_
  rintro _ m ⟨⟨B, b1, b2, b3, b4, b5, b6, b7⟩, hf⟩
  refine ⟨⟨B, b1, b2, b3, b4, b5, b6, ?_⟩, hf⟩
  intro i hi
  obtain ⟨L, l1, l2⟩ := b7 i hi
  exact ⟨L, _, l1, rfl, l2⟩

/-- The hypotheses of C54 are met by the 2x2 example with diagonal pointers in base 0 and a debug build. -/
example : ∃ m0 : Mem (CTy Int), HoldsPat m0 0 0 permCsr ∧ HoldsVal m0 0 permCsr ∧
    (∀ i : Nat, i < 2 → m0 (.itmp 1) (i : Int) = some ((1 - i : Nat) : Int)) ∧ IsPermFn 2 (fun i => 1 - i) ∧
    2 ≤ permCsr.m ∧ HoldsExt m0 0 0 permCsr false (fun i => permCsr.ptr (i + 1)) ∧
    ∀ i, i < permCsr.m → ∃ j, permCsr.ptr i ≤ j ∧ j < permCsr.ptr (i + 1) ∧ permCsr.col j = i := by
  refine ⟨withPerms (csrMem 0 0 permCsr (fun _ => 0) (fun _ => 0)) 2 (fun i => 1 - i) (fun i => 1 - i),
    withPerms_pat (csrMem_pat 0 0 permCsr _ _), withPerms_val (csrMem_val 0 0 permCsr _ _), ?_, swap_perm, Nat.le_refl _, ⟨by simp, fun _ _ _ => rfl, ?_⟩, ?_⟩
  · intro i hi; interval_cases i <;> rfl
  · intro i hi; change i < 2 at hi; interval_cases i <;> exact ⟨by decide, by decide⟩
  · intro i hi
    change i < 2 at hi
    interval_cases i
    · exact ⟨0, by decide, by decide, rfl⟩
    · exact ⟨2, by decide, by decide, rfl⟩

/-- C54 fails in debug builds for base-1 matrices: the assertion `c < m` is made on the column with the base added, and the 1x1
matrix (5) trips it. -/
theorem C54_base1_debug_false :
    ¬ (∀ (sz : CArr → Int) (A : Csr Int) (m0 : Mem (CTy Int)) (cp : Nat → Nat), A.WF → HoldsPat m0 0 1 A → HoldsVal m0 0 A →
      (∀ c : Nat, c < A.n → m0 (.itmp 1) (c : Int) = some (cp c : Int)) → IsPermFn A.n cp → A.n = A.m →
      (A.nnz : Int) ≤ sz (.colidx 0) → (A.nnz : Int) ≤ sz (.values 0) →
      (permuteColsInPlace sz 0 A.m ⟨true, false, false, false, false⟩ true).Ok m0 (fun _ _ => True)) := by
  intro h
  let m0 : Mem (CTy Int) := withPerms (csrMem 0 1 oneCsr (fun _ => 0) (fun _ => 0)) 1 (fun i => i) (fun i => i)
  have h1 := (h (fun _ => 9) oneCsr m0 (fun i => i) oneCsr_wf (withPerms_pat (csrMem_pat 0 1 oneCsr _ _)) (withPerms_val (csrMem_val 0 1 oneCsr _ _)) ?_
    ⟨fun _ h => h, fun _ _ _ _ h => h⟩ rfl (by decide) (by decide)).not_runUB
  · have h3 : (permuteColsInPlace (R := Int) (fun _ => 9) 0 1 ⟨true, false, false, false, false⟩ true).runUB m0 = true := by
      decide +kernel
    rw [show oneCsr.m = 1 from rfl, h3] at h1
    cases h1
  · intro i hi; change i < 1 at hi; interval_cases i; rfl

/-- Memory `m` without values. -/
def noValues (m : Mem (CTy R)) : Mem (CTy R)
  | .values _, _ => none
  | a, i => m a i

/-- C54 fails for pattern-only matrices without diagonal pointers: values are moved through a null pointer. -/
theorem C54_novalues_false :
    ¬ (∀ (sz : CArr → Int) (A : Csr Int) (m0 : Mem (CTy Int)) (cp : Nat → Nat), A.WF → HoldsPat m0 0 0 A →
      (∀ c : Nat, c < A.n → m0 (.itmp 1) (c : Int) = some (cp c : Int)) → IsPermFn A.n cp → A.n = A.m →
      (A.nnz : Int) ≤ sz (.colidx 0) →
      (permuteColsInPlace sz 0 A.m ⟨false, false, false, false, false⟩ false).Ok m0 (fun _ _ => True)) := by
  intro h
  let m0 : Mem (CTy Int) := noValues (withPerms (csrMem 0 0 permCsr (fun _ => 0) (fun _ => 0)) 2 (fun i => 1 - i) (fun i => 1 - i))
  have h1 := (h (fun _ => 9) permCsr m0 (fun i => 1 - i) permCsr_wf
    ⟨(csrMem_pat 0 0 permCsr (fun _ => 0) (fun _ => 0)).rowptr, (csrMem_pat 0 0 permCsr (fun _ => 0) (fun _ => 0)).colidx⟩ ?_
    swap_perm rfl (by decide)).not_runUB
  · have h3 : (permuteColsInPlace (R := Int) (fun _ => 9) 0 2 ⟨false, false, false, false, false⟩ false).runUB m0 = true := by
      decide +kernel
    rw [show permCsr.m = 2 from rfl, h3] at h1
    cases h1
  · intro i hi; change i < 2 at hi; interval_cases i <;> rfl

end SpMP.Props
