import Verif.Spec.Coo
import Mathlib.Data.List.Basic
/-
What a loaded Matrix Market file should contain. Nothing here mentions the model of the code.
-/

namespace SpMP.Spec

variable {R : Type}

/-- The coordinate list with the given (row, column, value) triples (0-based). -/
def Coo.ofList (m n : Nat) (T : List (Nat × Nat × R)) (d : R) : Coo R where
  m := m
  n := n
  nnz := T.length
  row := fun l => (T.getD l (0, 0, d)).1
  col := fun l => (T.getD l (0, 0, d)).2.1
  val := fun l => (T.getD l (0, 0, d)).2.2

/-- The off-diagonal entry `e` has no listed mirror. -/
def lonely (T : List (Nat × Nat × R)) (e : Nat × Nat × R) : Bool :=
  e.1 != e.2.1 && T.all fun f => !(f.1 == e.2.1 && f.2.1 == e.1)

/-- The mirrors of the off-diagonal entries whose mirror is not listed. -/
def mirrors (T : List (Nat × Nat × R)) : List (Nat × Nat × R) :=
  (T.filter (lonely T)).map fun e => (e.2.1, e.1, e.2.2)

/-- Unit diagonal entries `lo ..< hi`. -/
def padDiag [One R] (lo hi : Nat) : List (Nat × Nat × R) := (List.range' lo (hi - lo)).map fun i => (i, i, 1)

/-- The triples of a file, as listed with index base `b`. -/
def listed (b : Int) (T : List (Nat × Nat × R)) : List (Int × Int × R) := T.map fun e => ((e.1 : Int) + b, (e.2.1 : Int) + b, e.2.2)

/-- The entry a line contributes: transposed if requested, with value 1 in a pattern file. -/
def fileEntry [One R] (trans pattern : Bool) (e : Nat × Nat × R) : Nat × Nat × R :=
  (if trans then e.2.1 else e.1, if trans then e.1 else e.2.1, if pattern then 1 else e.2.2)

/-! ### Facts -/

theorem Coo.ofList_get {m n : Nat} {T : List (Nat × Nat × R)} {d : R} {l : Nat} (h : l < T.length) :
    ((Coo.ofList m n T d).row l, (Coo.ofList m n T d).col l, (Coo.ofList m n T d).val l) = T[l] := by
  show ((T.getD l (0, 0, d)).1, (T.getD l (0, 0, d)).2.1, (T.getD l (0, 0, d)).2.2) = _
  rw [List.getD_eq_getElem?_getD, List.getElem?_eq_getElem h]; rfl

theorem Coo.ofList_wf {m n : Nat} {T : List (Nat × Nat × R)} {d : R} (h : ∀ e ∈ T, e.1 < m ∧ e.2.1 < n) : (Coo.ofList m n T d).WF := by
  intro l hl
  have e := Coo.ofList_get (m := m) (n := n) (d := d) (show l < T.length from hl)
  have := h _ (List.getElem_mem (show l < T.length from hl))
  rw [← e] at this
  exact this

theorem lonely_iff {T : List (Nat × Nat × R)} {e : Nat × Nat × R} :
    lonely T e = true ↔ e.1 ≠ e.2.1 ∧ ∀ f ∈ T, ¬ (f.1 = e.2.1 ∧ f.2.1 = e.1) := by
  unfold lonely
  simp only [List.all_eq_true, Bool.and_eq_true, bne_iff_ne, Bool.not_eq_true', Bool.and_eq_false_iff, beq_eq_false_iff_ne]
  refine and_congr_right fun _ => forall_congr' fun f => forall_congr' fun _ => ?_
  rw [not_and_or]

theorem listed_length (b : Int) (T : List (Nat × Nat × R)) : (listed b T).length = T.length := List.length_map _

theorem listed_append (b : Int) (T T' : List (Nat × Nat × R)) : listed b (T ++ T') = listed b T ++ listed b T' := List.map_append

theorem listed_get {b : Int} {T : List (Nat × Nat × R)} {l : Nat} (h : l < T.length) :
    (listed b T)[l]'(by rw [listed_length]; exact h) = ((T[l].1 : Int) + b, (T[l].2.1 : Int) + b, T[l].2.2) :=
  List.getElem_map _

/-- Rows of the coordinate list: the triples of the row, in list order. -/
theorem Coo.ofList_rowList (m n : Nat) (T : List (Nat × Nat × R)) (d : R) (i : Nat) :
    (Coo.ofList m n T d).rowList i = (T.filter fun e => e.1 = i).map fun e => e.2 := by
  unfold Coo.rowList
  show ((List.range T.length).filter fun l => (T.getD l (0, 0, d)).1 = i).map
    (fun l => ((T.getD l (0, 0, d)).2.1, (T.getD l (0, 0, d)).2.2)) = _
  conv_rhs => rw [show T = (List.range T.length).map fun l => T.getD l (0, 0, d) by
    refine List.ext_getElem (by simp) ?_
    intro l h1 h2
    simp [List.getD_eq_getElem?_getD, List.getElem?_eq_getElem h1]]
  rw [List.filter_map, List.map_map]
  rfl

end SpMP.Spec
