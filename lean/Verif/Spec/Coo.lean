import Verif.Spec.Transpose
/-
Coordinate lists and the matrices they denote: the specification vocabulary for the COO conversion and the Matrix Market
loader. Nothing here mentions the model of the code.
-/

namespace SpMP.Spec

variable {R : Type}

/-- A coordinate list of `nnz` entries: entry `l` is in row `row l`, column `col l` (0-based) with value `val l`. -/
structure Coo (R : Type) where
  m : Nat
  n : Nat
  nnz : Nat
  row : Nat → Nat
  col : Nat → Nat
  val : Nat → R

/-- Indices in range. -/
def Coo.WF (C : Coo R) : Prop := ∀ l, l < C.nnz → C.row l < C.m ∧ C.col l < C.n

/-- The (column, value) pairs listed for row `i`, in list order. -/
def Coo.rowList (C : Coo R) (i : Nat) : List (Nat × R) :=
  ((List.range C.nnz).filter fun l => C.row l = i).map fun l => (C.col l, C.val l)

/-- `B` is `A` with every row sorted by column (not necessarily stably). -/
structure SortedRows (A B : Csr R) : Prop where
  m : B.m = A.m
  n : B.n = A.n
  ptr : B.ptr = A.ptr
  wf : B.WF
  perm : ∀ i, i < A.m → (B.row i).Perm (A.row i)
  ordered : ∀ i, i < A.m → (B.row i).Pairwise fun x y => x.1 ≤ y.1

/-! ### Facts -/

/-- The coordinate list as a one-row matrix whose columns are the row numbers; its transpose groups the entries by row. -/
def Coo.byRow (C : Coo R) : Csr (Nat × R) where
  m := 1
  n := C.m
  ptr := fun i => if i = 0 then 0 else C.nnz
  col := C.row
  val := fun l => (C.col l, C.val l)

theorem Coo.byRow_wf {C : Coo R} (h : C.WF) : C.byRow.WF := by
  refine ⟨rfl, ?_, fun j hj => (h j hj).1⟩
  intro i hi
  obtain rfl : i = 0 := by have : i < 1 := hi; omega
  exact Nat.zero_le _

theorem Coo.byRow_tRow (C : Coo R) (i : Nat) : (C.byRow.tRow i).map (·.2) = C.rowList i := by
  show ((List.range 1).flatMap fun i' => ((C.byRow.row i').filter fun x => decide (x.1 = i)).map fun x => (i', x.2)).map (·.2) = _
  rw [show List.range 1 = [0] from rfl]
  simp only [List.flatMap_cons, List.flatMap_nil, List.append_nil]
  rw [C.byRow.row_filter 0 i]
  show (((List.range' 0 (C.nnz - 0)).filter fun j => decide (C.row j = i)).map fun j => (0, (C.col j, C.val j))).map (·.2) = _
  rw [List.map_map, Nat.sub_zero, ← List.range_eq_range']
  rfl

theorem Coo.rowStart_eq (C : Coo R) (i : Nat) : rowStart C.rowList i = C.byRow.tPtr i := by
  induction i with
  | zero => rfl
  | succ i ih =>
    show rowStart C.rowList i + (C.rowList i).length = rowStart C.byRow.tRow i + (C.byRow.tRow i).length
    rw [ih, ← C.byRow_tRow i, List.length_map]

/-- The matrix whose rows are the lists of the coordinate list. -/
def Coo.toCsr (C : Coo R) : Csr R := Csr.ofRows C.m C.n C.rowList (C.val 0)

theorem Coo.toCsr_wf {C : Coo R} (h : C.WF) : C.toCsr.WF := by
  refine Csr.ofRows_wf ?_
  intro i _ x hx
  obtain ⟨l, hl, rfl⟩ := List.mem_map.mp hx
  exact (h l (List.mem_range.mp (List.mem_filter.mp hl).1)).2

theorem Coo.toCsr_nnz {C : Coo R} (h : C.WF) : C.toCsr.nnz = C.nnz := by
  show rowStart C.rowList C.m = C.nnz
  rw [C.rowStart_eq]
  exact C.byRow.tPtr_last (C.byRow_wf h)

theorem Coo.toCsr_pos {C : Coo R} (h : C.WF) {j : Nat} (hj : j < C.toCsr.nnz) :
    ∃ l, l < C.nnz ∧ C.byRow.tPos l = j ∧ C.toCsr.col j = C.col l ∧ C.toCsr.val j = C.val l := by
  obtain ⟨i, q, hi, hq, rfl⟩ := rowStart_find C.rowList (m := C.m) (j := j) hj
  have hq' : q < (C.byRow.tRow i).length := by rw [← C.byRow_tRow i, List.length_map] at hq; exact hq
  obtain ⟨r, l, h1, h2, h3, h4⟩ := C.byRow.tRow_get (C.byRow_wf h) (List.getElem?_eq_getElem hq')
  have e : (C.rowList i)[q] = (C.col l, C.val l) := by
    have : ((C.byRow.tRow i).map (·.2))[q]? = some (C.col l, C.val l) := by
      rw [List.getElem?_map, List.getElem?_eq_getElem hq', h3]; rfl
    rw [C.byRow_tRow i, List.getElem?_eq_getElem hq] at this
    exact Option.some.inj this
  refine ⟨l, h1.lt_nnz (C.byRow_wf h), ?_, ?_, ?_⟩
  · unfold Csr.tPos; rw [h2, C.rowStart_eq, h4]
  · rw [show C.toCsr.col _ = _ from Csr.ofRows_col hi hq, e]
  · rw [show C.toCsr.val _ = _ from Csr.ofRows_val hi hq, e]

end SpMP.Spec
