import Verif.LoaderSym
/-
Writing a Matrix Market file (/repo/CSR.cpp:276-304).
-/

namespace SpMP
open Spec

set_option linter.unusedSectionVars false

variable {R : Type} [Races CArr]

/-- CSR.cpp:296-301: the entry lines. `fmt` is what the loader reads back for a value printed with "%20.16g". -/
def storeLines (k : Nat) (m : Nat) (base : Int) (fmt : R → R) : Prog (CTy R) (List (Int × Int × R)) :=
  Prog.forUp (ty := CTy R) 0 (m : Int) [] fun i acc => do
    let lo ← Prog.read (ty := CTy R) (.rowptr k) i
    let hi ← Prog.read (ty := CTy R) (.rowptr k) (i + 1)
    Prog.forUp (ty := CTy R) ((lo : Int) - base) ((hi : Int) - base) acc fun j acc => do
      let c ← Prog.read (ty := CTy R) (.colidx k) j
      let v ← Prog.read (ty := CTy R) (.values k) j
      pure (acc ++ [(i + 1, (c : Int) - base + 1, fmt v)])

/-- CSR.cpp:276-304 CSR::storeMatrixMarket; the result is the file it writes (banner: coordinate real general), as the loader
will read it. The file is assumed to open (assert(fp)) and to be written completely. -/
def storeMM (k m n : Nat) (fmt : R → R) : Prog (CTy R) (MMFile R) := do
  let base ← Prog.read (ty := CTy R) (.rowptr k) 0
  let last ← Prog.read (ty := CTy R) (.rowptr k) (m : Int)
  let es ← storeLines k m base fmt
  pure ⟨true, false, false, m, n, ((last : Int) - base).toNat, es⟩

/-- The entries of a matrix row by row. -/
def triples (A : Csr R) (rows : Nat) : List (Nat × Nat × R) :=
  (List.range rows).flatMap fun i => (A.row i).map fun x => (i, x.1, x.2)

theorem triples_succ (A : Csr R) (i : Nat) : triples A (i + 1) = triples A i ++ (A.row i).map fun x => (i, x.1, x.2) := by
  unfold triples; rw [List.range_succ, List.flatMap_append]; simp

theorem triples_length {A : Csr R} (hwf : A.WF) {i : Nat} (hi : i ≤ A.m) : (triples A i).length = A.ptr i := by
  induction i with
  | zero => exact hwf.ptr_zero.symm
  | succ i ih =>
    rw [triples_succ, List.length_append, ih (by omega), List.length_map, Csr.row_length]
    have := hwf.ptr_step i hi
    omega

theorem triples_filter (A : Csr R) {rows i : Nat} (hi : i < rows) :
    ((triples A rows).filter fun e => e.1 = i).map (fun e => e.2) = A.row i := by
  have aux : ∀ r, ((triples A r).filter fun e => decide (e.1 = i)).map (fun e => e.2) = if i < r then A.row i else [] := by
    intro r
    induction r with
    | zero => rfl
    | succ r ih =>
      rw [triples_succ, List.filter_append, List.map_append, ih]
      by_cases h : r = i
      · subst h
        rw [if_neg (by omega), if_pos (by omega), List.nil_append, List.filter_map, List.map_map]
        have : (A.row r).filter ((fun e : Nat × Nat × R => decide (e.1 = r)) ∘ fun x => (r, x.1, x.2)) = A.row r := by
          rw [List.filter_eq_self]; intro x _; simp
        rw [this]
        exact List.map_id _
      · have : ((A.row r).map fun x => (r, x.1, x.2)).filter (fun e => decide (e.1 = i)) = [] := by
          rw [List.filter_eq_nil_iff]
          intro e he
          obtain ⟨x, _, rfl⟩ := List.mem_map.mp he
          simp [h]
        rw [this, List.map_nil, List.append_nil]
        by_cases h2 : i < r
        · rw [if_pos h2, if_pos (by omega)]
        · rw [if_neg h2, if_neg (by omega)]
  have := aux rows
  rw [if_pos hi] at this
  exact this

/-- The values as read back. -/
def fmtTriple (fmt : R → R) (e : Nat × Nat × R) : Nat × Nat × R := (e.1, e.2.1, fmt e.2.2)

theorem wp_storeMM {sz : CArr → Int} {W Rd : CArr → Int → Prop} {k base : Nat} {A : Csr R} {fmt : R → R} {m0 : Mem (CTy R)}
    {Q : MMFile R → Mem (CTy R) → Prop} (hwf : A.WF) (hR : ∀ a i, Rd a i) (hp : HoldsPat m0 k base A) (hv : HoldsVal m0 k A)
    (hQ : Q ⟨true, false, false, A.m, A.n, A.nnz, listed 1 ((triples A A.m).map (fmtTriple fmt))⟩ m0) :
    wp sz W Rd (storeMM k A.m A.n fmt) m0 Q := by
  unfold storeMM
  have hb0 := hp.rowptr 0 (Nat.zero_le _)
  rw [hwf.ptr_zero] at hb0
  have hb0 : m0 (.rowptr k) 0 = some (base : Int) := by rw [show (base : Int) = ((0 : Nat) : Int) + base by omega]; exact hb0
  refine wp_rd _ (hR _ _) hb0 ?_
  refine wp_rd _ (hR _ _) (hp.rowptr A.m (Nat.le_refl _)) ?_
  rw [wp_bind]
  unfold storeLines
  refine wp_forN (b := 0) (lo := 0) (hi := A.m) (fun x acc m => m = m0 ∧ acc = listed 1 ((triples A x).map (fmtTriple fmt)))
    (Nat.zero_le _) ⟨rfl, rfl⟩ ?_ ?_ (by simp) (by simp)
  · rintro i acc m - hi ⟨rfl, rfl⟩
    rw [Int.add_zero]
    have h1 := hp.rowptr (i + 1) hi
    push_cast at h1
    refine wp_rd _ (hR _ _) (hp.rowptr i (by omega)) ?_
    refine wp_rd _ (hR _ _) h1 ?_
    have hrl : ∀ x, A.ptr i ≤ x → (List.range' (A.ptr i) (x + 1 - A.ptr i)) = List.range' (A.ptr i) (x - A.ptr i) ++ [x] := by
      intro x hx
      rw [show x + 1 - A.ptr i = (x - A.ptr i) + 1 by omega, List.range'_concat]
      rw [show A.ptr i + 1 * (x - A.ptr i) = x by omega]
    refine wp_forN (b := 0) (lo := A.ptr i) (hi := A.ptr (i + 1)) (fun x acc m' => m' = m ∧
      acc = listed 1 ((triples A i ++ (List.range' (A.ptr i) (x - A.ptr i)).map fun j => (i, A.col j, A.val j)).map (fmtTriple fmt)))
      (hwf.ptr_step i hi) ⟨rfl, ?_⟩ ?_ ?_ (show (A.ptr i : Int) + base - base = _ by omega)
      (show (A.ptr (i + 1) : Int) + base - base = _ by omega)
    · rw [Nat.sub_self]; simp
    · rintro j acc m' g1 g2 ⟨rfl, rfl⟩
      rw [Int.add_zero]
      have hj : j < A.nnz := Csr.InRow.lt_nnz hwf ⟨hi, g1, g2⟩
      refine wp_rd _ (hR _ _) (hp.colidx j hj) ?_
      refine wp_rd _ (hR _ _) (hv j hj) ?_
      rw [wp_pure]
      refine ⟨rfl, ?_⟩
      have e0 : (List.range' (A.ptr i) (j + 1 - A.ptr i)).map (fun j => (i, A.col j, A.val j)) =
          (List.range' (A.ptr i) (j - A.ptr i)).map (fun j => (i, A.col j, A.val j)) ++ [(i, A.col j, A.val j)] := by
        rw [hrl j g1, List.map_append]; rfl
      rw [e0, ← List.append_assoc]
      conv_rhs => rw [List.map_append, listed_append]
      congr 1
      show [((i : Int) + 1, (A.col j : Int) + base - base + 1, fmt (A.val j))] = [((i : Int) + 1, (A.col j : Int) + 1, fmt (A.val j))]
      rw [show (A.col j : Int) + base - base + 1 = (A.col j : Int) + 1 by omega]
    · rintro acc m' ⟨rfl, rfl⟩
      refine ⟨rfl, ?_⟩
      rw [triples_succ]
      congr 3
      unfold Csr.row
      rw [List.map_map]; rfl
  · rintro acc m ⟨rfl, rfl⟩
    rw [wp_pure]
    have e : ((A.ptr A.m : Int) + base - base).toNat = A.nnz := by
      have : A.nnz = A.ptr A.m := rfl
      omega
    have e' : (((A.ptr A.m : Int) + base : CTy R (.rowptr k)) - (base : Int)).toNat = A.nnz := e
    first
      | rw [e]; exact hQ
      | rw [e']; exact hQ

end SpMP
