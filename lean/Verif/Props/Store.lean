import Verif.StoreMM
import Verif.Props.Loader
import Verif.Props.CsrBasic
/-
Property theorem C17 (Matrix Market store/load round trip).
-/

namespace SpMP.Props
open SpMP SpMP.Spec

variable {R : Type}

/-- C17: storing object `k` (base 0 or 1) and constructing object `k'` from the file gives a matrix of the same size whose row
`i` is a permutation of row `i` of A, sorted by column. The values come back as `fmt v`, what is read after printing `v` with
"%20.16g"; the round trip is exact for the values with `fmt v = v` (16 significant digits are not enough for every double). -/
theorem C17_store_load_partial [One R] [Div R] {sz : CArr → Int} {k k' base ob : Nat} {A : Csr R} {fmt : R → R} {m0 : Mem (CTy R)}
    (hwf : A.WF) (hp : HoldsPat m0 k base A) (hv : HoldsVal m0 k A) :
    (Script.seq sz (storeMM k A.m A.n fmt) fun F => csrFromFile F false 1 k' ob).Ok m0 (fun _ m => ∃ B : Csr R,
      B.m = A.m ∧ B.n = A.n ∧ B.WF ∧ HoldsPat m k' ob B ∧ HoldsVal m k' B ∧
      ∀ i, i < A.m → (B.row i).Pairwise (fun x y => x.1 ≤ y.1) ∧
        (B.row i).Perm ((A.row i).map fun x => (x.1, fmt x.2)) ∧
        ((∀ x ∈ A.row i, fmt x.2 = x.2) → (B.row i).Perm (A.row i))) := by
  refine seq_rule ?_
  refine wp_storeMM hwf (fun _ _ => trivial) hp hv ?_
  refine Script.Ok.mono (C13_csr_constructor_partial (T0 := (triples A A.m).map (fmtTriple fmt)) rfl rfl rfl ?_ ?_) ?_
  · rw [List.length_map, triples_length hwf (Nat.le_refl _)]; rfl
  · intro e he
    obtain ⟨f, hf, rfl⟩ := List.mem_map.mp he
    obtain ⟨i, hi, hf⟩ := List.mem_flatMap.mp hf
    obtain ⟨x, hx, rfl⟩ := List.mem_map.mp hf
    obtain ⟨j, h1, h2, rfl⟩ := Csr.mem_row.mp hx
    have hi := List.mem_range.mp hi
    exact ⟨hi, hwf.col_lt j (Csr.InRow.lt_nnz hwf ⟨hi, h1, h2⟩)⟩
  · rintro _ m ⟨B, g1, g2, g3, g4, g5, g6⟩
    refine ⟨B, g1, g2, g3, g4, g5, ?_⟩
    intro i hi
    obtain ⟨q1, q2⟩ := g6 i hi
    have e : (((triples A A.m).map (fmtTriple fmt)).filter fun e => e.1 = i).map (fun e => (e.2.1, if false then (1 : R) else e.2.2)) =
        (A.row i).map fun x => (x.1, fmt x.2) := by
      rw [List.filter_map, List.map_map]
      have := congrArg (List.map fun x : Nat × R => (x.1, fmt x.2)) (triples_filter A hi)
      rw [List.map_map] at this
      exact this
    rw [show (fun e : Nat × Nat × R => (e.2.1, if false = true then (1 : R) else e.2.2)) = fun e => (e.2.1, if false then (1 : R) else e.2.2) from rfl, e] at q2
    refine ⟨q1, q2, fun hx => ?_⟩
    have : (A.row i).map (fun x => (x.1, fmt x.2)) = A.row i := by
      conv_rhs => rw [← List.map_id (A.row i)]
      refine List.map_congr_left ?_
      intro x hx'
      rw [hx x hx']; rfl
    rw [this] at q2
    exact q2

example : (Script.seq (fun _ => 0) (storeMM 0 exampleCsr.m exampleCsr.n (fun v => v)) fun F => csrFromFile F false 1 1 (0 : Nat)).Ok
    (csrMem 0 1 exampleCsr (fun _ => 0) (fun _ => 0)) (fun _ m => ∃ B : Csr Int, B.m = exampleCsr.m ∧ HoldsPat m 1 0 B) :=
  Script.Ok.mono (C17_store_load_partial exampleCsr_wf (csrMem_pat 0 1 exampleCsr _ _) (csrMem_val 0 1 exampleCsr _ _))
    (by rintro _ m ⟨B, h1, _, _, h4, _⟩; exact ⟨B, h1, h4⟩)

end SpMP.Props
