import Verif.BinFile
import Verif.Props.CsrBasic
import Mathlib.Tactic.IntervalCases
/-
Property theorems C16 (binary store/load).
-/

namespace SpMP.Props
open SpMP SpMP.Spec

variable {R : Type}

/-- C16, storing: if the file can be opened, or if the matrix is 0-based, storeBin leaves the whole memory (all arrays of the
matrix, so also its base) as it was. -/
theorem C16_store_unchanged_partial {sz : CArr → Int} {k base : Nat} {A : Csr R} {o : Opt} {opens : Bool} {m0 : Mem (CTy R)} (hwf : A.WF)
    (hp : HoldsPat m0 k base A) (hv : HoldsVal m0 k A) (hb : base = 0 ∨ base = 1)
    (hdiag : base = 1 → o.diagptr → ∀ i : Nat, i < A.m → ∃ v, m0 (.diagptr k) (i : Int) = some v)
    (hsz : base = 1 → SizesOk sz k A o) (hopen : opens = true ∨ base = 0) :
    (storeBin sz k A.m A.n o opens).Ok m0 (fun r m => m = m0 ∧ (r.isSome ↔ opens = true)) := by
  refine Script.Ok.mono (storeBin_ok hwf hp hv hb hdiag hsz) ?_
  intro r m h
  rw [if_pos hopen] at h
  obtain ⟨h1, h2⟩ := h
  refine ⟨h1, ?_⟩
  rw [h2]
  cases opens <;> simp

/-- C16, round trip: storing object `k` (base 0 or 1) and loading the file into object `k'` with base `ob` gives the same
dimensions, row pointers, columns and values in base `ob`, entry by entry and in the same order; the stored object is unchanged.
For `ob = 1` every row must have a diagonal entry (see `C16_load_base1_nodiag_false`). -/
theorem C16_store_load_partial [One R] [Div R] {sz sz' : CArr → Int} {k k' base ob : Nat} {A : Csr R} {o : Opt} {m0 : Mem (CTy R)}
    (hwf : A.WF) (hp : HoldsPat m0 k base A) (hv : HoldsVal m0 k A) (hb : base = 0 ∨ base = 1) (hob : ob = 0 ∨ ob = 1)
    (hdiag : base = 1 → o.diagptr → ∀ i : Nat, i < A.m → ∃ v, m0 (.diagptr k) (i : Int) = some v)
    (hsz : base = 1 → SizesOk sz k A o) (hsz' : SizesOk sz' k' A allOpt)
    (hd : ob = 1 → ∀ i, i < A.m → ∃ j, A.InRow i j ∧ A.col j = i) :
    (storeThenLoad sz sz' k k' A.m A.n o ob).Ok m0 (fun r m => r = some (A.m, A.n) ∧ HoldsPat m k' ob A ∧ HoldsVal m k' A ∧
        ∀ a i, ¬ a.ofObj k' → m a i = m0 a i) := by
  unfold storeThenLoad
  rw [Script.ok_bind]
  refine Script.Ok.mono (storeBin_ok hwf hp hv hb hdiag hsz) ?_
  intro r m h
  rw [if_pos (Or.inl rfl)] at h
  obtain ⟨rfl, rfl⟩ := h
  show (Script.bind _ _).Ok _ _
  rw [Script.ok_bind]
  refine Script.Ok.mono (loadBin_ok hwf hob hsz' hd) ?_
  rintro _ m' ⟨h1, h2, _, h4⟩
  exact ⟨rfl, h1, h2, h4⟩

/-- C16, loading: besides the pattern and the values, the loaded object's diagonal data describe a diagonal entry of every row
that has one (diagptr in the new base, idiag its inverse, diag its value). -/
theorem C16_load_diag [One R] [Div R] {sz : CArr → Int} {k base : Nat} {A : Csr R} {m0 : Mem (CTy R)} (hwf : A.WF)
    (hb : base = 0 ∨ base = 1) (hsz : SizesOk sz k A allOpt)
    (hd : base = 1 → ∀ i, i < A.m → ∃ j, A.InRow i j ∧ A.col j = i) :
    (loadBin sz k (binOf A) base).Ok m0 (fun _ m => ∀ i j, A.InRow i j → A.col j = i →
        ∃ j', A.InRow i j' ∧ A.col j' = i ∧ m (.diagptr k) (i : Int) = some ((j' : Int) + base) ∧
          m (.idiag k) (i : Int) = some (1 / A.val j') ∧ m (.diag k) (i : Int) = some (A.val j')) :=
  Script.Ok.mono (loadBin_ok hwf hb hsz hd) (fun _ _ h => h.2.2.1)

/-- C16 is false when the file cannot be opened and the matrix is 1-based: storeBin returns with the matrix 0-based
(CSR.cpp:369-372). -/
theorem C16_open_fails_base1_false :
    ¬ (∀ (sz : CArr → Int) (A : Csr Int) (o : Opt) (opens : Bool) (m0 : Mem (CTy Int)), A.WF → HoldsPat m0 0 1 A → HoldsVal m0 0 A →
      (∀ i : Nat, i < A.m → ∃ v, m0 (.diagptr 0) (i : Int) = some v) → SizesOk sz 0 A o →
      (storeBin sz 0 A.m A.n o opens).Ok m0 (fun _ m => HoldsPat m 0 1 A)) := by
  intro h
  let o : Opt := ⟨true, true, false, false, false⟩
  let m0 := csrMem 0 1 exampleCsr (fun _ => 4) (fun _ => 0)
  have h1 := (h (csrSize 0 3 5 o) exampleCsr o false m0 exampleCsr_wf (csrMem_pat _ _ _ _ _) (csrMem_val _ _ _ _ _)
    (by intro i hi; exact ⟨((4 + 1 : Nat) : Int), by simp [m0, csrMem, hi]⟩)
    ⟨by decide, by decide, by decide, by decide, by decide, by decide, by decide⟩).run
  obtain ⟨r, m', h3, h4⟩ : ∃ r m', (storeBin (csrSize 0 3 5 o) 0 3 3 o false).run m0 = some (r, m') ∧
    m' (.rowptr 0) 0 = some (0 : Int) := ⟨_, _, rfl, rfl⟩
  have h5 := (h1 _ _ h3).rowptr 0 (by decide)
  rw [Int.natCast_zero, h4] at h5
  exact absurd h5 (by decide)

/-- Loading with base 1 reads diagptr of a row without diagonal entry, which alloc left uninitialised (CSR.cpp:337-351 and
CSR.cpp make1BasedIndexing). -/
theorem C16_load_base1_nodiag_false :
    ¬ (∀ (sz : CArr → Int) (A : Csr Int) (m0 : Mem (CTy Int)), A.WF → SizesOk sz 0 A allOpt →
      (loadBin sz 0 (binOf A) 1).Ok m0 (fun _ m => HoldsPat m 0 1 A)) := by
  intro h
  have h1 := (h (csrSize 0 3 5 allOpt) exampleCsr (fun _ _ => none) exampleCsr_wf
    ⟨by decide, by decide, by decide, by decide, by decide, by decide, by decide⟩).not_runUB
  rw [show Script.runUB _ _ = true from rfl] at h1
  cases h1

/-- A matrix with a full diagonal, unsorted second row. -/
def exampleDiag : Csr Int := ⟨2, 2, fun i => [0, 1, 3].getD i 0, fun j => [0, 1, 0].getD j 0, fun j => [5, 7, 9].getD j 0⟩

theorem exampleDiag_wf : exampleDiag.WF := by
  refine ⟨rfl, ?_, ?_⟩
  · intro i hi
    have hi : i < 2 := hi
    interval_cases i <;> decide
  · intro j hj
    have hj : j < 3 := hj
    interval_cases j <;> decide

-- a 1-based matrix is stored and loaded back 1-based
example : (storeThenLoad (csrSize 0 2 3 allOpt) (csrSize 1 2 3 allOpt) 0 1 2 2 ⟨true, true, false, false, false⟩ (1 : Nat)).Ok (csrMem 0 1 exampleDiag (fun i => i) (fun _ => 0))
      (fun r m => r = some (2, 2) ∧ HoldsPat m 1 1 exampleDiag ∧ HoldsVal m 1 exampleDiag ∧
        ∀ a i, ¬ a.ofObj 1 → m a i = csrMem 0 1 exampleDiag (fun i => i) (fun _ => 0) a i) :=
  C16_store_load_partial (sz := csrSize 0 2 3 allOpt) (sz' := csrSize 1 2 3 allOpt) (k := 0) (k' := 1)
    (o := ⟨true, true, false, false, false⟩) (A := exampleDiag) (m0 := csrMem 0 1 exampleDiag (fun i => i) (fun _ => 0)) exampleDiag_wf (csrMem_pat _ _ _ _ _)
    (csrMem_val _ _ _ _ _) (Or.inr rfl) (Or.inr rfl)
    (fun _ _ i hi => ⟨((i + 1 : Nat) : Int), by simp [csrMem, hi]⟩)
    (fun _ => ⟨by decide, by decide, by decide, by decide, by decide, by decide, by decide⟩)
    ⟨by decide, by decide, by decide, by decide, by decide, by decide, by decide⟩
    (fun _ i hi => by
      have hi : i < 2 := hi
      interval_cases i
      · exact ⟨0, ⟨by decide, by decide, by decide⟩, by decide⟩
      · exact ⟨1, ⟨by decide, by decide, by decide⟩, by decide⟩)

end SpMP.Props
