import Verif.IluMath
import Verif.Props.TasksEx
import Mathlib.Algebra.Field.Rat
/-
Theorems for C39 (scheduled ILU(0) equals sequential ILU(0)) and C53 (the factors multiply to the matrix on its pattern).
-/

namespace SpMP.Props
open SpMP SpMP.Spec

variable {R : Type}

theorem vee_wf : vee.WF := by
  refine ⟨rfl, ?_, ?_⟩
  · have : ∀ i < 3, vee.ptr i ≤ vee.ptr (i + 1) := by decide
    exact fun i hi => this i hi
  · have : ∀ j < 7, vee.col j < 3 := by decide
    exact fun j hj => this j hj

theorem vee_sorted : ∀ i, i < vee.m → vee.RowSorted i := by
  intro i hi j j' h1 h2 h3
  rcases vee_row ⟨hi, Nat.le_of_lt (Nat.lt_of_le_of_lt h1 h2), h3⟩ with ⟨rfl, h⟩ | ⟨rfl, h⟩ | ⟨rfl, h⟩
  · have : j = 0 ∧ j' = 1 := by omega
    obtain ⟨rfl, rfl⟩ := this; decide
  · have h1 : 2 ≤ j := h1
    have : j = 2 ∧ j' = 3 := by omega
    obtain ⟨rfl, rfl⟩ := this; decide
  · have h1 : 4 ≤ j := h1
    rcases (by omega : (j = 4 ∧ j' = 5) ∨ (j = 4 ∧ j' = 6) ∨ (j = 5 ∧ j' = 6)) with ⟨rfl, rfl⟩ | ⟨rfl, rfl⟩ | ⟨rfl, rfl⟩ <;> decide

section
variable [Sub R] [Mul R] [Div R] [Races CArr]

/-- A factorisation call: matrix with sorted rows and diagonal pointers in memory, room for the factors, and a schedule for as many rows
with flags for all its tasks. -/
structure IluSetup (S : Schedule) (sz : CArr → Int) (m0 : Mem (CTy R)) (base : Nat) (A : Csr R) (dp : Nat → Nat) : Prop where
  wf : A.WF
  sorted : ∀ i, i < A.m → A.RowSorted i
  pat : HoldsPat m0 0 base A
  val : HoldsVal m0 0 A
  diag : ∀ i : Nat, i < A.m → m0 (.diagptr 0) (i : Int) = some ((dp i : Int) + base)
  size_lu : (A.nnz : Int) ≤ sz (.vec 1)
  size_flags : (S.ntasks : Int) ≤ sz (.itmp 0)

omit [Sub R] [Mul R] [Div R] in
/-- The copy at the start of the factorisation. -/
theorem iluInit_ok {sz : CArr → Int} {A : Csr R} {m0 : Mem (CTy R)} (hval : HoldsVal m0 0 A) (hsz : (A.nnz : Int) ≤ sz (.vec 1)) :
    (iluInit sz A.nnz).Ok m0 (fun _ m1 => (∀ i : Nat, i < A.nnz → m1 (.vec 1) (i : Int) = some (A.val i)) ∧
      (∀ b, b ≠ .vec 1 → m1 b = m0 b) ∧ ∀ i : Int, ¬ (0 ≤ i ∧ i < A.nnz) → m1 (.vec 1) i = m0 (.vec 1) i) := by
  unfold iluInit copyArr
  refine par_rule
    (W := fun t b i => b = .vec 1 ∧ i = (t : Int)) (R := fun t b i => b = .values 0 ∨ (b = .vec 1 ∧ i = (t : Int)))
    (Q := fun t _ m' => m' (.vec 1) (t : Int) = some (A.val t)) ?_ ?_ ?_
  · rintro t u b i ht hu htu ⟨rfl, rfl⟩ (h | ⟨_, h⟩)
    · cases h
    · omega
  · intro t ht
    simp only [wp_bind, wp_read, wp_write, true_or, true_and]
    refine ⟨A.val t, hval t ht, by omega, ?_, ?_⟩
    · omega
    · simp
  · intro _ m' hq hf
    refine ⟨?_, ?_, ?_⟩
    · intro i hi
      obtain ⟨mt, h1, h2⟩ := hq i hi
      rw [h2 _ _ (Or.inr ⟨rfl, rfl⟩)]; exact h1
    · intro b hb; funext i; exact hf b i (by rintro t _ ⟨h, _⟩; exact hb h)
    · intro i hi; exact hf _ _ (by rintro t ht ⟨_, h⟩; omega)

/-- C39. For every schedule built by the library for the matrix, every interleaving of the parallel factorisation ends, without
undefined behaviour or deadlock, with exactly the factors of the row-by-row elimination (no law of arithmetic is used), and changes nothing
else; with base 0 so does the sequential routine. -/
theorem C39_parallel_ilu0 {S : Schedule} {sz : CArr → Int} {m0 : Mem (CTy R)} {base : Nat} {A : Csr R} {dp ep : Nat → Nat} {ub : Bool} {L : List (List Nat)}
    (hA : Schedulable A dp ep) (hb : Built S A dp ep ub L) (h : IluSetup S sz m0 base A dp) :
    (iluInit sz A.nnz).Ok m0 (fun _ m1 => RunsTo sz S (iluExec S base) m1 (OnlyY m0 A.nnz (ilu0 A dp A.m A.val))) ∧
    (base = 0 → (ilu0Ref sz base A.m A.nnz).Ok m0 (fun _ m' => OnlyY m0 A.nnz (ilu0 A dp A.m A.val) m')) := by
  obtain ⟨lvl, hg, _, hm, hT⟩ := hb.good hA
  have hinit := iluInit_ok (m0 := m0) h.val h.size_lu
  have hmem : ∀ m1 m2 : Mem (CTy R), (∀ b, b ≠ .vec 1 → m1 b = m0 b) → (∀ a, a ≠ .itmp 0 → m2 a = m1 a) → IluMem m2 base A dp := by
    intro m1 m2 h1 h2
    refine ⟨⟨?_, ?_⟩, ?_⟩
    · intro i hi; rw [h2 _ (by simp), h1 _ (by simp)]; exact h.pat.rowptr i hi
    · intro i hi; rw [h2 _ (by simp), h1 _ (by simp)]; exact h.pat.colidx i hi
    · intro i hi; rw [h2 _ (by simp), h1 _ (by simp)]; exact h.diag i hi
  have hback : ∀ m1 m' : Mem (CTy R), (∀ b, b ≠ .vec 1 → m1 b = m0 b) → (∀ i : Int, ¬ (0 ≤ i ∧ i < A.nnz) → m1 (.vec 1) i = m0 (.vec 1) i) →
      OnlyY m1 A.nnz (ilu0 A dp A.m A.val) m' → OnlyY m0 A.nnz (ilu0 A dp A.m A.val) m' := by
    intro m1 m' h1 h2 h3
    refine ⟨h3.1, ?_⟩
    intro a i ha hn
    rw [h3.2 a i ha hn]
    by_cases hv : a = .vec 1
    · subst hv; exact h2 i (fun hh => hn ⟨rfl, hh⟩)
    · rw [h1 a hv]
  refine ⟨Script.Ok.mono hinit ?_, ?_⟩
  · rintro _ m1 ⟨g1, g2, g3⟩
    have := block_exec (sz := sz) (m0 := m1) (n := A.nnz) (own := A.InRow) (nbr := A.Nbr) (body := iluRow base) (f := elimRow A dp) (y0 := A.val)
      hg.tiling hg.levelled hT (fun q r c h1 h2 => h1.unique h.wf h2) hg.fwd
      (fun m2 h2 => by rw [hm]; exact iluRow_block h.wf hA.split h.sorted (hmem m1 m2 g2 h2) h.size_lu) h.size_flags g1
    rw [blockSweep_ilu0, hm] at this
    unfold RunsTo at this ⊢
    refine Script.Ok.mono this ?_
    intro _ m2 h2
    exact P2POk.mono h2 fun m' h3 => hback m1 m' g2 g3 h3
  · intro hb0
    subst hb0
    unfold ilu0Ref
    rw [Script.ok_bind]
    refine Script.Ok.mono hinit ?_
    rintro _ m1 ⟨g1, g2, g3⟩
    refine seq_rule ?_
    have hk := iluRow_block (sz := sz) h.wf hA.split h.sorted (hmem m1 m1 g2 (fun _ _ => rfl)) h.size_lu
    have hk' : IsBlockKernel sz m1 A.m A.nnz A.InRow A.Nbr (fun r => iluRowRef 0 (r : Int)) (elimRow A dp) := by
      intro r hr y
      have := hk r hr y
      unfold iluRow at this
      unfold iluRowRef
      simpa using this
    refine blockLoop_ok (y0 := A.val) (fun k => rfl) hk' g1 _ ?_
    rintro m' rfl
    refine Script.ok_done_of ?_
    rw [blockSweep_ilu0]
    exact hback m1 _ g2 g3 (onlyY_of_withY _ _ _)

end

/-- The claim of C39 for the sequential routine fails with base 1: it indexes rows from 0 behind pointers shifted by the base, so the first
access is `rowptr[-1]`. -/
theorem C39_ref_base_one_ub :
    ¬ (∀ (sz : CArr → Int) (m0 : Mem (CTy Int)) (A : Csr Int) (dp ep : Nat → Nat), A.WF → Schedulable A dp ep → (∀ i, i < A.m → A.RowSorted i) →
      HoldsPat m0 0 1 A → HoldsVal m0 0 A → (∀ i : Nat, i < A.m → m0 (.diagptr 0) (i : Int) = some ((dp i : Int) + 1)) → (A.nnz : Int) ≤ sz (.vec 1) →
      (ilu0Ref sz 1 A.m A.nnz).Ok m0 (fun _ m' => OnlyY m0 A.nnz (ilu0 A dp A.m A.val) m')) := by
  intro h
  have h1 := (h (fun _ => 100) (csrMem 0 1 vee veeDp veeEp) vee veeDp veeEp vee_wf vee_schedulable vee_sorted (csrMem_pat _ _ _ _ _) (csrMem_val _ _ _ _ _)
    (by intro i hi; have hi : i < 3 := hi; simp [csrMem, show vee.m = 3 from rfl, hi]) (by decide)).not_runUB
  have h2 : (ilu0Ref (R := Int) (fun _ => 100) 1 vee.m vee.nnz).runUB (csrMem 0 1 vee veeDp veeEp) = true := by decide +kernel
  rw [h2] at h1
  cases h1

/-- C53. If no pivot is zero, the product of the factors agrees with the matrix on every stored entry. -/
theorem C53_ilu0_reproduces [Field R] {A : Csr R} {dp ep : Nat → Nat} (hwf : A.WF) (hsp : SplitRows A dp ep) (hs : ∀ i, i < A.m → A.RowSorted i)
    (hpiv : ∀ i, i < A.m → ilu0 A dp A.m A.val (dp i) ≠ 0) :
    ∀ i k, A.InRow i k → productEntry A dp (ilu0 A dp A.m A.val) i (A.col k) = A.val k :=
  fun _ _ hk => ilu0_product hwf hsp hs hpiv hk

/-- C53 for the array the parallel factorisation leaves. -/
theorem C53_parallel_factors [Field R] {S : Schedule} {sz : CArr → Int} {m0 : Mem (CTy R)} {base : Nat} {A : Csr R} {dp ep : Nat → Nat} {ub : Bool}
    {L : List (List Nat)} (hA : Schedulable A dp ep) (hb : Built S A dp ep ub L) (h : IluSetup S sz m0 base A dp)
    (hpiv : ∀ i, i < A.m → ilu0 A dp A.m A.val (dp i) ≠ 0) :
    (iluInit sz A.nnz).Ok m0 (fun _ m1 => RunsTo sz S (iluExec S base) m1 (fun m' => ∃ lu : Nat → R,
      (∀ k : Nat, k < A.nnz → m' (.vec 1) (k : Int) = some (lu k)) ∧ ∀ i k, A.InRow i k → productEntry A dp lu i (A.col k) = A.val k)) := by
  refine Script.Ok.mono (C39_parallel_ilu0 hA hb h).1 ?_
  intro _ m1 h1
  unfold RunsTo at h1 ⊢
  refine Script.Ok.mono h1 ?_
  intro _ m2 h2
  exact P2POk.mono h2 fun m' h3 => ⟨_, h3.1, C53_ilu0_reproduces h.wf hA.split h.sorted hpiv⟩

/-- The hypotheses of C39 are met by `vee` with base 1 and two threads. -/
example : ∃ S, Built S vee veeDp veeEp false exLevels ∧ S.T = 2 ∧
    IluSetup S (fun _ => (S.ntasks : Int) + 100) (csrMem 0 1 vee veeDp veeEp) 1 vee veeDp := by
  obtain ⟨S, h1, h2⟩ := vee_built
  refine ⟨S, h1, h2, vee_wf, vee_sorted, csrMem_pat _ _ _ _ _, csrMem_val _ _ _ _ _, ?_, ?_, by omega⟩
  · intro i hi; have hi : i < 3 := hi; simp [csrMem, show vee.m = 3 from rfl, hi]
  · have : vee.nnz = 7 := rfl
    rw [this]; omega

/-- The matrix of `vee` with values 2, 1; 3, 1; 4, 6, 9 (rows 0, 1, 2) over the rationals. -/
def veeQ : Csr Rat := ⟨3, 3, vee.ptr, vee.col, fun j => ([2, 1, 3, 1, 4, 6, 9] : List Rat).getD j 0⟩

/-- Its factors: multipliers 2 and 2, last pivot 9 - 2*1 - 2*1 = 5. -/
theorem veeQ_lu : ((List.range 7).map (ilu0 veeQ veeDp 3 veeQ.val)) = [2, 1, 3, 1, 2, 2, 5] := by decide +kernel

/-- The hypotheses of C53 are met by `veeQ`. -/
example : ∀ i, i < veeQ.m → ilu0 veeQ veeDp veeQ.m veeQ.val (veeDp i) ≠ 0 := by
  intro i hi
  have hi : i < 3 := hi
  have h := veeQ_lu
  have : ∀ i < 3, ilu0 veeQ veeDp 3 veeQ.val (veeDp i) ≠ 0 := by decide +kernel
  exact this i hi

end SpMP.Props
