import Verif.Report
import Verif.BinFile
import Verif.Props.Bip
/-
Property theorems C76: what is printed about matrices.
-/

namespace SpMP.Props
open SpMP SpMP.Spec

section
variable {R : Type} [Races CArr]

/-- C76 for `print`: exactly the entries of the matrix, row by row in their stored order, rows and columns counted from the matrix's own first
index. The matrix must have values. -/
theorem C76_print_partial {sz : CArr → Int} {k base : Nat} {A : Csr R} {m0 : Mem (CTy R)} (hwf : A.WF) (hp : HoldsPat m0 k base A)
    (hv : HoldsVal m0 k A) :
    (Script.seq sz (csrPrint k A.m) .done).Ok m0 (fun out m => m = m0 ∧ out = listing A base) :=
  seq_rule (wp_mono (wp_csrPrint hwf (fun _ _ => trivial) hp hv) fun _ _ h => Script.ok_done_of h)

/-- A message of `equals` is only printed when the matrices differ. -/
theorem says_differ {A B : Csr R} {bA bB : Nat} (hA : A.WF) {e : EqMsg R} (h : e.Says A B bA bB) :
    ¬ (bA = bB ∧ A.m = B.m ∧ A.n = B.n ∧ (∀ i, i ≤ A.m → A.ptr i = B.ptr i) ∧ ∀ j, j < A.nnz → A.col j = B.col j ∧ A.val j = B.val j) := by
  rintro ⟨h1, h2, h3, h4, h5⟩
  cases e with
  | base b b' => exact h.2.2 h1
  | rows m m' => exact h.2.2 h2
  | cols n n' => exact h.2.2 h3
  | nnz z z' =>
    refine h.2.2 ?_
    show A.ptr A.m = B.ptr B.m
    rw [← h2]; exact h4 _ (Nat.le_refl _)
  | rowptr i p p' => obtain ⟨r, hr, _, _, _, hn, _⟩ := h; exact hn (h4 r (by omega))
  | colidx i j c c' => obtain ⟨r, l, hl, _, _, _, _, hn, _⟩ := h; exact hn (h5 l (hl.lt_nnz hA)).1
  | value i j v v' => obtain ⟨r, l, hl, _, _, _, _, hn, _⟩ := h; exact hn (h5 l (hl.lt_nnz hA)).2

/-- C76 for `equals`: it answers true, without a message, exactly for identical matrices; otherwise its message is true, and nothing differs
before the place it names. For matrices counted from 0, or with equally many entries. -/
theorem C76_equals_partial [DecidableEq R] {sz : CArr → Int} {k k' base base' : Nat} {A B : Csr R} {m0 : Mem (CTy R)}
    (hA : A.WF) (hB : B.WF) (hpA : HoldsPat m0 k base A) (hpB : HoldsPat m0 k' base' B) (hvA : HoldsVal m0 k A)
    (hvB : HoldsVal m0 k' B) (hz : base = 0 ∨ A.nnz = B.nnz) :
    (Script.seq sz (csrEqualsMsg k k' A.m A.n B.m B.n) .done).Ok m0 (fun res m => m = m0 ∧
      (res = none ↔ base = base' ∧ A.m = B.m ∧ A.n = B.n ∧ (∀ i, i ≤ A.m → A.ptr i = B.ptr i) ∧
        ∀ j, j < A.nnz → A.col j = B.col j ∧ A.val j = B.val j) ∧
      ∀ e, res = some e → e.Says A B base base') := by
  refine seq_rule (wp_mono (wp_csrEqualsMsg hA hB hpA hpB hvA hvB (fun _ _ => trivial) hz) ?_)
  rintro res m ⟨rfl, ⟨rfl, h⟩ | ⟨e, rfl, h⟩⟩
  · exact Script.ok_done_of ⟨rfl, ⟨fun _ => h, fun _ => rfl⟩, fun e he => by cases he⟩
  · refine Script.ok_done_of ⟨rfl, ⟨fun he => (by cases he), fun g => absurd g (says_differ hA h)⟩, fun e' he => ?_⟩
    cases he
    exact h

/-- C76 for `isSymmetric`: without a message every local entry has its partner; a message is true, rows and columns counted from 1. For
matrices counted from 0. -/
theorem C76_isSymmetric_partial [DecidableEq R] {sz : CArr → Int} {k : Nat} {A : Csr R} {ep : Nat → Nat} {ext chk : Bool} {m0 : Mem (CTy R)}
    (hwf : A.WF) (hp : HoldsPat m0 k 0 A) (hv : chk = true → HoldsVal m0 k A) (he : HoldsExt m0 k 0 A ext ep) :
    (Script.seq sz (isSymmetricMsg k A.m A.n ext chk) .done).Ok m0 (fun res m => m = m0 ∧
      (res = none → (A.m = A.n ∨ ext = true) ∧ ∀ i j, LocalTo A ep i j → A.col j ≠ i → A.col j < A.m →
        ∃ l, LocalTo A ep (A.col j) l ∧ A.col l = i ∧ (chk = true → A.val j = A.val l)) ∧
      ∀ e, res = some e → e.Says A ep 1) := by
  refine seq_rule (wp_mono (wp_isSymmetricMsg hwf hp hv he (fun _ _ => trivial)) ?_)
  rintro res m ⟨rfl, ⟨rfl, h⟩ | ⟨e, rfl, h⟩⟩
  · exact Script.ok_done_of ⟨rfl, fun _ => h, fun e he => by cases he⟩
  · refine Script.ok_done_of ⟨rfl, fun he => (by cases he), fun e' he => ?_⟩
    cases he
    exact h

end

/-- The 2 x 2 matrix with the entry (1,0), or without entries (`z` entries). -/
def lowerCsr (z : Nat) : Csr Int where
  m := 2
  n := 2
  ptr := fun i => if i = 2 then z else 0
  col := fun _ => 0
  val := fun _ => 3

theorem lowerCsr_wf (z : Nat) : (lowerCsr z).WF := by
  refine ⟨rfl, ?_, ?_⟩
  · intro i hi
    have hi : i < 2 := hi
    show (if i = 2 then z else 0) ≤ (if i + 1 = 2 then z else 0)
    rw [if_neg (by omega)]; omega
  · intro j _; show 0 < 2; omega

theorem csrMem2_vals {A B : Csr Int} {base : Nat} : HoldsVal (csrMem2 0 1 base A B) 0 A ∧ HoldsVal (csrMem2 0 1 base A B) 1 B := by
  refine ⟨fun j hj => ?_, fun j hj => ?_⟩
  · unfold csrMem2; rw [csrMem_val 0 base A _ _ j hj]; rfl
  · have e : csrMem 0 base A (fun _ => 0) (fun _ => 0) (.values 1) (j : Int) = none := by simp [csrMem]
    unfold csrMem2; rw [e, csrMem_val 1 base B _ _ j hj]; rfl

/-- C76 is false for `equals` on matrices counted from 1 with different numbers of entries: the numbers in the message are one too large. -/
theorem C76_nnz_base1_false : ¬ (∀ (sz : CArr → Int) (A B : Csr Int) (m0 : Mem (CTy Int)), A.WF → B.WF → HoldsPat m0 0 1 A → HoldsPat m0 1 1 B →
    HoldsVal m0 0 A → HoldsVal m0 1 B →
    (Script.seq sz (csrEqualsMsg 0 1 A.m A.n B.m B.n) .done).Ok m0 (fun res _ => ∀ e, res = some e → e.Says A B 1 1)) := by
  intro h
  have h1 := (h (fun _ => 0) (lowerCsr 1) (lowerCsr 0) (csrMem2 0 1 1 (lowerCsr 1) (lowerCsr 0)) (lowerCsr_wf 1) (lowerCsr_wf 0)
    (csrMem2_fst _ _ _ _ _) (csrMem2_snd (by decide) _ _ _) csrMem2_vals.1 csrMem2_vals.2).run
  have hr : ∃ m', (Script.seq (fun _ => 0) (csrEqualsMsg (R := Int) 0 1 2 2 2 2) .done).run (csrMem2 0 1 1 (lowerCsr 1) (lowerCsr 0)) =
      some (some (.nnz 2 1), m') := ⟨_, rfl⟩
  obtain ⟨m', hr⟩ := hr
  have h2 := (h1 _ _ hr _ rfl).1
  exact absurd h2 (by decide)

/-- C76 is false for `isSymmetric` on matrices counted from 1: the row and column in the message are one too large. -/
theorem C76_sym_base1_false : ¬ (∀ (sz : CArr → Int) (A : Csr Int) (m0 : Mem (CTy Int)), A.WF → HoldsPat m0 0 1 A →
    (Script.seq sz (isSymmetricMsg 0 A.m A.n false false) .done).Ok m0 (fun res _ =>
      ∀ e, res = some e → e.Says A (fun i => A.ptr (i + 1)) 1)) := by
  intro h
  have h1 := (h (fun _ => 0) (lowerCsr 1) (csrMem 0 1 (lowerCsr 1) (fun _ => 0) (fun _ => 0)) (lowerCsr_wf 1) (csrMem_pat _ _ _ _ _)).run
  have hr : ∃ m', (Script.seq (fun _ => 0) (isSymmetricMsg (R := Int) 0 2 2 false false) .done).run
      (csrMem 0 1 (lowerCsr 1) (fun _ => 0) (fun _ => 0)) = some (some (.missing 3 2 2 3), m') := ⟨_, rfl⟩
  obtain ⟨m', hr⟩ := hr
  obtain ⟨r, j, h2, _, h3, _⟩ := h1 _ _ hr _ rfl
  have h4 : r < 2 := h2.1
  omega

/-- C76 is false for `print` on a matrix without values: the null pointer is dereferenced. -/
theorem C76_print_pattern_false : ¬ (∀ (sz : CArr → Int) (A : Csr Int) (m0 : Mem (CTy Int)), A.WF → HoldsPat m0 0 0 A →
    (Script.seq sz (csrPrint 0 A.m) .done).Ok m0 (fun _ _ => True)) := by
  intro h
  have h1 := (h (fun _ => 0) (lowerCsr 1) (fun a i => match a with
    | .values _ => none
    | a => csrMem 0 0 (lowerCsr 1) (fun _ => 0) (fun _ => 0) a i) (lowerCsr_wf 1)
    ⟨(csrMem_pat 0 0 (lowerCsr 1) (fun _ => 0) (fun _ => 0)).rowptr, (csrMem_pat 0 0 (lowerCsr 1) (fun _ => 0) (fun _ => 0)).colidx⟩).not_runUB
  revert h1
  decide +kernel

/-! ### Examples -/

example : listing exampleCsr 1 = [(1, 3, 7), (1, 1, 5), (3, 2, 3), (3, 2, 4), (3, 3, 9)] := by decide
-- the hypotheses of C76_equals_partial are met by two different matrices
example : (Script.seq (fun _ => 0) (csrEqualsMsg (R := Int) 0 1 2 2 2 2) .done).Ok (csrMem2 0 1 0 (lowerCsr 1) (lowerCsr 0))
    (fun res _ => ∀ e, res = some e → e.Says (lowerCsr 1) (lowerCsr 0) 0 0) :=
  Script.Ok.mono (C76_equals_partial (lowerCsr_wf 1) (lowerCsr_wf 0) (csrMem2_fst _ _ _ _ _) (csrMem2_snd (by decide) _ _ _) csrMem2_vals.1
    csrMem2_vals.2 (Or.inl rfl)) fun _ _ h => h.2.2
example : ((Script.seq (fun _ => 0) (csrEqualsMsg (R := Int) 0 1 2 2 2 2) .done).run (csrMem2 0 1 0 (lowerCsr 1) (lowerCsr 0))).map (·.1) =
    some (some (.nnz 1 0)) := rfl
example : ((Script.seq (fun _ => 0) (isSymmetricMsg (R := Int) 0 2 2 false true) .done).run
    (csrMem 0 0 (lowerCsr 1) (fun _ => 0) (fun _ => 0))).map (·.1) = some (some (.missing 2 1 1 2)) := rfl
example : HoldsExt (csrMem 0 0 (lowerCsr 1) (fun _ => 0) (fun _ => 0)) 0 0 (lowerCsr 1) false (fun i => (lowerCsr 1).ptr (i + 1)) :=
  ⟨fun h => (by cases h), fun _ _ _ => rfl, fun i hi => ⟨(lowerCsr_wf 1).ptr_step i hi, Nat.le_refl _⟩⟩

end SpMP.Props
