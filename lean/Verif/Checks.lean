import Verif.Spec.Bfs
import Verif.Spec.Bip
import Verif.SymPat
/-
Checks of a pattern by evaluation, for the literal matrices in examples. Models no function of /repo.
-/

namespace SpMP
open Spec

variable {R : Type}

def inRowB (A : Csr R) (i j : Nat) : Bool := decide (i < A.m ∧ A.ptr i ≤ j ∧ j < A.ptr (i + 1))

theorem inRowB_iff {A : Csr R} {i j : Nat} : inRowB A i j = true ↔ A.InRow i j := by
  unfold inRowB Csr.InRow
  exact decide_eq_true_iff

/-- All pairs of a row and a position in it. -/
def inRowPairs (A : Csr R) : List (Nat × Nat) := (List.range A.m).flatMap fun i => ((List.range A.nnz).filter (inRowB A i)).map fun j => (i, j)

theorem mem_inRowPairs {A : Csr R} (wf : A.WF) {i j : Nat} (h : A.InRow i j) : (i, j) ∈ inRowPairs A := by
  unfold inRowPairs
  rw [List.mem_flatMap]
  exact ⟨i, List.mem_range.2 h.1, List.mem_map.2 ⟨j, List.mem_filter.2 ⟨List.mem_range.2 (h.lt_nnz wf), inRowB_iff.2 h⟩, rfl⟩⟩

def patSymB (A : Csr R) : Bool := (inRowPairs A).all fun p => (List.range A.nnz).any fun i => inRowB A (A.col p.2) i && A.col i == p.1

theorem patSym_of_check {A : Csr R} (wf : A.WF) (h : patSymB A = true) : PatSym A := by
  intro x j hj
  have := List.all_eq_true.1 h _ (mem_inRowPairs wf hj)
  obtain ⟨i, _, hi⟩ := List.any_eq_true.1 this
  rw [Bool.and_eq_true, beq_iff_eq] at hi
  exact ⟨i, inRowB_iff.1 hi.1, hi.2⟩

def noDupB (A : Csr R) : Bool := (inRowPairs A).all fun p => (List.range A.nnz).all fun i => !(inRowB A p.1 i && A.col i == A.col p.2) || i == p.2

theorem noDup_of_check {A : Csr R} (wf : A.WF) (h : noDupB A = true) : NoDup A := by
  intro i p q hp hq he
  have := List.all_eq_true.1 (List.all_eq_true.1 h _ (mem_inRowPairs wf hp)) q (List.mem_range.2 (hq.lt_nnz wf))
  rw [Bool.or_eq_true, beq_iff_eq] at this
  rcases this with h1 | h1
  · rw [Bool.not_eq_true', Bool.and_eq_false_iff] at h1
    rcases h1 with h1 | h1
    · rw [inRowB_iff.2 hq] at h1; cases h1
    · rw [beq_eq_false_iff_ne] at h1; exact absurd he.symm h1
  · exact h1.symm

/-- A function constant along the entries is constant along walks. -/
theorem reaches_const {A : Csr R} (wf : A.WF) {f : Nat → Nat} (h : ((inRowPairs A).all fun p => f (A.col p.2) == f p.1) = true) {s x : Nat}
    (hr : Reaches A s x) : f x = f s := by
  obtain ⟨d, hw⟩ := hr
  induction hw with
  | nil => rfl
  | snoc _ h2 ih =>
    have := List.all_eq_true.1 h _ (mem_inRowPairs wf h2)
    rw [beq_iff_eq] at this
    rw [← ih]; exact this

/-- A walk is at least as long as the growth of a function that grows by at most one along every entry. -/
theorem isDist_of_potential {A : Csr R} (wf : A.WF) {f : Nat → Nat} (h : ((inRowPairs A).all fun p => decide (f (A.col p.2) ≤ f p.1 + 1)) = true)
    {s x : Nat} (h0 : f s = 0) (hw : Walk A s x (f x)) : IsDist A s x (f x) := by
  refine ⟨hw, fun e he => ?_⟩
  clear hw
  induction he with
  | nil => omega
  | snoc _ h2 ih =>
    have := List.all_eq_true.1 h _ (mem_inRowPairs wf h2)
    simp only [decide_eq_true_eq] at this
    omega

end SpMP
