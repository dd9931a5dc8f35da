import Verif.Spec.Csr
/-
Specification of the level decomposition of a sparsity pattern, independent of the code model.
-/

namespace SpMP.Spec

variable {R : Type}

/-- Row `i` depends on row `j`: `j < i` and entry (i, j) is stored. -/
def Dep (A : Csr R) (j i : Nat) : Prop := j < i ∧ ∃ p, A.InRow i p ∧ A.col p = j

/-- `Chain dep k i`: there is a dependency chain with `k` steps that ends in row `i`. -/
inductive Chain (dep : Nat → Nat → Prop) : Nat → Nat → Prop
  | start (i : Nat) : Chain dep 0 i
  | step {k j i : Nat} : Chain dep k j → dep j i → Chain dep (k + 1) i

/-- A list of levels of the rows `0 .. m-1`: every row is in exactly one level, no level is empty, what a row depends on is in
earlier levels, and the number of a row's level is the length of the longest dependency chain that ends in it. -/
structure LevelDecomp (dep : Nat → Nat → Prop) (m : Nat) (L : List (List Nat)) : Prop where
  rows : L.flatten.Perm (List.range m)
  nonempty : ∀ l ∈ L, l ≠ []
  earlier : ∀ (k i j : Nat), i ∈ L.getD k [] → dep j i → ∃ k', k' < k ∧ j ∈ L.getD k' []
  chain : ∀ (k i : Nat), i ∈ L.getD k [] → Chain dep k i
  longest : ∀ (k i k' : Nat), i ∈ L.getD k [] → Chain dep k' i → k' ≤ k

/-- Row `i` is laid out as: entries left of the diagonal, the diagonal entry at position `dp i`, entries right of the diagonal up
to position `ep i`, then only columns that are not rows. -/
structure SplitRows (A : Csr R) (dp ep : Nat → Nat) : Prop where
  bounds : ∀ i, i < A.m → A.ptr i ≤ dp i ∧ dp i < ep i ∧ ep i ≤ A.ptr (i + 1)
  diag : ∀ i, i < A.m → A.col (dp i) = i
  lower : ∀ i p, i < A.m → A.ptr i ≤ p → p < dp i → A.col p < i
  upper : ∀ i p, i < A.m → dp i < p → p < ep i → i < A.col p
  ext : ∀ i p, i < A.m → ep i ≤ p → p < A.ptr (i + 1) → A.m ≤ A.col p

/-- No row stores a column twice. -/
def NoDup (A : Csr R) : Prop := ∀ i p q, A.InRow i p → A.InRow i q → A.col p = A.col q → p = q

/-- The pattern of the square part (columns `0 .. m-1`) is symmetric. -/
def SymPat (A : Csr R) : Prop :=
  ∀ i j, i < A.m → j < A.m → (∃ p, A.InRow i p ∧ A.col p = j) → ∃ p, A.InRow j p ∧ A.col p = i

end SpMP.Spec
