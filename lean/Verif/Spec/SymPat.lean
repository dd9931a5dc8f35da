import Verif.Spec.Csr
/-
Specification of the symmetric closure of a sparsity pattern. Nothing here mentions the model of the code.
-/

namespace SpMP.Spec

variable {R S : Type}

/-- Row `i` of `A` stores a local entry in column `c`; `ep i` is the position where the external entries of row `i` start. -/
def LocEntry (A : Csr R) (ep : Nat → Nat) (i c : Nat) : Prop := ∃ j, A.ptr i ≤ j ∧ j < ep i ∧ A.col j = c

/-- The local parts of the rows are sorted by column without duplicates. -/
def LocSorted (A : Csr R) (ep : Nat → Nat) : Prop :=
  ∀ i j j', i < A.m → A.ptr i ≤ j → j < j' → j' < ep i → A.col j < A.col j'

/-- The local pattern is symmetric. -/
def LocSymmetric (A : Csr R) (ep : Nat → Nat) : Prop := ∀ i c, i < A.m → LocEntry A ep i c → LocEntry A ep c i

/-- `B` (external entries starting at `eb`) is `A` (external entries starting at `ea`) with the missing transposed local entries
added; rows sorted, external parts kept. -/
structure SymClosure (A : Csr R) (ea : Nat → Nat) (B : Csr S) (eb : Nat → Nat) : Prop where
  rows : B.m = A.m
  start : B.ptr 0 = 0
  bounds : ∀ i, i < A.m → B.ptr i ≤ eb i ∧ eb i ≤ B.ptr (i + 1)
  entry : ∀ i c, i < A.m → (LocEntry B eb i c ↔ LocEntry A ea i c ∨ (c < A.m ∧ LocEntry A ea c i))
  sorted : LocSorted B eb
  extLen : ∀ i, i < A.m → B.ptr (i + 1) - eb i = A.ptr (i + 1) - ea i
  extCol : ∀ i q, i < A.m → q < A.ptr (i + 1) - ea i → B.col (eb i + q) = A.col (ea i + q)

end SpMP.Spec
