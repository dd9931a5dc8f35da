import Verif.Spec.Csr
/-
Pairs of inverse permutations, and patterns that are transposes of each other. Refers to no model definition.
-/

namespace SpMP.Spec
variable {R : Type}

/-- `perm` and `inv` are inverse permutations of `0 .. n-1`. -/
def InversePerms (n : Nat) (perm inv : Nat → Nat) : Prop :=
  (∀ x, x < n → perm x < n ∧ inv (perm x) = x) ∧ (∀ p, p < n → inv p < n ∧ perm (inv p) = p)

/-- Row `r` stores an entry in column `c`. -/
def Stores (A : Csr R) (r c : Nat) : Prop := ∃ j, A.InRow r j ∧ A.col j = c

/-- The pattern of `B` is the transpose of that of `A`. -/
structure PatTranspose (A B : Csr R) : Prop where
  rows : B.m = A.n
  cols : B.n = A.m
  entries : ∀ r c, Stores A r c ↔ Stores B c r

end SpMP.Spec
