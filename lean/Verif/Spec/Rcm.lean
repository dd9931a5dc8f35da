import Verif.Spec.Bfs
import Verif.Spec.Bip
/-
Cuthill–McKee numberings. Refers to no model definition.
-/

namespace SpMP.Spec
variable {R : Type}

/-- Number of entries stored in row `x`. -/
def degree (A : Csr R) (x : Nat) : Nat := A.ptr (x + 1) - A.ptr x

/-- In the order `ord`, the row at position `f` is the first one that stores an entry in the column of the row at position `q`. -/
def FirstNbr (A : Csr R) (ord : Nat → Nat) (q f : Nat) : Prop :=
  Stores A (ord f) (ord q) ∧ ∀ g, g < f → ¬ Stores A (ord g) (ord q)

/-- A breadth-first numbering in which, inside a component, every row but the first has an earlier neighbour, the rows come in the
order of their first neighbours, and the rows with the same first neighbour come in the order of their degrees. -/
structure IsCmNumbering (A : Csr R) (pos ord : Nat → Nat) : Prop extends IsBfsNumbering A pos ord where
  earlier : ∀ p q, p < q → q < A.m → Reaches A (ord p) (ord q) → ∃ f, f < q ∧ FirstNbr A ord q f
  children : ∀ p q f g, p < q → q < A.m → Reaches A (ord p) (ord q) → f < p → FirstNbr A ord p f → FirstNbr A ord q g →
    f ≤ g ∧ (f = g → degree A (ord p) ≤ degree A (ord q))

/-- Reverse Cuthill–McKee: inverse permutations which, read from the last position to the first, are a Cuthill–McKee numbering. -/
structure IsRcmNumbering (A : Csr R) (perm inv : Nat → Nat) : Prop where
  perms : InversePerms A.m perm inv
  reversed : IsCmNumbering A (fun x => A.m - 1 - perm x) (fun p => inv (A.m - 1 - p))

/-- A Cuthill–McKee order of the component of `s`: every row of the component once, `s` first, by distance from `s`; every other row has an
earlier neighbour (an earlier row that stores an entry in its column), the rows come in the order of their first neighbours, and those with
the same first neighbour in the order of their degrees. -/
structure IsCmOrder (A : Csr R) (s : Nat) (l : List Nat) : Prop where
  nodup : l.Nodup
  mem : ∀ x, x ∈ l ↔ Reaches A s x
  head : l[0]? = some s
  sorted : l.Pairwise fun x y => ∀ d e, IsDist A s x d → IsDist A s y e → d ≤ e
  earlier : ∀ q, 0 < q → q < l.length → ∃ f, f < q ∧ FirstNbr A (fun j => l.getD j 0) q f
  children : ∀ p q f g, 0 < p → p < q → q < l.length → FirstNbr A (fun j => l.getD j 0) p f → FirstNbr A (fun j => l.getD j 0) q g →
    f ≤ g ∧ (f = g → degree A (l.getD p 0) ≤ degree A (l.getD q 0))

end SpMP.Spec
