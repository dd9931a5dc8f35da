import Verif.Spec.Csr
import Verif.Spec.Basic
/-
Specification of sequential sweeps (Gauss-Seidel, triangular solves).
-/

namespace SpMP.Spec

variable {V : Type}

/-- Replace entry `r` of a vector. -/
def updV (y : Nat → V) (r : Nat) (v : V) : Nat → V := fun i => if i = r then v else y i

/-- The sequential loop: for k = 0, 1, ..., row `ord k` is recomputed from the current vector. -/
def sweep (f : Nat → (Nat → V) → V) (ord : Nat → Nat) : Nat → (Nat → V) → (Nat → V)
  | 0, y => y
  | k + 1, y => updV (sweep f ord k y) (ord k) (f (ord k) (sweep f ord k y))

/-- Rows in increasing order. -/
def forwardOrd : Nat → Nat := fun k => k

/-- Rows in decreasing order. -/
def backwardOrd (m : Nat) : Nat → Nat := fun k => m - 1 - k

variable {R : Type} [Sub R] [Mul R] [Add R]

/-- `b[r] - sum_j A[j]*y[col j]` over the positions in the list, subtracted one after the other. -/
def residual (A : Csr R) (b y : Nat → R) (r : Nat) (l : List Nat) : R :=
  l.foldl (fun s j => s - A.val j * y (A.col j)) (b r)

/-- Positions of row `r` in storage order. -/
def rowPos (A : Csr R) (r : Nat) : List Nat := List.range' (A.ptr r) (A.ptr (r + 1) - A.ptr r)

/-- Row updates of the solvers: triangular solve with the inverse diagonal, triangular solve with unit diagonal,
Gauss-Seidel. -/
inductive Update | solve | solveUnit | gs

/-- New value of an entry from the residual `s`, the inverse diagonal `d` and the old value `o`. -/
def Update.apply : Update → R → R → R → R
  | .solve, s, d, _ => s * d
  | .solveUnit, s, _, _ => s
  | .gs, s, d, o => o + s * d

/-- Row update as a function of the vector; `rev`: the row's entries are visited in reverse storage order. -/
def rowUpdate (A : Csr R) (b idiag : Nat → R) (u : Update) (rev : Bool) (r : Nat) (y : Nat → R) : R :=
  u.apply (residual A b y r (if rev then (rowPos A r).reverse else rowPos A r)) (idiag r) (y r)

/-- `A'` is the symmetrically permuted matrix: row `i` of `A'` holds the entries of row `p i` of `A`, the column `c'` of
`A'` standing for column `p c'` of `A`; the entries of a row may be stored in any order. -/
structure PermutedBy (p : Nat → Nat) (A A' : Csr R) : Prop where
  m : A'.m = A.m
  n : A'.n = A.n
  square : A.m = A.n
  perm : IsPermFn A.m p
  rows : ∀ i, i < A.m → ((rowPos A' i).map fun j => (p (A'.col j), A'.val j)).Perm
    ((rowPos A (p i)).map fun j => (A.col j, A.val j))

end SpMP.Spec
