import Verif.Spec.Csr
/-
Specification of the incomplete LU factorisation without fill-in, independent of the code model. The factors are stored in one
array indexed like the entries of the matrix: left of the diagonal the multipliers, from the diagonal on the upper factor.
-/

namespace SpMP.Spec

variable {R : Type}

/-- Position of column `c` among the positions `lo .. hi-1`, if any. -/
def findCol (A : Csr R) (lo hi c : Nat) : Option Nat := (List.range' lo (hi - lo)).find? fun k => A.col k = c

variable [Sub R] [Mul R] [Div R]

/-- New value at position `k` when row `i` subtracts `l` times the part of row `c` right of its diagonal: the stored entries of row
`i` beyond position `j` change where row `c` has an entry in the same column. -/
def elimAt (A : Csr R) (dp : Nat → Nat) (j : Nat) (lu : Nat → R) (k : Nat) : R :=
  match findCol A (dp (A.col j) + 1) (A.ptr (A.col j + 1)) (A.col k) with
  | some k2 => lu k - lu j / lu (dp (A.col j)) * lu k2
  | none => lu k

/-- Eliminate the entry at position `j` of row `i` (its column is `c = col j`): divide it by the pivot of row `c`, and subtract that
multiple of row `c` from the rest of row `i`, dropping fill-in. -/
def elimEntry (A : Csr R) (dp : Nat → Nat) (i : Nat) (lu : Nat → R) (j : Nat) : Nat → R := fun k =>
  if k = j then lu j / lu (dp (A.col j))
  else if j < k ∧ k < A.ptr (i + 1) then elimAt A dp j lu k
  else lu k

/-- Eliminate the entries left of the diagonal of row `i`, in storage order. -/
def elimRow (A : Csr R) (dp : Nat → Nat) (i : Nat) (lu : Nat → R) : Nat → R :=
  (List.range' (A.ptr i) (dp i - A.ptr i)).foldl (elimEntry A dp i) lu

/-- Rows 0, 1, ..., n-1 in turn. -/
def ilu0 (A : Csr R) (dp : Nat → Nat) : Nat → (Nat → R) → (Nat → R)
  | 0, lu => lu
  | n + 1, lu => elimRow A dp n (ilu0 A dp n lu)

end SpMP.Spec

namespace SpMP.Spec

variable {R : Type}

/-- Entry (c, c') of the upper factor stored in `lu`: the value stored in row `c`, from the diagonal on, in column `c'`; zero where
nothing is stored. -/
def upperEntry [Zero R] (A : Csr R) (dp : Nat → Nat) (lu : Nat → R) (c c' : Nat) : R :=
  match findCol A (dp c) (A.ptr (c + 1)) c' with
  | some k => lu k
  | none => 0

/-- Entry (i, c') of the product of the factors stored in `lu`: the lower factor has ones on its diagonal and, left of it, the values
stored in row `i` left of the diagonal. -/
def productEntry [Zero R] [Add R] [Mul R] (A : Csr R) (dp : Nat → Nat) (lu : Nat → R) (i c' : Nat) : R :=
  ((List.range' (A.ptr i) (dp i - A.ptr i)).map fun j => lu j * upperEntry A dp lu (A.col j) c').sum + upperEntry A dp lu i c'

end SpMP.Spec
