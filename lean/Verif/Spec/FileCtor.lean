import Verif.Spec.Loader
import Verif.Spec.MMCrd
/-
What a Matrix Market file describes, for the constructor that takes a file name.
-/

namespace SpMP.Spec

variable {R : Type}

/-- `B` is the matrix with the entries `T`: each row of `B` is the entries of that row, in column order. -/
structure IsMatrixOf (B : Csr R) (m n : Nat) (T : List (Nat × Nat × R)) : Prop where
  rows : B.m = m
  cols : B.n = n
  wf : B.WF
  sorted : ∀ i, i < m → (B.row i).Pairwise (fun x y => x.1 ≤ y.1)
  entries : ∀ i, i < m → (B.row i).Perm ((T.filter fun e => e.1 = i).map fun e => (e.2.1, e.2.2))

/-- The entries a coordinate file lists, for the lines `L` (row, column, real and imaginary part, 0-based): pattern files list no
values and mean 1, of complex values the real part is kept. `fmt` is what printing and strtod together do to a number. -/
def listedBy [One R] (fmt : R → R) (h : Header) (L : List (Nat × Nat × R × R)) : List (Nat × Nat × R) :=
  L.map fun e => (e.1, e.2.1, match h.field with
    | .pattern => 1
    | _ => fmt e.2.2.1)

/-- What a file with the listed entries `T1` means, by its header. -/
def meantBy (h : Header) (T1 : List (Nat × Nat × R)) : List (Nat × Nat × R) :=
  match h.symm with
  | .symmetric => T1 ++ mirrors T1
  | _ => T1

/-- The text of the file with these lines, rows and columns counted from `b`; `cs` are comment lines and `extra` is what follows the last line. -/
def coordText (b : Nat) (pr : R → List Char) (h : Header) (cs : List (List Char)) (M N : Nat) (L : List (Nat × Nat × R × R)) (extra : List Char) : List Char :=
  crdText pr h cs M N L.length (L.map fun e => ((e.1 : Int) + b, (e.2.1 : Int) + b, e.2.2)) extra

/-- `x` rounded up to a multiple of `pad`. -/
def RoundedUp (pad x x' : Nat) : Prop := pad ∣ x' ∧ x ≤ x' ∧ x' < x + pad

/-- A file this library reads: a possible coordinate header, comment lines, sizes that fit an int, entries in
range, and nothing but white space after them. -/
structure GoodFile (h : Header) (cs : List (List Char)) (M N : Nat) (L : List (Nat × Nat × R × R)) (extra : List Char) : Prop where
  format : h.format = .coordinate
  possible : ¬ Impossible h
  comments : ∀ s ∈ cs, IsLine s ∧ s.head? = some '%'
  rows : M < 2 ^ 31
  cols : N < 2 ^ 31
  count : L.length < 2 ^ 31
  range : ∀ e ∈ L, e.1 < M ∧ e.2.1 < N
  extra : ∀ c ∈ extra, isWhite c = true

end SpMP.Spec
