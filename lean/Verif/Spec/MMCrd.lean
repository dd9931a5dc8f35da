import Verif.Spec.MMText
/-
The text of a Matrix Market coordinate file.
-/

namespace SpMP.Spec

variable {R : Type}

/-- An entry: row, column, real part and imaginary part. -/
abbrev CrdEntry (R : Type) := Int × Int × R × R

/-- The line of an entry: row and column in decimal notation, then one number (real and integer), two (complex) or none (pattern), separated by blanks. `pr` is the
text of a number. -/
def entryText (pr : R → List Char) (d : Field) (e : CrdEntry R) : List Char :=
  decimal e.1 ++ " ".toList ++ decimal e.2.1 ++
    (match d with
      | .real => " ".toList ++ pr e.2.2.1
      | .complex => " ".toList ++ pr e.2.2.1 ++ " ".toList ++ pr e.2.2.2
      | .integer => " ".toList ++ pr e.2.2.1
      | .pattern => []) ++ "\n".toList

/-- A coordinate file: header line, comment lines, size line, entries, and what follows. -/
def crdText (pr : R → List Char) (h : Header) (cs : List (List Char)) (M N nz : Int) (L : List (CrdEntry R)) (extra : List Char) : List Char :=
  h.line ++ '\n' :: (cs.flatMap (fun s => s ++ ['\n']) ++ (decimal M ++ " ".toList ++ decimal N ++ " ".toList ++ decimal nz ++ "\n".toList) ++
    L.flatMap (entryText pr h.field) ++ extra)

end SpMP.Spec
