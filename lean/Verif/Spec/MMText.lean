import Verif.Spec.Basic
/-
What a Matrix Market header line says: the words of a line, and the formats, fields and symmetries with their names and letters
(the comment at /repo/mm_io.h:103-117 and the Matrix Market format).
-/

namespace SpMP.Spec

/-- The C white space characters. -/
def isWhite (c : Char) : Bool := [' ', '\t', '\n', '\x0b', '\x0c', '\r'].contains c

/-- The words of a text: maximal runs of characters that are not white space. -/
def words (s : List Char) : List (List Char) := (s.splitOnP isWhite).filter (fun w => w ≠ [])

inductive Format | coordinate | array
inductive Field | real | complex | pattern | integer
inductive Symm | general | symmetric | hermitian | skew

/-- What a header line states about the object `matrix`. -/
structure Header where
  format : Format
  field : Field
  symm : Symm

def Format.word : Format → String
  | .coordinate => "coordinate"
  | .array => "array"

def Field.word : Field → String
  | .real => "real"
  | .complex => "complex"
  | .pattern => "pattern"
  | .integer => "integer"

def Symm.word : Symm → String
  | .general => "general"
  | .symmetric => "symmetric"
  | .hermitian => "hermitian"
  | .skew => "skew-symmetric"

def Format.letter : Format → Char
  | .coordinate => 'C'
  | .array => 'A'

def Field.letter : Field → Char
  | .real => 'R'
  | .complex => 'C'
  | .pattern => 'P'
  | .integer => 'I'

def Symm.letter : Symm → Char
  | .general => 'G'
  | .symmetric => 'S'
  | .hermitian => 'H'
  | .skew => 'K'

/-- `w` is the word `s`, in any case. -/
def SaysWord (w : List Char) (s : String) : Prop := w.map Char.toLower = s.toList

/-- The line with words `ws` is read as the header `h`: at least five words, the first begins with %%MatrixMarket, the others name
the object, format, field and symmetry, in any case. -/
def Describes (ws : List (List Char)) (h : Header) : Prop :=
  ∃ b o f d s more, ws = b :: o :: f :: d :: s :: more ∧ "%%MatrixMarket".toList <+: b ∧ SaysWord o "matrix" ∧
    SaysWord f h.format.word ∧ SaysWord d h.field.word ∧ SaysWord s h.symm.word

/-- The header line in canonical form. -/
def Header.line (h : Header) : List Char :=
  ("%%MatrixMarket matrix " ++ h.format.word ++ " " ++ h.field.word ++ " " ++ h.symm.word).toList

/-- The combinations that the format rules out: dense patterns, real Hermitian, and Hermitian or skew patterns. -/
def Impossible (h : Header) : Prop :=
  (h.format = .array ∧ h.field = .pattern) ∨ (h.field = .real ∧ h.symm = .hermitian) ∨
    (h.field = .pattern ∧ (h.symm = .hermitian ∨ h.symm = .skew))

/-- Decimal notation. -/
def decimal (i : Int) : List Char := (toString i).toList

/-- A line of the file: no newline or zero character inside, and at most 1023 characters (the limit of the format). -/
structure IsLine (line : List Char) : Prop where
  chars : ∀ c ∈ line, c ≠ '\n' ∧ c ≠ '\x00'
  short : line.length < 1024

end SpMP.Spec
