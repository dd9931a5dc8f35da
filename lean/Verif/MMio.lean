import Verif.Loader
/-
Matrix Market text (/repo/mm_io.cpp, mm_io.h) on top of a small model of the stdio functions it uses. A file is the list of the
characters not read yet. Undefined behaviour (overflow of a token buffer, a number that does not fit its type) is a separate
outcome.
-/

namespace SpMP

abbrev Txt := List Char

/-! ### stdio -/

/-- isspace in the "C" locale. -/
def cSpace (c : Char) : Bool := c = ' ' || c = '\t' || c = '\n' || c = '\x0b' || c = '\x0c' || c = '\r'

def skipWs (s : Txt) : Txt := s.dropWhile cSpace

/-- fgets into a buffer with room for `n` characters (and the final zero): the line and what is left. -/
def fgetsAux : Nat → Txt → Txt × Txt
  | 0, s => ([], s)
  | _ + 1, [] => ([], [])
  | n + 1, c :: s => if c = '\n' then ([c], s) else (c :: (fgetsAux n s).1, (fgetsAux n s).2)

/-- `fgets(line, MM_MAX_LINE_LENGTH, f)` (mm_io.h: MM_MAX_LINE_LENGTH is 1025); `none` is NULL. -/
def fgetsLine (s : Txt) : Option (Txt × Txt) := if s = [] then none else some (fgetsAux 1024 s)

/-- A buffer read as a C string. -/
def cstr (s : Txt) : Txt := s.takeWhile (· ≠ '\x00')

/-- The conversion %s: the token and what is left. An empty token is an input failure. -/
def scanS (s : Txt) : Txt × Txt := ((skipWs s).takeWhile (fun c => !cSpace c), (skipWs s).dropWhile (fun c => !cSpace c))

/-- sscanf(s, "%s ... %s") with `n` conversions: the tokens stored. -/
def scanSs : Nat → Txt → List Txt
  | 0, _ => []
  | n + 1, s => if (scanS s).1 = [] then [] else (scanS s).1 :: scanSs n (scanS s).2

/-- Outcome of one conversion: value and rest, matching failure and rest, end of input, undefined behaviour. -/
inductive Conv (α : Type) where
  | ok (v : α) (rest : Txt)
  | fail (rest : Txt)
  | eof
  | ub

def isDig (c : Char) : Bool := '0' ≤ c && c ≤ '9'

/-- Value of a digit string. -/
def digitsVal (ds : Txt) : Nat := ds.foldl (fun a c => a * 10 + (c.toNat - '0'.toNat)) 0

/-- The optional sign: whether it is a minus, and the rest. -/
def scanSign : Txt → Bool × Txt
  | [] => (false, [])
  | c :: s => if c = '-' then (true, s) else if c = '+' then (false, s) else (false, c :: s)

/-- The conversion %d (bound 2^31) or %lld (bound 2^63). A value that does not fit is undefined behaviour (C11 7.21.6.2 p10). -/
def scanInt (bound : Int) (s : Txt) : Conv Int :=
  if skipWs s = [] then .eof
  else
    let sg := scanSign (skipWs s)
    let ds := sg.2.takeWhile isDig
    if ds = [] then .fail sg.2
    else
      let v : Int := if sg.1 then -(digitsVal ds : Int) else digitsVal ds
      if -bound ≤ v ∧ v < bound then .ok v (sg.2.dropWhile isDig) else .ub

/-- Largest int plus one. -/
def intBound : Int := 2147483648

/-- Outcome of `scanf("%d ... %d")`: all conversions stored; or the values stored, the rest and whether the end of the input
stopped it; or undefined behaviour. -/
inductive Scan where
  | done (vs : List Int) (rest : Txt)
  | short (vs : List Int) (rest : Txt) (eof : Bool)
  | ub

def Scan.cons (v : Int) : Scan → Scan
  | .done vs r => .done (v :: vs) r
  | .short vs r e => .short (v :: vs) r e
  | .ub => .ub

/-- `scanf("%d %d ...")` with `n` conversions; the return value is EOF for `short [] _ true`, else the number of values. -/
def scanInts : Nat → Txt → Scan
  | 0, s => .done [] s
  | n + 1, s => match scanInt intBound s with
    | .ok v r => (scanInts n r).cons v
    | .fail r => .short [] r false
    | .eof => .short [] [] true
    | .ub => .ub

/-- Digits of a natural number, as printed by %d. -/
def dec (n : Nat) : Txt := if n < 10 then [Char.ofNat (48 + n)] else dec (n / 10) ++ [Char.ofNat (48 + n % 10)]
termination_by n

/-- printf("%d"). -/
def printD (i : Int) : Txt := if i < 0 then '-' :: dec i.natAbs else dec i.natAbs

/-! ### mm_io.cpp -/

/-- MM_typecode (mm_io.h:16). -/
structure TC where
  o : Char
  f : Char
  d : Char
  s : Char
  deriving DecidableEq, Repr

/-- mm_clear_typecode (mm_io.h:86-87). -/
def tcClear : TC := ⟨' ', ' ', ' ', 'G'⟩

/-- mm_io.cpp:11-51 with the macros of mm_io.h:49-64. -/
def mmIsValid (t : TC) : Bool :=
  if !(t.o = 'M') then false
  else if t.f = 'A' && t.d = 'P' then false
  else if t.d = 'R' && t.s = 'H' then false
  else if t.d = 'P' && (t.s = 'H' || t.s = 'K') then false
  else true

def mmBanner : Txt := "%%MatrixMarket".toList

def lower (s : Txt) : Txt := s.map Char.toLower

/-- mm_io.cpp:142-156. -/
def bannerSym (t : TC) (g : Txt) : Nat × TC :=
  if g = "general".toList then (0, { t with s := 'G' })
  else if g = "symmetric".toList then (0, { t with s := 'S' })
  else if g = "hermitian".toList then (0, { t with s := 'H' })
  else if g = "skew-symmetric".toList then (0, { t with s := 'K' })
  else (15, t)

/-- mm_io.cpp:124-137. -/
def bannerField (t : TC) (d g : Txt) : Nat × TC :=
  if d = "real".toList then bannerSym { t with d := 'R' } g
  else if d = "complex".toList then bannerSym { t with d := 'C' } g
  else if d = "pattern".toList then bannerSym { t with d := 'P' } g
  else if d = "integer".toList then bannerSym { t with d := 'I' } g
  else (15, t)

/-- mm_io.cpp:111-117. -/
def bannerFormat (t : TC) (c d g : Txt) : Nat × TC :=
  if c = "coordinate".toList then bannerField { t with f := 'C' } d g
  else if c = "array".toList then bannerField { t with f := 'A' } d g
  else (15, t)

/-- mm_io.cpp:83-158, from the tokens sscanf stored: return code and type code. -/
def bannerOf : List Txt → Nat × TC
  | [b, m, c, d, g] =>
    if ¬ mmBanner <+: b then (14, tcClear)
    else if lower m ≠ "matrix".toList then (15, tcClear)
    else bannerFormat { tcClear with o := 'M' } (lower c) (lower d) (lower g)
  | _ => (12, tcClear)

/-- mm_io.cpp:54-158 mm_read_banner: return code, type code and the rest of the file; `none` if a token does not fit its buffer of
64 characters. -/
def mmReadBanner (s : Txt) : Option (Nat × TC × Txt) :=
  match fgetsLine s with
  | none => some (12, tcClear, [])
  | some l =>
    let toks := scanSs 5 (cstr l.1)
    if toks.any (fun t => decide (64 ≤ t.length)) then none
    else some ((bannerOf toks).1, (bannerOf toks).2, l.2)

/-- mm_io.cpp:582-652 mm_typecode_to_str; outer `none`: types[0] is read uninitialised; inner `none`: NULL. -/
def mmTypecodeToStr (t : TC) : Option (Option Txt) :=
  let t1 : Option Txt := if t.f = 'C' then some "coordinate".toList else if t.f = 'A' then some "array".toList else none
  let t2 : Option Txt := if t.d = 'R' then some "real".toList else if t.d = 'C' then some "complex".toList
    else if t.d = 'P' then some "pattern".toList else if t.d = 'I' then some "integer".toList else none
  let t3 : Option Txt := if t.s = 'G' then some "general".toList else if t.s = 'S' then some "symmetric".toList
    else if t.s = 'H' then some "hermitian".toList else if t.s = 'K' then some "skew-symmetric".toList else none
  match t1, t2, t3 with
  | some a, some b, some c => if t.o = 'M' then some (some ("matrix".toList ++ ' ' :: a ++ ' ' :: b ++ ' ' :: c)) else none
  | _, _, _ => some none

/-- `fprintf(f, ...)` of the text `s` on a device that takes `room` characters: the return value and what is written. -/
def fprintf (room : Nat) (s : Txt) : Int × Txt := if s.length ≤ room then ((s.length : Int), s) else (-1, s.take room)

/-- mm_io.cpp:655-681 mm_write_banner: return code and text written; `none`: undefined (%s with NULL or an uninitialised string). -/
def mmWriteBanner (room : Nat) (t : TC) : Option (Nat × Txt) :=
  match mmTypecodeToStr t with
  | some (some str) =>
    let r := fprintf room (mmBanner ++ ' ' :: str ++ ['\n'])
    some (if r.1 ≠ 2 then 17 else 0, r.2)
  | _ => none

/-- The text of a size line: printf("%d %d %d\n"). -/
def sizeLine : List Int → Txt
  | [] => ['\n']
  | [v] => printD v ++ ['\n']
  | v :: vs => printD v ++ ' ' :: sizeLine vs

/-- mm_io.cpp:684-701 mm_write_mtx_array_size. -/
def mmWriteArraySize (room : Nat) (m n : Int) : Nat × Txt :=
  let r := fprintf room (sizeLine [m, n])
  (if r.1 ≠ 2 then 17 else 0, r.2)

/-- mm_io.cpp:765-790 mm_write_mtx_crd_size. -/
def mmWriteCrdSize (room : Nat) (m n nz : Int) : Nat × Txt :=
  let r := fprintf room (sizeLine [m, n, nz])
  (if r.1 ≠ 3 then 17 else 0, r.2)

/-- Outcome of the size readers: undefined, or return code, values of the output parameters and the rest of the file. -/
inductive SizeRes where
  | ub
  | ret (code : Nat) (outs : List Int) (rest : Txt)
  deriving DecidableEq

/-- The output parameters after the conversions `vs`. -/
def setOuts (old vs : List Int) : List Int := vs ++ old.drop vs.length

/-- mm_io.cpp:458-465 (k = 3) and 211-218 (k = 2): the fscanf loop, for `fuel` rounds; `none`: not finished. -/
def sizeLoop (k : Nat) : Nat → Txt → List Int → Option SizeRes
  | 0, _, _ => none
  | f + 1, s, o => match scanInts k s with
    | .ub => some .ub
    | .done vs r => some (.ret 0 vs r)
    | .short vs r e => if vs = [] ∧ e = true then some (.ret 12 o []) else sizeLoop k f r (setOuts o vs)

/-- mm_io.cpp:442-448 and 195-201: the first line that does not begin with '%', and the rest. Every round consumes a character, so
`s.length + 1` rounds are enough. -/
def skipComments : Nat → Txt → Option (Txt × Txt)
  | 0, _ => none
  | f + 1, s => match fgetsLine s with
    | none => none
    | some l => if l.1.head? = some '%' then skipComments f l.2 else some l

/-- mm_io.cpp:404-468 mm_read_mtx_crd_size (k = 3) and 161-222 mm_read_mtx_array_size (k = 2); `none`: the fscanf loop is not
finished after `fuel` rounds. -/
def mmReadSize (k fuel : Nat) (s : Txt) : Option SizeRes :=
  match skipComments (s.length + 1) s with
  | none => some (.ret 12 (List.replicate k 0) [])
  | some l => match scanInts k (cstr l.1) with
    | .ub => some .ub
    | .done vs _ => some (.ret 0 vs l.2)
    | .short vs _ _ => sizeLoop k fuel l.2 (setOuts (List.replicate k 0) vs)

/-! ### Entries -/

variable {R : Type}

/-- The conversion %lg. `lg` is strtod on the text after the white space: the value and the rest, `none` a matching failure. -/
def scanLg (lg : Txt → Option (R × Txt)) (s : Txt) : Conv R :=
  if skipWs s = [] then .eof
  else match lg (skipWs s) with
    | some x => .ok x.1 x.2
    | none => .fail (skipWs s)

/-- One of: undefined, not all conversions stored, an entry and the rest. -/
inductive EntryRes (R : Type) where
  | ub
  | fail
  | ok (x y : Int) (v : R) (rest : Txt)

/-- The third field of an entry (mm_io.cpp:374-395), by the type code. For pattern files `real` is not stored; the value is not used. -/
def readField (lg : Txt → Option (R × Txt)) (ofInt : Int → R) (junk : R) (t : TC) (s : Txt) : Conv R :=
  if t.d = 'C' then match scanLg lg s with
    | .ok v r => match scanLg lg r with
      | .ok _ r => .ok v r
      | c => c
    | c => c
  else if t.d = 'R' then match scanLg lg s with
    | .ok v r => .ok v (skipWs r)
    | c => c
  else if t.d = 'I' then match scanInt 9223372036854775808 s with
    | .ok v r => .ok (ofInt v) (skipWs r)
    | .fail r => .fail r
    | .eof => .eof
    | .ub => .ub
  else .ok junk s

/-- mm_io.cpp:357-401 mm_read_mtx_crd_entry. -/
def mmReadEntry (lg : Txt → Option (R × Txt)) (ofInt : Int → R) (junk : R) (t : TC) (s : Txt) : EntryRes R :=
  if ¬ (t.d = 'C' ∨ t.d = 'R' ∨ t.d = 'I' ∨ t.d = 'P') then .fail
  else match scanInts 2 s with
    | .ub => .ub
    | .done [x, y] r => match readField lg ofInt junk t r with
      | .ok v r => .ok x y v r
      | .ub => .ub
      | _ => .fail
    | _ => .fail

/-- The entries COO.cpp:264 reads until mm_read_mtx_crd_entry fails; `none` is undefined behaviour. Every entry consumes a
character, so `s.length + 1` rounds are enough. -/
def readEntries (lg : Txt → Option (R × Txt)) (ofInt : Int → R) (junk : R) (t : TC) : Nat → Txt → Option (List (Int × Int × R))
  | 0, _ => some []
  | f + 1, s => match mmReadEntry lg ofInt junk t s with
    | .ub => none
    | .fail => some []
    | .ok x y v r => (readEntries lg ofInt junk t f r).map ((x, y, v) :: ·)

/-- What the loader gets from a text: undefined behaviour, negative sizes (not modelled further), or the file. -/
inductive ParseRes (R : Type) where
  | ub
  | neg
  | file (F : MMFile R)

/-- The file as the loader sees it if the header is rejected (COO.cpp:196-218). -/
def rejected : MMFile R := ⟨false, false, false, 0, 0, 0, []⟩

/-- COO.cpp:196-279: from the text to the values used by `loadMM`; `none`: the size line reader is not finished after `fuel`
rounds. -/
def mmParse (lg : Txt → Option (R × Txt)) (ofInt : Int → R) (junk : R) (fuel : Nat) (s : Txt) : Option (ParseRes R) :=
  match mmReadBanner s with
  | none => some .ub
  | some (code, t, s1) =>
    if code ≠ 0 then some (.file rejected)
    else if ¬ mmIsValid t ∨ t.f = 'A' then some (.file rejected)
    else match mmReadSize 3 fuel s1 with
      | none => none
      | some .ub => some .ub
      | some (.ret c [m, n, nz] s2) =>
        if c ≠ 0 then some (.file rejected)
        else if m < 0 ∨ n < 0 ∨ nz < 0 then some .neg
        else match readEntries lg ofInt junk t (s2.length + 1) s2 with
          | none => some .ub
          | some es => some (.file ⟨true, t.d = 'P', t.s = 'S', m.toNat, n.toNat, nz.toNat, es⟩)
      | some (.ret _ _ _) => some (.file rejected)

/-- One line of CSR.cpp:299: fprintf("%d %d %20.16g\n"); `pr` prints the value. -/
def entryLine (pr : R → Txt) (e : Int × Int × R) : Txt := printD e.1 ++ ' ' :: printD e.2.1 ++ ' ' :: pr e.2.2 ++ ['\n']

/-- The text CSR.cpp:289-301 writes. -/
def storeText (pr : R → Txt) (F : MMFile R) : Txt :=
  mmBanner ++ ' ' :: "matrix coordinate real general".toList ++ '\n' :: sizeLine [(F.m : Int), F.n, F.nnz] ++
    F.entries.flatMap (entryLine pr)

end SpMP
