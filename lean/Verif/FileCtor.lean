import Verif.Laplacian
import Verif.BinFile
import Verif.LoaderSym
import Verif.MMioProof
import Verif.LoadVec

/-
The constructor of a matrix from a file name (/repo/CSR.cpp:101-127) and the converter /repo/test/mtx2bin.cpp.
-/

namespace SpMP
open Spec

variable {R : Type} [Races CArr]

/-- What the constructor takes a name for. -/
inductive CtorKind where
  /-- generate3D27PtLaplacian(this, n, base) -/
  | grid (n : Int)
  | bin
  | text
  /-- atoi of a number that does not fit an int -/
  | ub
  deriving DecidableEq

/-- `strcmp(fileName + l - 4, ".bin") == 0` together with `l > 4` (CSR.cpp:113). -/
def endsBin (name : Txt) : Bool := decide (4 < name.length) && decide (name.drop (name.length - 4) = ".bin".toList)

/-- `!strcmp(buf, fileName)` after `sprintf(buf, "%d", v)`, and the choice between the other two (CSR.cpp:108-118). -/
def kindOf (v : Int) (name : Txt) : CtorKind := if printD v = name then .grid v else if endsBin name then .bin else .text

/-- CSR.cpp:104-118. atoi is the conversion of scanf's %d, and 0 if there is nothing to convert. -/
def ctorKind (name : Txt) : CtorKind :=
  match scanInt intBound name with
  | .ok v _ => kindOf v name
  | .fail _ => kindOf 0 name
  | .eof => kindOf 0 name
  | .ub => .ub

/-- A vector as mtx2bin.cpp:43-44 writes it: the number of rows, then the elements. -/
structure VecFile (R : Type) where
  n : Int
  vals : List R

/-- The files that can be opened. A binary file is given by its fields (Verif/BinFile.lean), a text by its characters. -/
structure Files (R : Type) where
  txt : Txt → Option Txt
  bin : Txt → Option (BinFile R)
  vec : Txt → Option (VecFile R)

/-- How a constructor call ends: `exit(-1)` (COO.cpp:188-192), an object without arrays and sizes (loadBin returns when it cannot
open its file, CSR.cpp:312-316), or an object with `m` rows and `n` columns. -/
inductive CtorEnd where
  | exits
  | empty
  | made (m n : Nat)

/-- CSR.cpp:118-124 from the text of the file: parse (COO.cpp:194-279), load, convert; undefined behaviour in the reader and negative
sizes are failures, and so is (in `csrFromFile`) a rejected file. -/
def ctorText [One R] [Div R] (lg : Txt → Option (R × Txt)) (ofInt : Int → R) (junk : R) (fuel : Nat) (s : Txt) (force : Bool) (pad k : Nat) (ob : Int) :
    Script (CTy R) CtorEnd :=
  match mmParse lg ofInt junk fuel s with
  | some (.file F) => (csrFromFile F force pad k ob).bind fun r => match r with
    | some (m, n, _) => .done (.made m n)
    | none => .done .empty
  | _ => ubScript

/-- CSR.cpp:113-117: the binary branch. The assertion is that of a debug build; the arrays are those of CSR::alloc. -/
def ctorBin [One R] [Div R] (F : Option (BinFile R)) (force : Bool) (k : Nat) (ob : Int) : Script (CTy R) CtorEnd :=
  if force then ubScript else match F with
  | none => .done .empty
  | some F => (loadBin (csrSize k F.m F.nnz allOpt) k F ob).bind fun _ => .done (.made F.m F.n)

/-- CSR::CSR(fileName, base, forceSymmetric, pad), CSR.cpp:101-127, into object `k`. `d` and `o` are 26.0 and -1. A negative grid
size makes the sizes of the allocations negative. `lg` is strtod, `junk` what an unset variable holds, `fuel` a bound on the rounds of
the size line reader, which need not end (C50). -/
def csrCtor [One R] [Div R] (lg : Txt → Option (R × Txt)) (ofInt : Int → R) (junk : R) (fuel : Nat) (d o : R) (fs : Files R) (name : Txt)
    (ob : Int) (force : Bool) (pad k : Nat) : Script (CTy R) CtorEnd :=
  match ctorKind name with
  | .ub => ubScript
  | .grid n => if n < 0 then ubScript else
    (laplacian k n.toNat n.toNat n.toNat d o ob).bind fun _ => .done (.made (n.toNat * n.toNat * n.toNat) (n.toNat * n.toNat * n.toNat))
  | .bin => ctorBin (fs.bin name) force k ob
  | .text => match fs.txt name with
    | none => .done .exits
    | some s => ctorText lg ofInt junk fuel s force pad k ob

/-- A new or overwritten binary file. -/
def Files.putBin (fs : Files R) (name : Txt) (F : BinFile R) : Files R := { fs with bin := fun x => if x = name then some F else fs.bin x }

/-- mtx2bin.cpp:17-27: whether the converter takes its input for a vector. `none`: undefined behaviour, or the size line reader is not
finished after `fuel` rounds. -/
def takesVector (fuel : Nat) (s : Txt) : Option Bool :=
  match mmReadBanner s with
  | none => none
  | some (code, t, s1) => match mmReadSize 2 fuel s1 with
    | some (.ret c _ _) => some (decide (code = 0 ∧ c = 0) && mmIsValid t && decide (t.f = 'A'))
    | _ => none

/-- A new or overwritten vector file. -/
def Files.putVec (fs : Files R) (name : Txt) (F : VecFile R) : Files R := { fs with vec := fun x => if x = name then some F else fs.vec x }

/-- mtx2bin.cpp:30-34: read `m` numbers into `a` (`vec 0`). A number that cannot be read leaves `v` uninitialised, and reading it is
undefined. -/
def convRead (lg : Txt → Option (R × Txt)) (m : Int) (s : Txt) : Prog (CTy R) Unit := do
  let _ ← Prog.forUp (ty := CTy R) 0 m s fun i s => match scanLg lg s with
    | .ok v r => do
      Prog.write (ty := CTy R) (.vec 0) i v
      pure (skipWs r)
    | _ => Prog.fail
  pure ()

/-- mtx2bin.cpp:43-44: what is written. -/
def convWrite (m : Int) : Prog (CTy R) (VecFile R) := do
  let l ← Prog.forUp (ty := CTy R) 0 m ([] : List R) fun i l => do
    let v ← Prog.read (ty := CTy R) (.vec 0) i
    pure (l ++ [v])
  pure ⟨m, l⟩

/-- mtx2bin.cpp:17-47, the conversion of a vector; a negative size makes `new` fail. -/
def convVec (lg : Txt → Option (R × Txt)) (fuel : Nat) (s : Txt) : Script (CTy R) (VecFile R) :=
  match mmReadBanner s with
  | some (_, _, s1) => match mmReadSize 2 fuel s1 with
    | some (.ret _ [m, _] s2) => if m < 0 then ubScript else
      Script.seq (lvSize m) (convRead lg m s2) fun _ => Script.seq (lvSize m) (convWrite m) .done
    | _ => ubScript
  | none => ubScript

/-- mtx2bin.cpp:9-62 on two names; the result is the files afterwards (`none`: the program ended early). An input that cannot be opened
is passed to mm_read_banner as a null pointer. Both names refer to files that can be created. -/
def mtx2bin [One R] [Div R] (lg : Txt → Option (R × Txt)) (ofInt : Int → R) (junk : R) (fuel : Nat) (d o : R) (fs : Files R) (src dst : Txt) (k : Nat) :
    Script (CTy R) (Option (Files R)) :=
  match fs.txt src with
  | none => ubScript
  | some s => match takesVector fuel s with
    | none => ubScript
    | some true => (convVec lg fuel s).bind fun F => .done (some (fs.putVec dst F))
    | some false => (csrCtor lg ofInt junk fuel d o fs src 0 false 1 k).bind fun e => match e with
      | .made m n => (storeBin (fun _ => 0) k m n allOpt true).bind fun F => match F with
        | some F => .done (some (fs.putBin dst F))
        | none => .done none
      | _ => .done none

end SpMP
