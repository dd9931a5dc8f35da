import Verif.Permute
import Verif.RowsMem
import Verif.RowTeam
import Verif.StdLib
import Verif.RelyGuar
import Verif.LoopN
import Verif.SplitLU
/-
getSymmetricNnzPattern (/repo/SymGS.cpp:120-314). Object `k` is A. `itmp 0` is *symRowPtr, `itmp 1` *symDiagPtr, `itmp 2`
*symExtPtr, `itmp 3` *symColIdx, `itmp 4` cnts, all before the shift by the base: `(*symRowPtr)[x]` of the code is cell `x - base`;
cnts is not shifted in the code. Not modelled: the memory pool, the freeing of the arrays, the debug check of the result, and
`*symColIdx += base`, `*symExtPtr += base`, which every thread executes (no effect with base 0).
The shared flag isSymmetric is only ever set to false, by threads that found an unpaired entry, and read after a barrier: it is the
conjunction of the threads' flags.
-/

namespace SpMP
open Spec

variable {R : Type}

/-- std::binary_search(colidx + lo, colidx + hi, x); `lo`, `hi` are cells. -/
def binarySearchCol (k base : Nat) (lo hi x : Int) : Prog (CTy R) Bool := do
  let p ← lowerBound (ty := CTy R) (fun i => Prog.read (ty := CTy R) (.colidx k) (i - base)) lo hi x
  if p < hi then do
    let v ← Prog.read (ty := CTy R) (.colidx k) (p - base)
    pure (decide ((v : Int) ≤ x))
  else pure false

/-- SymGS.cpp:155-157, one row. -/
def symDeg (k base : Nat) (i : Int) : Prog (CTy R) Unit := do
  let e ← Prog.read (ty := CTy R) (.rowptr k) (i + 1 - base)
  let b ← Prog.read (ty := CTy R) (.rowptr k) (i - base)
  Prog.write (ty := CTy R) (.itmp 0) (i + 1 - base) ((e : Int) - b)

/-- SymGS.cpp:170, 235: the bounds of row `i`. -/
def symBounds (k base : Nat) (ext : Bool) (i : Int) : Prog (CTy R) (Int × Int) := do
  let b ← Prog.read (ty := CTy R) (.rowptr k) (i - base)
  let e ← extOf k base ext i
  pure ((b : Int), e)

/-- SymGS.cpp:171-173, 236-237: the column of entry `j` of row `i` and whether the local part of that row has column `i`. -/
def symProbe (k base : Nat) (ext : Bool) (i j : Int) : Prog (CTy R) (Int × Bool) := do
  let c ← Prog.read (ty := CTy R) (.colidx k) (j - base)
  let x ← symBounds k base ext c
  let f ← binarySearchCol k base x.1 x.2 i
  pure ((c : Int), f)

/-- SymGS.cpp:169-179, 234-243: do `act c i` for every unpaired local entry `(i, c)` of the thread's rows; the result is
localIsSymmetric. -/
def symLoop (k base : Nat) (ext : Bool) (act : Int → Int → Prog (CTy R) Unit) (lo hi : Int) : Prog (CTy R) Bool :=
  Prog.forUp (ty := CTy R) lo hi true fun i s => do
    let x ← symBounds k base ext i
    Prog.forUp (ty := CTy R) x.1 x.2 s fun j s => do
      let y ← symProbe k base ext i j
      if y.2 then pure s else do
        act y.1 i
        pure false

/-- SymGS.cpp:175. -/
def symCountAct (base : Nat) (c _i : Int) : Prog (CTy R) Unit := do
  let _ ← Prog.atomic (ty := CTy R) (.itmp 0) (c + 1 - base) (fun v => (v : Int) + 1)
  pure ()

/-- SymGS.cpp:239-240. -/
def symPutAct (base : Nat) (c i : Int) : Prog (CTy R) Unit := do
  let cnt ← Prog.atomic (ty := CTy R) (.itmp 4) c (fun v => (v : Int) + 1)
  let s ← Prog.read (ty := CTy R) (.itmp 0) (c - base)
  Prog.write (ty := CTy R) (.itmp 3) ((s : Int) + (cnt : Int) - base) i

/-- SymGS.cpp:194-196: the prefix sum. -/
def symPrefix (m base : Nat) : Prog (CTy R) Unit :=
  Prog.forUp (ty := CTy R) base ((m : Int) + base) () fun i _ => do
    let a ← Prog.read (ty := CTy R) (.itmp 0) (i + 1 - base)
    let b ← Prog.read (ty := CTy R) (.itmp 0) (i - base)
    Prog.write (ty := CTy R) (.itmp 0) (i + 1 - base) ((a : Int) + b)

/-- SymGS.cpp:219-224, one row. -/
def symForward (k base : Nat) (ext : Bool) (i : Int) : Prog (CTy R) Unit := do
  let x ← symBounds k base ext i
  Prog.write (ty := CTy R) (.itmp 4) i (x.2 - x.1)
  let s ← Prog.read (ty := CTy R) (.itmp 0) (i - base)
  copySeg (R := R) (.itmp 3) (.colidx k) (fun v => v) ((s : Int) - base) (x.1 - base) (x.2 - x.1)

/-- SymGS.cpp:253-264, one row. -/
def symFinish (k base : Nat) (ext : Bool) (i : Int) : Prog (CTy R) Unit := do
  let s ← Prog.read (ty := CTy R) (.itmp 0) (i - base)
  let cnt ← Prog.read (ty := CTy R) (.itmp 4) i
  stdSort 3 ((s : Int) - base) ((s : Int) - base + (cnt : Int))
  let x ← symBounds k base ext i
  let e ← Prog.read (ty := CTy R) (.rowptr k) (i + 1 - base)
  copySeg (R := R) (.itmp 3) (.colidx k) (fun v => v) ((s : Int) - base + (cnt : Int)) (x.2 - base) ((e : Int) - x.2)
  let _ ← (if ext then Prog.write (ty := CTy R) (.itmp 2) (i - base) ((s : Int) + (cnt : Int)) else pure () : Prog (CTy R) Unit)
  let s1 ← Prog.read (ty := CTy R) (.itmp 0) (i + 1 - base)
  Prog.forUp (ty := CTy R) (s : Int) (s1 : Int) () fun j _ => do
    let c ← Prog.read (ty := CTy R) (.itmp 3) (j - base)
    if (c : Int) = i then Prog.write (ty := CTy R) (.itmp 1) (i - base) j else pure ()

/-- The sizes of the work arrays; `n` is `(*symRowPtr)[m]`. -/
def symSize (sz : CArr → Int) (m : Nat) (n : Int) : CArr → Int
  | .itmp 0 => m + 1
  | .itmp 1 => m + 1
  | .itmp 2 => m + 1
  | .itmp 3 => n
  | .itmp 4 => m
  | a => sz a

/-- The rows of thread `t` (getSimpleThreadPartition). -/
def symPart (T m t : Nat) : Prog (CTy R) (Int × Int) := pure (simpleBegin T t m, simpleEnd T t m)

/-- SymGS.cpp:190-274, the part executed if the pattern is not symmetric. -/
def symBuild (sz : CArr → Int) (T k base m : Nat) (ext : Bool) : Script (CTy R) Unit :=
  Script.seq (symSize sz m 0) (symPrefix m base) fun _ =>
  Script.seq (symSize sz m 0) (Prog.read (ty := CTy R) (.itmp 0) ((m : Int) - base)) fun n =>
  .phase (symSize sz m n) T (fun t => rowsOf (symPart T m t) base (symForward k base ext)) fun _ =>
  .phase (symSize sz m n) T (fun t => symLoop k base ext (symPutAct base) (simpleBegin T t m + base) (simpleEnd T t m + base)) fun _ =>
  .phase (symSize sz m n) T (fun t => rowsOf (symPart T m t) base (symFinish k base ext)) fun _ => .done ()

/-- SymGS.cpp:120-314. -/
def symPattern (sz : CArr → Int) (T k m : Nat) (ext : Bool) : Script (CTy R) Bool :=
  Script.seq sz (Prog.read (ty := CTy R) (.rowptr k) 0) fun b =>
  let base := (b : Int).toNat
  Script.seq (symSize sz m 0) (Prog.write (ty := CTy R) (.itmp 0) 0 (base : Int)) fun _ =>
  .phase (symSize sz m 0) T (fun t => rowsOf (symPart T m t) base (symDeg k base)) fun _ =>
  .phase (symSize sz m 0) T (fun t => symLoop k base ext (symCountAct base) (simpleBegin T t m + base) (simpleEnd T t m + base)) fun r =>
  if ((List.range T).all r) then .done true
  else (symBuild sz T k base m ext).bind fun _ => .done false

end SpMP
