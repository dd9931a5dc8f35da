import Verif.Pcg
/-
What the drivers do before each measured run: flushLlc and initializeX (/repo/test/test.hpp:61-79) and their use
(/repo/test/trsv_test.cpp:573-576, /repo/test/gs_test.cpp:643-646).
-/
namespace SpMP
open Spec

variable {R : Type} [Races CArr] [CommRing R]

/-- The number of elements flushLlc reads, `LLC_CAPACITY/sizeof(bufToFlushLlc[0])` (test/test.hpp:61, 68). -/
def llcElems : Nat := 32 * 1024 * 1024 / 8

/-- The loop of flushLlc (test/test.hpp:68-70) over the iterations of one thread; `buf` is the vector `bufToFlushLlc`. -/
def flushLoop (buf : Nat) : List Nat → R → Prog (CTy R) R
  | [], s => pure s
  | i :: l, s => do
    let a ← Prog.read (ty := CTy R) (.vec buf) i
    flushLoop buf l (s + a)

/-- flushLlc (test/test.hpp:64-74) with `T` threads; the result is the number it prints to /dev/null (the file is not modelled). -/
def flushLlc (sz : CArr → Int) (T buf : Nat) (sh : Share) : Script (CTy R) R :=
  .phase sz T (fun t => flushLoop buf (sh.its t) 0) fun r => .done (sh.tree.eval (· + ·) (redVals T 0 r))

/-- initializeX (test/test.hpp:76-79), one thread per iteration; `n - i` is computed in `int`, where it does not overflow. -/
def initializeX (sz : CArr → Int) (x n : Nat) : Script (CTy R) Unit :=
  .phase sz n (fun i => Prog.write (ty := CTy R) (.vec x) i ((((n : Int) - (i : Int) : Int) : R))) fun _ => .done ()

/-- What precedes each measured run (test/trsv_test.cpp:573-576, test/gs_test.cpp:643-646). -/
def prepareRun (sz : CArr → Int) (T buf x y n : Nat) (sh : Share) : Script (CTy R) R :=
  (flushLlc sz T buf sh).bind fun s =>
  (initializeX sz x n).bind fun _ =>
  (initializeX sz y n).bind fun _ => .done s

/-- The measured runs of the reference solver (test/trsv_test.cpp:568-625 with option REFERENCE; the bodies of forwardSolveRef and
backwardSolveRef at lines 96-120 are those of test/pcg.cpp): `k` runs remain, objects `kl` and `ku` are the two triangles, `m` rows. Timers,
what is printed and the check after the last run (C74) are left out. -/
def measureRef (sz : CArr → Int) (T m kl ku buf x y b : Nat) (sh : Nat → Share) : Nat → Script (CTy R) Unit
  | 0 => .done ()
  | k + 1 => (prepareRun sz T buf x y m (sh k)).bind fun _ =>
    Script.seq sz (forwardSolveRef kl m y b) fun _ =>
    Script.seq sz (backwardSolveRef ku m x y) fun _ => measureRef sz T m kl ku buf x y b sh k

end SpMP
