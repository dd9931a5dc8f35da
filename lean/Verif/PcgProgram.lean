import Verif.Pcg
import Verif.Laplacian
/-
The first part of the program test/pcg.cpp run with a number (/repo/test/pcg.cpp:671-707).
-/
namespace SpMP
open Spec

variable {R : Type} [Races CArr]

/-- `for (int i = 0; i < A.m; ++i) b[i] = 1;` and the same for `x` (test/pcg.cpp:700, 706): vector `v` gets `n` times `c`. -/
def fillVec (v n : Nat) (c : R) : Prog (CTy R) Unit :=
  Prog.forUp (ty := CTy R) 0 (n : Int) () fun i _ => Prog.write (ty := CTy R) (.vec v) i c

/-- main of test/pcg.cpp:671-707 called with the number `n`, or without arguments and `n = 64`: the constructor generates the
matrix of the cube in object 0 (CSR.cpp, `atoi` of the name is positive), `b` (vector 1) is filled with ones, `x` (vector 0)
with zeros, and pcg_symgs runs. Not modelled: reading a right-hand side (arguments of at least four characters, so also numbers from 1000 on; see `rhsName`), the other
three solvers, what is printed, the release of the arrays. In main `tol` is 1e-7 and `maxiter` 20000. -/
def pcgProgram [Field R] [LinearOrder R] (sz : CArr → Int) (T n : Nat) (sh : Nat → Share) (nrm : R → R) (tol : R) (maxiter : Nat) :
    Script (CTy R) (Nat × R) :=
  (laplacian 0 n n n (26 : R) (-1) ((0 : Nat) : Int)).bind fun _ =>
  Script.seq sz (fillVec 1 (n * n * n) (1 : R)) fun _ =>
  Script.seq sz (fillVec 0 (n * n * n) (0 : R)) fun _ =>
  pcgSymgs sz T (n * n * n) allOpt sh nrm tol maxiter

/-- The string that starts at position `i` of a buffer of which `rest` are the remaining characters; `none` in the buffer is a
character nobody has written. Reading such a character, or past the end, is undefined: `none`. -/
def cString : List (Option Char) → Option (List Char)
  | [] => none
  | none :: _ => none
  | some c :: rest => if c = '\x00' then some [] else (cString rest).map (c :: ·)

/-- `strncpy(buf, src, k)`: `k` characters of `src`, filled up with zeros if it is shorter, and no zero otherwise; `none` if
they do not fit. -/
def strncpy (buf : List (Option Char)) (src : List Char) (k : Nat) : Option (List (Option Char)) :=
  if buf.length < k then none
  else some (((src.take k).map some ++ List.replicate (k - src.length) (some '\x00')) ++ buf.drop k)

/-- test/pcg.cpp:691-697: the name of the file with the right-hand side for the argument `arg` of at least four characters. -/
def rhsName (arg : List Char) : Option (List Char) :=
  match strncpy (List.replicate 1024 none) arg (arg.length - 4) with
  | none => none
  | some buf => (cString buf).map (· ++ "_b.mtx".toList)

end SpMP
