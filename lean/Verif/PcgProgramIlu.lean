import Verif.PcgProgram
import Verif.PcgIlu
/-
The part of the program test/pcg.cpp that uses the incomplete factors (/repo/test/pcg.cpp:671-713).
-/
namespace SpMP
open Spec

variable {R : Type} [Races CArr]

/-- main of test/pcg.cpp:671-713 called with the number `n` as far as it concerns the third solver: the matrix is generated,
`b` (here vector 9) filled with ones (line 700), `x` set to zero (line 712) and pcg_ilu0 run (line 713). The two solvers in between
are left out: they leave the matrix and `b` as they are (C60, C62) and `x` is set again after them. -/
def pcgProgramIlu [Field R] [LinearOrder R] (sz : CArr → Int) (T n : Nat) (sh : Nat → Share) (nrm : R → R) (tol : R) (maxiter : Nat) :
    Script (CTy R) (Nat × R) :=
  (laplacian 0 n n n (26 : R) (-1) ((0 : Nat) : Int)).bind fun _ =>
  Script.seq sz (fillVec 9 (n * n * n) (1 : R)) fun _ =>
  Script.seq sz (fillVec 0 (n * n * n) (0 : R)) fun _ =>
  pcgIlu0 sz T (n * n * n) sh nrm tol maxiter

end SpMP
