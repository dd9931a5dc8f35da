import Verif.PcgProgramIlu
import Verif.PcgOpt
/-
The parts of the program test/pcg.cpp that reorder the system (/repo/test/pcg.cpp:671-716).
-/
namespace SpMP
open Spec

variable {R : Type} [Races CArr]

/-- main of test/pcg.cpp:671-710 called with the number `n` as far as it concerns the second solver, pcg_symgs_opt (line 710), with
the schedule `S` that it builds for the matrix. As in `pcgProgramIlu` the solver before is left out. -/
def pcgProgramOpt [Field R] [LinearOrder R] (sz : CArr → Int) (S : Schedule) (n : Nat) (dbg : Bool) (sh : Nat → Share) (nrm : R → R)
    (tol : R) (maxiter : Nat) : Script (CTy R) (Nat × R) :=
  (laplacian 0 n n n (26 : R) (-1) ((0 : Nat) : Int)).bind fun _ =>
  Script.seq sz (fillVec 1 (n * n * n) (1 : R)) fun _ =>
  Script.seq sz (fillVec 0 (n * n * n) (0 : R)) fun _ =>
  pcgSymgsOpt sz S (n * n * n) allOpt dbg sh nrm tol maxiter

/-- The same for the fourth solver, pcg_ilu0_opt (test/pcg.cpp:716); `b` is vector 9. -/
def pcgProgramIluOpt [Field R] [LinearOrder R] (sz : CArr → Int) (S : Schedule) (n : Nat) (dbg : Bool) (sh : Nat → Share) (nrm : R → R)
    (tol : R) (maxiter : Nat) : Script (CTy R) (Nat × R) :=
  (laplacian 0 n n n (26 : R) (-1) ((0 : Nat) : Int)).bind fun _ =>
  Script.seq sz (fillVec 9 (n * n * n) (1 : R)) fun _ =>
  Script.seq sz (fillVec 0 (n * n * n) (0 : R)) fun _ =>
  pcgIlu0Opt sz S (n * n * n) allOpt dbg sh nrm tol maxiter

end SpMP
