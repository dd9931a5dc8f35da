import Verif.SplitLU
import Verif.SpMV
import Verif.CsrDiag
import Verif.LoadVec
import Verif.PcgMath
/-
pcg_symgs and what it calls (/repo/test/pcg.cpp:13-39, 237-250, 309-385): the conjugate gradient method preconditioned
by symmetric Gauss-Seidel.

Object 0 is A, 1 is L, 2 is U; vector 0 is x, 1 b, 2 r, 3 z, 4 y, 5 p, 6 Ap, 7 the temporary of multiplyWithVector (never
used here, since no product is computed in place). Floating point is an abstract ordered field; `nrm` stands for the
square root. A division by zero, which produces an infinity or a NaN in the code, is a failure of the model. Timers and
printing are left out; the values printed are the result.
-/
namespace SpMP
open Spec

set_option linter.unusedSectionVars false

variable {R : Type} [Races CArr]

section model
variable [CommRing R]

/-- One row of forwardSolveRef and backwardSolveRef (test/pcg.cpp:20-24, 33-37). -/
def triRow (k y b base : Nat) (i : Int) : Prog (CTy R) Unit := do
  let s ← Prog.read (ty := CTy R) (.vec b) (i - base)
  let lo ← Prog.read (ty := CTy R) (.rowptr k) (i - base)
  let hi ← Prog.read (ty := CTy R) (.rowptr k) (i + 1 - base)
  let s ← Prog.forUp (ty := CTy R) (lo : Int) (hi : Int) (s : R) fun j s => do
    let v ← Prog.read (ty := CTy R) (.values k) (j - base)
    let c ← Prog.read (ty := CTy R) (.colidx k) (j - base)
    let w ← Prog.read (ty := CTy R) (.vec y) ((c : Int) - base)
    pure (s - v * w)
  let d ← Prog.read (ty := CTy R) (.idiag k) (i - base)
  Prog.write (ty := CTy R) (.vec y) (i - base) ((s * d : R))

/-- forwardSolveRef (test/pcg.cpp:15-26). -/
def forwardSolveRef (k m y b : Nat) : Prog (CTy R) Unit := do
  let base ← Prog.read (ty := CTy R) (.rowptr k) 0
  Prog.forUp (ty := CTy R) (base : Int) (m + (base : Int)) () fun i _ => triRow k y b (base : Int).toNat i

/-- backwardSolveRef (test/pcg.cpp:28-39). -/
def backwardSolveRef (k m y b : Nat) : Prog (CTy R) Unit := do
  let base ← Prog.read (ty := CTy R) (.rowptr k) 0
  Prog.forDown (ty := CTy R) (m - 1 + (base : Int) + 1) (base : Int) () fun i _ => triRow k y b (base : Int).toNat i

/-- How the runtime shares the iterations of a reduction loop: the iterations of each thread, in its order, and the order
in which the private sums are combined. -/
structure Share where
  its : Nat → List Nat
  tree : RedTree

/-- Every iteration below `n` is executed once, by one of the `T` threads, and every private sum is combined once. -/
def Share.Covers (s : Share) (T n : Nat) : Prop :=
  ((List.range T).flatMap s.its).Perm (List.range n) ∧ s.tree.Admissible T

/-- The loop of dot (test/pcg.cpp:241-243) over the iterations of one thread. -/
def dotLoop (x y : Nat) : List Nat → R → Prog (CTy R) R
  | [], s => pure s
  | i :: l, s => do
    let a ← Prog.read (ty := CTy R) (.vec x) i
    let b ← Prog.read (ty := CTy R) (.vec y) i
    dotLoop x y l (s + a * b)

/-- dot (test/pcg.cpp:237-245); the private sums start at 0 and are combined with the original 0. -/
def dotV (sz : CArr → Int) (T x y : Nat) (sh : Share) : Script (CTy R) R :=
  .phase sz T (fun t => dotLoop x y (sh.its t) 0) fun r => .done (sh.tree.eval (· + ·) (redVals T 0 r))

/-- One iteration of the loop that scales U (test/pcg.cpp:319-322). -/
def scaleRow (k : Nat) (i : Int) : Prog (CTy R) Unit := do
  let lo ← Prog.read (ty := CTy R) (.rowptr k) i
  let hi ← Prog.read (ty := CTy R) (.rowptr k) (i + 1)
  Prog.forUp (ty := CTy R) (lo : Int) (hi : Int) () fun j _ => do
    let v ← Prog.read (ty := CTy R) (.values k) j
    let d ← Prog.read (ty := CTy R) (.idiag k) i
    Prog.write (ty := CTy R) (.values k) j ((v * d : R))
  Prog.write (ty := CTy R) (.idiag k) i (1 : R)

/-- The arrays of U as splitLU has allocated them (SymGS.cpp:31, 85-86). -/
def scaleSize (sz : CArr → Int) (k m : Nat) (nnz : Int) : CArr → Int
  | .values j => if j = k then nnz else sz (.values j)
  | .idiag j => if j = k then m else sz (.idiag j)
  | a => sz a

/-- test/pcg.cpp:317-323. -/
def scaleU (sz : CArr → Int) (k m : Nat) : Script (CTy R) Unit :=
  Script.seq sz (do
    let hi ← Prog.read (ty := CTy R) (.rowptr k) m
    let lo ← Prog.read (ty := CTy R) (.rowptr k) 0
    pure ((hi : Int) - lo)) fun nnz =>
  .phase (scaleSize sz k m nnz) m (fun i => scaleRow k i) fun _ => .done ()

end model

section field
variable [Field R] [LinearOrder R]

/-- A quotient; dividing by zero is a failure. -/
def divS {α : Type} (a b : R) (k : R → Script (CTy R) α) : Script (CTy R) α := if b = 0 then ubScript else k (a / b)

/-- The two solves with the serial functions (test/pcg.cpp:336-337): y = vec 4 from r = vec 2, z = vec 3 from y. -/
def refSolve (sz : CArr → Int) (m kl ku : Nat) : Script (CTy R) Unit :=
  Script.seq sz (forwardSolveRef kl m 4 2) fun _ =>
  Script.seq sz (backwardSolveRef ku m 3 4) fun _ => .done ()

/-- The while loop of the solvers (test/pcg.cpp:347-369; the same text at 442-464, 528-550, 625-647): `f` iterations remain,
`k` is the loop counter, `rel` is rel_err; `ka` is the matrix, `xv` the vector that is iterated, `solve` the
preconditioner. -/
def pcgLoop (sz : CArr → Int) (T m ka xv : Nat) (solve : Script (CTy R) Unit) (sh : Nat → Share) (nrm : R → R) (tol normr0 : R) :
    Nat → Nat → R → R → Script (CTy R) (Nat × R)
  | 0, k, _, rel => .done (k, rel)
  | f + 1, k, rz, _ =>
    (multiplyWithVector sz T ka m false 6 5 6 7 1 0 0).bind fun _ =>
    (dotV sz T 5 6 (sh (3 * k))).bind fun pap =>
    divS rz pap fun α =>
    (waxpby sz m xv xv 5 1 α).bind fun _ =>
    (waxpby sz m 2 2 6 1 (-α)).bind fun _ =>
    (dotV sz T 2 2 (sh (3 * k + 1))).bind fun rr =>
    divS (nrm rr) normr0 fun rel =>
    if rel < tol then .done (k, rel) else
    solve.bind fun _ =>
    (dotV sz T 2 3 (sh (3 * k + 2))).bind fun rz' =>
    divS rz' rz fun β =>
    (waxpby sz m 5 3 5 1 β).bind fun _ =>
    pcgLoop sz T m ka xv solve sh nrm tol normr0 f (k + 1) rz' rel

/-- The solvers after the preconditioner has been set up (test/pcg.cpp:325-369; the same text at 420-464, 506-550, 603-647):
the first residual from `xv` and `bv`, the first direction, the loop. -/
def pcgMain (sz : CArr → Int) (T m ka xv bv : Nat) (solve : Script (CTy R) Unit) (sh : Nat → Share) (nrm : R → R) (tol : R)
    (maxiter : Nat) : Script (CTy R) (Nat × R) :=
  (multiplyWithVector sz T ka m false 2 xv bv 7 (-1) 1 0).bind fun _ =>
  (dotV sz T 2 2 (sh 0)).bind fun rr =>
  solve.bind fun _ =>
  (copyArr sz (.vec 5) (.vec 3) rfl m).bind fun _ =>
  (dotV sz T 2 3 (sh 1)).bind fun rz =>
  pcgLoop sz T m ka xv solve sh nrm tol (nrm rr) maxiter 1 rz 1

/-- pcg_symgs (test/pcg.cpp:309-385) on a matrix with `m` rows; `o` says which optional arrays A has. The result is what
is printed: the counter `k` and `rel_err`. `sh` gives the sharing of each call of dot. -/
def pcgSymgs (sz : CArr → Int) (T m : Nat) (o : Opt) (sh : Nat → Share) (nrm : R → R) (tol : R) (maxiter : Nat) :
    Script (CTy R) (Nat × R) :=
  (splitLU sz T 0 1 2 m o).bind fun _ =>
  (scaleU sz 2 m).bind fun _ =>
  pcgMain sz T m 0 0 1 (refSolve sz m 1 2) sh nrm tol maxiter

end field

end SpMP
