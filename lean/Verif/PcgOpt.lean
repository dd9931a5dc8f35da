import Verif.PcgIlu
import Verif.Permute
import Verif.SchedExec
/-
pcg_symgs_opt and pcg_ilu0_opt (/repo/test/pcg.cpp:387-486, 568-669) and the triangular solves on reordered matrices they call
(/repo/test/pcg.cpp:45-86, 92-133): the matrix and its triangles are reordered by the permutation of a level schedule and the
solves are run by point-to-point synchronisation.

Objects 0 A, 1 L, 2 U, 3 LU, 4 APerm, 5 LPerm, 6 UPerm; vectors as in Verif/Pcg.lean and Verif/PcgIlu.lean, 8 is xPerm and
10 bPerm. `itmp 0` is threadContToOrigPerm until the last use of that array and taskFinished afterwards; `itmp 1` is
origToThreadContPerm. The schedule is an argument: constructTaskGraph is modelled in Verif/Tasks.lean. The arrays deleted on
the way (L and U) are simply not used again.
-/
namespace SpMP
open Spec

set_option linter.unusedSectionVars false

variable {R : Type} [Races CArr]

section model
variable [CommRing R]

/-- One row of backwardSolveWithReorderedMatrix (test/pcg.cpp:122-126): like `triRow`, the entries from the last to the first.
The bounds are read once. -/
def triRowRev (k y b base : Nat) (i : Int) : Prog (CTy R) Unit := do
  let s ← Prog.read (ty := CTy R) (.vec b) (i - base)
  let hi ← Prog.read (ty := CTy R) (.rowptr k) (i + 1 - base)
  let lo ← Prog.read (ty := CTy R) (.rowptr k) (i - base)
  let s ← Prog.forDown (ty := CTy R) (hi : Int) (lo : Int) (s : R) fun j s => do
    let v ← Prog.read (ty := CTy R) (.values k) (j - base)
    let c ← Prog.read (ty := CTy R) (.colidx k) (j - base)
    let w ← Prog.read (ty := CTy R) (.vec y) ((c : Int) - base)
    pure (s - v * w)
  let d ← Prog.read (ty := CTy R) (.idiag k) (i - base)
  Prog.write (ty := CTy R) (.vec y) (i - base) ((s * d : R))

/-- forwardSolveWithReorderedMatrix (test/pcg.cpp:45-86). -/
def forwardSolveReordered (sz : CArr → Int) (S : Schedule) (k y b : Nat) : Script (CTy R) Unit :=
  Script.seq sz (Prog.read (ty := CTy R) (.rowptr k) 0) fun base =>
  (clearFlags sz S.T S.ntasks).bind fun _ =>
  .p2p sz S.T (sweepP2P (fwdTasks (noPerm S)) (fwdRows (noPerm S)) S.parF fun r =>
    triRow k y b (base : Int).toNat ((r : Int) + (base : Int).toNat)) (.done ())

/-- backwardSolveWithReorderedMatrix (test/pcg.cpp:92-133). -/
def backwardSolveReordered (sz : CArr → Int) (S : Schedule) (k y b : Nat) : Script (CTy R) Unit :=
  Script.seq sz (Prog.read (ty := CTy R) (.rowptr k) 0) fun base =>
  (clearFlags sz S.T S.ntasks).bind fun _ =>
  .p2p sz S.T (sweepP2P (bwdTasks (noPerm S)) (bwdRows (noPerm S)) S.parB fun r =>
    triRowRev k y b (base : Int).toNat ((r : Int) + (base : Int).toNat)) (.done ())

/-- The two solves (test/pcg.cpp:431-432, 456-457, 614-615, 639-640). -/
def p2pSolve (sz : CArr → Int) (S : Schedule) (kl ku : Nat) : Script (CTy R) Unit :=
  (forwardSolveReordered sz S kl 4 2).bind fun _ => backwardSolveReordered sz S ku 3 4

/-- The two permutations of the schedule as arrays (LevelSchedule.cpp:736-739, 753-754, 771-773), one row per iteration; the
order of the rows and the threads that write them are not kept. -/
def storePerms (sz : CArr → Int) (S : Schedule) : Script (CTy R) Unit :=
  .phase sz S.m (fun i => do
    Prog.write (ty := CTy R) (.itmp 0) (i : Int) ((S.perm i : Nat) : Int)
    Prog.write (ty := CTy R) (.itmp 1) (S.perm i : Int) ((i : Nat) : Int)) fun _ => .done ()

/-- reorderVectorOutOfPlaceWithInversePerm(vec dst, vec src, itmp ip, n) (Utils.cpp:171-185), also as called by
getReorderVectorWithInversePerm; the loop has one thread per iteration. -/
def reorderVec (sz : CArr → Int) (n dst src ip : Nat) : Script (CTy R) Unit :=
  .phase sz n (fun i => do
    let q ← Prog.read (ty := CTy R) (.itmp ip) (i : Int)
    let q : Int := q
    Prog.assert (ty := CTy R) (0 ≤ q ∧ q < n)
    let v ← Prog.read (ty := CTy R) (.vec src) q
    Prog.write (ty := CTy R) (.vec dst) (i : Int) v) fun _ => .done ()

end model

section field
variable [Field R] [LinearOrder R]

/-- test/pcg.cpp:407-466, the same text as 587-649: reorder everything, iterate, put `x` back into the original order. `o` and
`ou` say which optional arrays A and U have; L has values and idiag. -/
def pcgReordered (sz : CArr → Int) (S : Schedule) (m : Nat) (o ou : Opt) (dbg : Bool) (bv : Nat) (sh : Nat → Share) (nrm : R → R) (tol : R)
    (maxiter : Nat) : Script (CTy R) (Nat × R) :=
  (storePerms sz S).bind fun _ =>
  (permute sz S.T 0 4 m o dbg true false).bind fun _ =>
  (permute sz S.T 1 5 m ⟨true, false, true, false, false⟩ dbg true false).bind fun _ =>
  (permute sz S.T 2 6 m ou dbg true false).bind fun _ =>
  (reorderVec sz m 10 bv 0).bind fun _ =>
  (reorderVec sz m 8 0 0).bind fun _ =>
  (pcgMain sz S.T m 4 8 10 (p2pSolve sz S 5 6) sh nrm tol maxiter).bind fun res =>
  (reorderVec sz m 0 8 1).bind fun _ => .done res

/-- pcg_symgs_opt (test/pcg.cpp:387-486) with the schedule `S`. -/
def pcgSymgsOpt (sz : CArr → Int) (S : Schedule) (m : Nat) (o : Opt) (dbg : Bool) (sh : Nat → Share) (nrm : R → R) (tol : R)
    (maxiter : Nat) : Script (CTy R) (Nat × R) :=
  (splitLU sz S.T 0 1 2 m o).bind fun _ =>
  (scaleU sz 2 m).bind fun _ =>
  pcgReordered sz S m o ⟨true, false, true, false, o.extptr⟩ dbg 1 sh nrm tol maxiter

/-- ilu0 (test/pcg.cpp:172-235): the copy of the values, then the factorisation by point-to-point synchronisation. -/
def ilu0P2P (sz : CArr → Int) (S : Schedule) (base nnz : Nat) : Script (CTy R) Unit :=
  (iluInit sz nnz).bind fun _ =>
  (clearFlags sz S.T S.ntasks).bind fun _ =>
  .p2p sz S.T (iluExec S base) (.done ())

/-- pcg_ilu0_opt (test/pcg.cpp:568-669) with the schedule `S`. -/
def pcgIlu0Opt (sz : CArr → Int) (S : Schedule) (m : Nat) (o : Opt) (dbg : Bool) (sh : Nat → Share) (nrm : R → R) (tol : R)
    (maxiter : Nat) : Script (CTy R) (Nat × R) :=
  Script.seq sz (baseNnz 0 m) fun q =>
  (ilu0P2P sz S q.1 q.2).bind fun _ =>
  (luObject sz m q.2).bind fun _ =>
  (computeInverseDiag sz 3 m false false).bind fun _ =>
  (splitLU sz S.T 3 1 2 m ⟨true, true, true, false, false⟩).bind fun _ =>
  (unitDiag sz 1 m).bind fun _ =>
  pcgReordered sz S m o ⟨true, false, true, false, false⟩ dbg 9 sh nrm tol maxiter

end field

end SpMP
