import Verif.Pcg
import Verif.Ilu
/-
pcg_ilu0 (/repo/test/pcg.cpp:488-566): the conjugate gradient method preconditioned by the incomplete factors of ilu0_ref.

Object 0 is A, 1 L, 2 U, 3 LU; vector 0 is x, 1 lu, 9 b, the others as in Verif/Pcg.lean. In the code LU has no arrays of its own:
its rowptr and colidx are those of A and its values are lu. Here it has copies; nothing writes any of the originals after LU
has been made (splitLU with base 0 writes only L and U), so the copies and the originals stay equal.
-/
namespace SpMP
open Spec

set_option linter.unusedSectionVars false

variable {R : Type} [Races CArr]

/-- `CSR LU(A->m, A->n, A->rowptr, A->colidx, lu)` (test/pcg.cpp:496); copies for shared arrays, see above. -/
def luObject (sz : CArr → Int) (m nnz : Nat) : Script (CTy R) Unit :=
  (copyArr sz (.rowptr 3) (.rowptr 0) rfl (m + 1)).bind fun _ =>
  (copyArr sz (.colidx 3) (.colidx 0) rfl nnz).bind fun _ =>
  copyArr sz (.values 3) (.vec 1) rfl nnz

/-- The loop that sets the diagonal of L to 1 (test/pcg.cpp:501-504; the same text at 582-585); idiag of L has the size that
splitLU has given it. -/
def unitDiag [One R] (sz : CArr → Int) (k m : Nat) : Script (CTy R) Unit :=
  .phase (scaleSize sz k m 0) m (fun i => Prog.write (ty := CTy R) (.idiag k) (i : Int) (1 : R)) fun _ => .done ()

/-- A->getBase() and A->getNnz(). -/
def baseNnz (k m : Nat) : Prog (CTy R) (Nat × Nat) := do
  let base ← Prog.read (ty := CTy R) (.rowptr k) 0
  let hi ← Prog.read (ty := CTy R) (.rowptr k) m
  pure ((base : Int).toNat, ((hi : Int) - base).toNat)

/-- pcg_ilu0 (test/pcg.cpp:488-566) on a matrix with `m` rows. The result is what is printed: the counter `k` and `rel_err`. -/
def pcgIlu0 [Field R] [LinearOrder R] (sz : CArr → Int) (T m : Nat) (sh : Nat → Share) (nrm : R → R) (tol : R) (maxiter : Nat) :
    Script (CTy R) (Nat × R) :=
  Script.seq sz (baseNnz 0 m) fun q =>
  (ilu0Ref sz q.1 m q.2).bind fun _ =>
  (luObject sz m q.2).bind fun _ =>
  (computeInverseDiag sz 3 m false false).bind fun _ =>
  (splitLU sz T 3 1 2 m ⟨true, true, true, false, false⟩).bind fun _ =>
  (unitDiag sz 1 m).bind fun _ =>
  pcgMain sz T m 0 0 9 (refSolve sz m 1 2) sh nrm tol maxiter

end SpMP
