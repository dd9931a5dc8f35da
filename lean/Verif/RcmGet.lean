import Verif.RcmSums
import Verif.Pipe
import Verif.RcmSelect
/-
getRCMPermutation (/repo/reordering/RCM.cpp:648-968): components of PAR_THR nodes or more, and the whole function. Arrays and
simplifications as in Verif/Rcm.lean, Verif/BfsLev.lean, Verif/RcmSelect.lean,
Verif/RcmSums.lean, Verif/Pipe.lean.
-/

namespace SpMP
open Spec

variable {R : Type}

/-- How `omp for` distributes iterations: components (721), nodes to clear (540), nodes to count (96), nodes to take the minimum of (499). -/
structure RcmAsg where
  comp : Nat → Nat → Nat
  clear : Nat → Nat → Nat
  count : Nat → Nat → Nat
  deg : Nat → Nat → Nat

/-- RCM.cpp:868-936: search and place the component from `src` on; `st`, `n` are compSizePrefixSum[c], compSizes[c], `md` is maxDegree. -/
def rcmLargeComp (sz : CArr → Int) (T k m md : Nat) (srt : List (Int × Int) → List (Int × Int)) (clr cnt : Nat → Nat) (src st : Int) (n : Nat) :
    Script (CTy R) Unit :=
  .phase sz T (rcmClear m n clr st) fun _ =>
  (bfsLevPar sz k 0 T m true none 0 src).bind fun r =>
  (rcmSums sz T m r.1.toNat n cnt st).bind fun _ =>
  rcmPipe sz k m T r.1.toNat md srt st src

/-- RCM.cpp:848-852. -/
def rcmLargeHead (k' : Nat) (c : Int) : Prog (CTy R) (Int × Int × Int) := do
  let i ← Prog.read (ty := CTy R) (.itmp 3) c
  let st ← Prog.read (ty := CTy R) (.rowptr k') c
  let n ← Prog.read (ty := CTy R) (.itmp 4) c
  pure ((i : Int), (st : Int), (n : Int))

/-- RCM.cpp:859-864: the source; `i` is compToRoot[c]. -/
def rcmSource (sz : CArr → Int) (T k m : Nat) (pd : Bool) (dg clr : Nat → Nat) (i st : Int) (n : Nat) : Script (CTy R) Int :=
  if pd then selectSource sz T k m n dg clr st else .done i

/-- RCM.cpp:846-939: the large components; the first number after `asg` is how many are left, the second the current one. `pd` is
pseudoDiameterSourceSelection. -/
def rcmLarge (sz : CArr → Int) (T k k' m thr md : Nat) (pd : Bool) (srt : List (Int × Int) → List (Int × Int)) (asg : RcmAsg) : Nat → Nat → Script (CTy R) Unit
  | 0, _ => .done ()
  | left + 1, c =>
    Script.seq sz (rcmLargeHead k' (c : Int)) fun h =>
    (if h.2.2 < (thr : Int) then .done () else
      (rcmSource sz T k m pd (asg.deg c) (asg.clear c) h.1 h.2.1 h.2.2.toNat).bind fun src =>
      Script.seq sz (Prog.assert (ty := CTy R) (0 ≤ src ∧ src < (m : Int))) fun _ =>
      rcmLargeComp sz T k m md srt (asg.clear c) (asg.count c) src h.2.1 h.2.2.toNat).bind fun _ =>
    rcmLarge sz T k k' m thr md pd srt asg left (c + 1)

/-- RCM.cpp:716-939: small components by a team of `T`, then large ones. -/
def rcmRest (sz : CArr → Int) (T k k' m thr md : Nat) (pd : Bool) (srt : List (Int × Int) → List (Int × Int)) (asg : RcmAsg) (nc : Nat) : Script (CTy R) Unit :=
  .phase sz T (rcmThread k k' m thr srt (asg.comp nc) nc) fun _ =>
  rcmLarge sz T k k' m thr md pd srt asg nc 0

/-- RCM.cpp:661-968 getRCMPermutation of a matrix with `m` rows by a team of `T`; `thr` is PAR_THR. -/
def rcmPermutation (sz : CArr → Int) (T k k' m thr : Nat) (pd : Bool) (srt : List (Int × Int) → List (Int × Int)) (asg : RcmAsg) : Script (CTy R) Unit :=
  Script.seq sz (rcmMaxDegree k m) fun d =>
  let sz1 := rcmSize sz m T thr d.toNat
  .phase sz1 m (fun i => Prog.write (ty := CTy R) bfsBits (i : Int) (0 : Int)) fun _ =>
  (findComponents sz1 T k k' 0 false (fun _ => false) m).bind fun nc =>
  rcmRest (ccSize sz1 k' m T 0 nc) T k k' m thr d.toNat pd srt asg nc

/-- RCM.cpp:661-968 with the change to 0-based indices at the start (669-670) and back at the end (965-967). Simplified: `m = n`
(663-666) and the assertion (667) are preconditions. -/
def getRcm (sz : CArr → Int) (T k k' m thr : Nat) (o : Opt) (pd : Bool) (srt : List (Int × Int) → List (Int × Int)) (asg : RcmAsg) : Script (CTy R) Unit :=
  Script.seq sz (Prog.read (ty := CTy R) (.rowptr k) 0) fun oldBase =>
  (make0Based sz k m o).bind fun _ =>
  (rcmPermutation sz T k k' m thr pd srt asg).bind fun _ =>
  if (1 : Int) = oldBase then make1Based sz k m o else .done ()

end SpMP
