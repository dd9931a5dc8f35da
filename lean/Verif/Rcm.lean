import Verif.Base
import Verif.Bfs
/-
getRCMPermutation (/repo/reordering/RCM.cpp:71-162, 648-968). Object `k` is the matrix, already in 0-based indexing (670).
Arrays: those of Verif/Bfs.lean (queues `itmp 10`, `itmp 11`, inversePerm `itmp 14`, perm `itmp 15`, levels `itmp 16`) and of
findComponents; `itmp 21` = children_array, `itmp 22` = prefixSum_array.

Simplifications: `int` does not overflow, so the assertions that a level is not INT_MAX are left out; prefixSum[l+1] is read once per
level; `std::sort` with the degree comparator is a parameter `srt`, any function that returns a rearrangement sorted by degree (the order
of equal degrees is unspecified); `omp for` is a parameter `asg` giving each component to a thread, which handles its components in
increasing order; the reduction for maxDegree is one loop; the counters, the time measurement and the symmetry assertion are left out.
Components of PAR_THR nodes or more (843-939) and the whole function: Verif/RcmGet.lean.
-/

namespace SpMP
open Spec

variable {R : Type}

/-- `children_array` (RCM.cpp:688). -/
abbrev rcmChd : CArr := .itmp 21
/-- `prefixSum_array` (RCM.cpp:694). -/
abbrev rcmPfx : CArr := .itmp 22

/-- RCM.cpp:676, 686, 688, 692-694 and bfsAuxData (177-191): allocations. -/
def rcmSize (sz : CArr → Int) (m T thr maxDeg : Nat) : CArr → Int
  | .itmp 10 => (m : Int) * T
  | .itmp 11 => (m : Int) * T
  | .itmp 14 => m
  | .itmp 15 => m
  | .itmp 13 => m
  | .itmp 16 => m
  | .itmp 20 => (T : Int) * m
  | .itmp 21 => (T : Int) * max thr maxDeg
  | .itmp 22 => max ((T : Int) * thr) m + 1
  | .itmp 23 => ((m : Int) + 1) * 16
  | .itmp 26 => m
  | a => sz a

/-- RCM.cpp:141-160 prefixSumOfLevels, serial; `o` is the position of prefixSum in its array, `st` that of the nodes. -/
def rcmPrefix (m : Nat) (o : Int) (nl : Nat) (st n : Int) : Prog (CTy R) Unit := do
  Prog.forUp (ty := CTy R) 0 ((nl : Int) + 1) () fun l _ => Prog.write (ty := CTy R) rcmPfx (o + l) (0 : Int)
  Prog.forUp (ty := CTy R) 0 n () fun x _ => do
    let v ← Prog.read (ty := CTy R) (.itmp 5) (st + x)
    Prog.assert (ty := CTy R) (0 ≤ (v : Int) ∧ (v : Int) < m)
    let l ← Prog.read (ty := CTy R) bfsLev (v : Int)
    let c ← Prog.read (ty := CTy R) rcmPfx (o + (l : Int) + 1)
    Prog.write (ty := CTy R) rcmPfx (o + (l : Int) + 1) ((c : Int) + 1)
  Prog.forUp (ty := CTy R) 0 (nl : Int) () fun l _ => do
    let a ← Prog.read (ty := CTy R) rcmPfx (o + l + 1)
    let b ← Prog.read (ty := CTy R) rcmPfx (o + l)
    Prog.write (ty := CTy R) rcmPfx (o + l + 1) ((a : Int) + b)

/-- RCM.cpp:798-806: collect the neighbours of `u` on level `l`+1 not collected before; `o` is the position of children. Returns
childrenIdx. -/
def rcmChildren (k : Nat) (o : Int) (u l : Int) : Prog (CTy R) Int := do
  let lo ← Prog.read (ty := CTy R) (.rowptr k) u
  let hi ← Prog.read (ty := CTy R) (.rowptr k) (u + 1)
  Prog.forUp (ty := CTy R) (lo : Int) (hi : Int) (0 : Int) fun j c => do
    let v ← Prog.read (ty := CTy R) (.colidx k) j
    let lv ← Prog.read (ty := CTy R) bfsLev (v : Int)
    if (lv : Int) = l + 1 then do
      Prog.write (ty := CTy R) rcmChd (o + c) (v : Int)
      Prog.write (ty := CTy R) bfsLev (v : Int) (-1 : Int)
      pure (c + 1)
    else pure c

/-- RCM.cpp:653-655: the keys DegreeComparator compares. -/
def rcmDegrees (k : Nat) : List Int → Prog (CTy R) (List (Int × Int))
  | [] => pure []
  | v :: l => do
    let e ← Prog.read (ty := CTy R) (.rowptr k) (v + 1)
    let d ← Prog.read (ty := CTy R) (.rowptr k) v
    let r ← rcmDegrees k l
    pure (((e : Int) - d, v) :: r)

/-- RCM.cpp:808: std::sort(children, children + n, comparator). -/
def rcmSort (k : Nat) (srt : List (Int × Int) → List (Int × Int)) (o n : Int) : Prog (CTy R) Unit := do
  let l ← readList 21 o n.toNat
  let d ← rcmDegrees k l
  writeList 21 o ((srt d).map Prod.snd)

/-- RCM.cpp:810-815: place the children from position `w` on. -/
def rcmPut (m : Nat) (o w n : Int) : Prog (CTy R) Unit :=
  Prog.forUp (ty := CTy R) 0 n () fun i _ => do
    let c ← Prog.read (ty := CTy R) rcmChd (o + i)
    Prog.write (ty := CTy R) bfsInv ((m : Int) - (w + i) - 1) (c : Int)
    Prog.write (ty := CTy R) bfsPrm (c : Int) ((m : Int) - (w + i) - 1)

/-- RCM.cpp:793-817: one level. The loop stops at r = prefixSum[l+1] + offset, so r must not start beyond it. -/
def rcmLevel (k m : Nat) (srt : List (Int × Int) → List (Int × Int)) (co po off l : Int) : Prog (CTy R) Unit := do
  let a ← Prog.read (ty := CTy R) rcmPfx (po + l)
  let b ← Prog.read (ty := CTy R) rcmPfx (po + l + 1)
  Prog.assert (ty := CTy R) ((a : Int) ≤ b)
  let _ ← Prog.forUp (ty := CTy R) ((a : Int) + off) ((b : Int) + off) ((b : Int) + off) fun r w => do
    let u ← Prog.read (ty := CTy R) bfsInv ((m : Int) - r - 1)
    let n ← rcmChildren k co (u : Int) l
    rcmSort k srt co n
    rcmPut m co w n
    pure (w + n)
  pure ()

/-- RCM.cpp:771-818: search and place a small component. `qo`, `co`, `po` are the positions of the thread's queue, children and
prefixSum; `st`, `n` are compSizePrefixSum[c], compSizes[c]. -/
def rcmSearch (k m : Nat) (srt : List (Int × Int) → List (Int × Int)) (qo co po i st n : Int) : Prog (CTy R) Unit := do
  Prog.forUp (ty := CTy R) 0 n () fun x _ => do
    let v ← Prog.read (ty := CTy R) (.itmp 5) (st + x)
    Prog.write (ty := CTy R) bfsLev (v : Int) (-1 : Int)
  let nl ← bfsSerial k 0 m false qo 0 i
  rcmPrefix m po nl st n
  Prog.write (ty := CTy R) bfsInv ((m : Int) - st - 1) i
  Prog.write (ty := CTy R) bfsPrm i ((m : Int) - st - 1)
  Prog.forUp (ty := CTy R) 0 (nl : Int) () fun l _ => rcmLevel k m srt co po st l

/-- RCM.cpp:742-747, 762-767: place the two nodes of a shortcut; otherwise search. -/
def rcmPlaceTwin (k m : Nat) (srt : List (Int × Int) → List (Int × Int)) (qo co po i st n : Int) : Option Int → Prog (CTy R) Unit
  | some u => do
    Prog.write (ty := CTy R) bfsInv ((m : Int) - st - 1) i
    Prog.write (ty := CTy R) bfsInv ((m : Int) - (st + 1) - 1) u
    Prog.write (ty := CTy R) bfsPrm i ((m : Int) - st - 1)
    Prog.write (ty := CTy R) bfsPrm u ((m : Int) - (st + 1) - 1)
  | none => rcmSearch k m srt qo co po i st n

/-- RCM.cpp:725-821: component `c` if it is small; the tests for one and two nodes (733, 739-769) are those of getBFSPermutation. -/
def rcmSmallComp (k k' m thr : Nat) (srt : List (Int × Int) → List (Int × Int)) (qo co po : Int) (c : Int) : Prog (CTy R) Unit := do
  let i ← Prog.read (ty := CTy R) (.itmp 3) c
  let st ← Prog.read (ty := CTy R) (.rowptr k') c
  let n ← Prog.read (ty := CTy R) (.itmp 4) c
  if (thr : Int) ≤ n then pure () else do
  let s ← bfsSingle k 0 (i : Int)
  if s then do
    Prog.write (ty := CTy R) bfsInv ((m : Int) - st - 1) (i : Int)
    Prog.write (ty := CTy R) bfsPrm (i : Int) ((m : Int) - st - 1)
  else do
    let u ← bfsTwin k 0 (i : Int)
    rcmPlaceTwin k m srt qo co po (i : Int) (st : Int) (n : Int) u

/-- RCM.cpp:716-838: thread `t` handles the components assigned to it, with its own part of the work arrays. -/
def rcmThread (k k' m thr : Nat) (srt : List (Int × Int) → List (Int × Int)) (asg : Nat → Nat) (nc t : Nat) : Prog (CTy R) Unit :=
  Prog.forUp (ty := CTy R) 0 (nc : Int) () fun c _ =>
    if asg c.toNat = t then rcmSmallComp k k' m thr srt ((t : Int) * m) ((t : Int) * thr) ((t : Int) * ((thr : Int) + 1)) c
    else pure ()

/-- RCM.cpp:677-681: maxDegree. -/
def rcmMaxDegree (k m : Nat) : Prog (CTy R) Int :=
  Prog.forUp (ty := CTy R) 0 (m : Int) (0 : Int) fun i d => do
    let e ← Prog.read (ty := CTy R) (.rowptr k) (i + 1)
    let b ← Prog.read (ty := CTy R) (.rowptr k) i
    pure (max d ((e : Int) - b))

end SpMP
