import Verif.Transpose
import Verif.SplitLU
/-
findConnectedComponents_ (/repo/reordering/ConnectedComponents.cpp:58-326): Rem's union-find by a team, then numbering, counting and
sorting of the components. Object `k` is the matrix. Arrays: `itmp 0` = p, `itmp 1` = cnts, `itmp 2` = rootToComp,
`itmp 3` = *compToRoot, `itmp 4` = *compSizes, `rowptr k'` = *compSizePrefixSum, `itmp 5` = *nodesSortedByComp,
`itmp 6` = nodesToFind, `itmp 7` = nodesToFindArray, `itmp 8` = nodesToFindCnt.
The bit vector is only read by this function and is modelled by the function `bv` of its bits.
The checks under `#ifndef NDEBUG` at the end (294-318) are not modelled; the asserts in the loops are.
-/

namespace SpMP
open Spec

variable {R : Type}

/-- `WITH_BIT_VECTOR ? nodesToFind[i] : i` (lines 119, 139, 188, 220, 236, 283). -/
def ccNode (wb : Bool) (i : Int) : Prog (CTy R) Int := if wb then Prog.read (ty := CTy R) (.itmp 6) i else pure i

/-- Lines 92-100, thread `t`: the unvisited nodes of its range. -/
def ccCollect (bv : Nat → Bool) (m T t : Nat) : Prog (CTy R) Int := do
  let c ← Prog.forUp (ty := CTy R) (simpleBegin T t m) (simpleEnd T t m) (0 : Int) fun i c =>
    if bv i.toNat = false then do
      Prog.write (ty := CTy R) (.itmp 7) ((m : Int) * t + c) i
      pure (c + 1)
    else pure c
  Prog.write (ty := CTy R) (.itmp 8) ((t : Int) + 1) c
  pure c

/-- Lines 104-109 (`omp master`): prefix sums of the counts; the total is the new `m`. -/
def ccSum (j T : Nat) : Prog (CTy R) Int := do
  Prog.forUp (ty := CTy R) 1 (T : Int) () fun i _ => do
    let a ← Prog.read (ty := CTy R) (.itmp j) (i + 1)
    let b ← Prog.read (ty := CTy R) (.itmp j) i
    Prog.write (ty := CTy R) (.itmp j) (i + 1) ((a : Int) + b)
  Prog.read (ty := CTy R) (.itmp j) (T : Int)

/-- Lines 113-115: `memcpy` of the thread's nodes. -/
def ccCopy (m t : Nat) (c : Int) : Prog (CTy R) Unit := do
  let o ← Prog.read (ty := CTy R) (.itmp 8) (t : Int)
  Prog.forUp (ty := CTy R) 0 c () fun i _ => do
    let v ← Prog.read (ty := CTy R) (.itmp 7) ((m : Int) * t + i)
    Prog.write (ty := CTy R) (.itmp 6) ((o : Int) + i) (v : Int)

/-- Lines 130-133: every node of the thread is its own parent. -/
def ccInit (wb : Bool) (mm T t : Nat) : Prog (CTy R) Unit :=
  Prog.forUp (ty := CTy R) (simpleBegin T t mm) (simpleEnd T t mm) () fun i _ => do
    let ii ← ccNode wb i
    Prog.write (ty := CTy R) (.itmp 0) ii ii

/-- Lines 157-176: the union loop. `fuel` bounds the iterations; running out of it is an error. The compare-and-swap is one
atomic step. -/
def ccUnion : Nat → Int → Int → Prog (CTy R) Unit
  | 0, _, _ => Prog.fail
  | fuel + 1, rx, ry => do
    let px ← Prog.read (ty := CTy R) (.itmp 0) rx
    let py ← Prog.read (ty := CTy R) (.itmp 0) ry
    if (px : Int) = py then pure () else
    let x := if (px : Int) > py then rx else ry
    let y := if (px : Int) > py then ry else rx
    let p := if (px : Int) > py then (px : Int) else py
    let q := if (px : Int) > py then (py : Int) else px
    if p = x then do
      let old ← Prog.atomic (ty := CTy R) (.itmp 0) x (fun v : Int => if v = x then q else v)
      if (old : Int) = x then pure () else do
        Prog.write (ty := CTy R) (.itmp 0) x q
        ccUnion fuel p y
    else do
      Prog.write (ty := CTy R) (.itmp 0) x q
      ccUnion fuel p y

/-- Lines 149-179: the edges of node `xx`. -/
def ccRow (k base : Nat) (wb : Bool) (bv : Nat → Bool) (fuel : Nat) (xx : Int) : Prog (CTy R) Unit := do
  let lo ← Prog.read (ty := CTy R) (.rowptr k) xx
  let hi ← Prog.read (ty := CTy R) (.rowptr k) (xx + 1)
  Prog.forUp (ty := CTy R) ((lo : Int) - base) ((hi : Int) - base) () fun j _ => do
    let c ← Prog.read (ty := CTy R) (.colidx k) j
    Prog.assert (ty := CTy R) (wb = true → bv ((c : Int) - base).toNat = false)
    let a ← Prog.read (ty := CTy R) (.itmp 0) xx
    let b ← Prog.read (ty := CTy R) (.itmp 0) ((c : Int) - base)
    if (a : Int) = b then pure () else ccUnion fuel xx ((c : Int) - base)

/-- Lines 137-146: the rows of a thread. -/
def ccRange (k : Nat) (wb : Bool) (m mm T t : Nat) : Prog (CTy R) (Int × Int) :=
  if wb then pure (simpleBegin T t mm, simpleEnd T t mm) else lbPart k m T t

/-- Lines 137-180, thread `t`. -/
def ccUnions (k base : Nat) (wb : Bool) (bv : Nat → Bool) (m mm T t : Nat) : Prog (CTy R) Unit := do
  let be ← ccRange k wb m mm T t
  Prog.assert (ty := CTy R) (be.1 ≤ be.2)
  Prog.assert (ty := CTy R) (0 ≤ be.1 ∧ be.1 ≤ m)
  Prog.assert (ty := CTy R) (0 ≤ be.2 ∧ be.2 ≤ m)
  Prog.forUp (ty := CTy R) be.1 be.2 () fun x _ => do
    let xx ← ccNode wb x
    ccRow k base wb bv (6 * m + 3) xx

/-- Lines 190-194: the root of a node. Line 192 reads `p[r]` twice. -/
def ccFind (wb : Bool) (bv : Nat → Bool) : Nat → Int → Prog (CTy R) Int
  | 0, _ => Prog.fail
  | fuel + 1, r => do
    let a ← Prog.read (ty := CTy R) (.itmp 0) r
    if (a : Int) = r then pure r else do
      let b ← Prog.read (ty := CTy R) (.itmp 0) r
      Prog.assert (ty := CTy R) (wb = true → bv (b : Int).toNat = false)
      ccFind wb bv fuel (b : Int)

/-- Lines 186-199, thread `t`: path compression and the number of roots. -/
def ccCompress (wb : Bool) (bv : Nat → Bool) (m mm T t : Nat) : Prog (CTy R) Unit := do
  let c ← Prog.forUp (ty := CTy R) (simpleBegin T t mm) (simpleEnd T t mm) (0 : Int) fun i c => do
    let ii ← ccNode wb i
    let r ← ccFind wb bv (m + 1) ii
    Prog.write (ty := CTy R) (.itmp 0) ii r
    pure (if r = ii then c + 1 else c)
  Prog.write (ty := CTy R) (.itmp 1) ((t : Int) + 1) c

/-- Lines 217-227, thread `t`: number the roots. -/
def ccMap (wb : Bool) (mm T t : Nat) : Prog (CTy R) Unit := do
  let c0 ← Prog.read (ty := CTy R) (.itmp 1) (t : Int)
  let _ ← Prog.forUp (ty := CTy R) (simpleBegin T t mm) (simpleEnd T t mm) (c0 : Int) fun i c => do
    let ii ← ccNode wb i
    let r ← Prog.read (ty := CTy R) (.itmp 0) ii
    if (r : Int) = ii then do
      Prog.write (ty := CTy R) (.itmp 3) c (r : Int)
      Prog.write (ty := CTy R) (.itmp 2) (r : Int) c
      pure (c + 1)
    else pure c
  pure ()

/-- Lines 232-241, thread `t`: its bucket row. -/
def ccCount (k' : Nat) (wb : Bool) (mm nc T t : Nat) : Prog (CTy R) Unit := do
  Prog.forUp (ty := CTy R) 0 (nc : Int) () fun c _ => Prog.write (ty := CTy R) (.rowptr k') ((t : Int) * nc + c) (0 : Int)
  Prog.forUp (ty := CTy R) (simpleBegin T t mm) (simpleEnd T t mm) () fun i _ => do
    let ii ← ccNode wb i
    let r ← Prog.read (ty := CTy R) (.itmp 0) ii
    let c ← Prog.read (ty := CTy R) (.itmp 2) (r : Int)
    let v ← Prog.read (ty := CTy R) (.rowptr k') ((t : Int) * nc + c)
    Prog.write (ty := CTy R) (.rowptr k') ((t : Int) * nc + c) ((v : Int) + 1)

/-- Lines 269-279, thread `t`: component sizes. The ranges of neighbouring threads overlap. -/
def ccSizes (k' nc T t : Nat) : Prog (CTy R) Unit := do
  let per : Nat := (nc + T - 1) / T
  let cb : Nat := max (min (per * t) nc) 1
  let ce : Nat := min (cb + per) nc
  let _ ← (if t = 0 then do
      let v ← Prog.read (ty := CTy R) (.rowptr k') ((nc : Int) * ((T : Int) - 1))
      Prog.write (ty := CTy R) (.itmp 4) 0 (v : Int)
    else pure () : Prog (CTy R) Unit)
  Prog.forUp (ty := CTy R) (cb : Int) (ce : Int) () fun c _ => do
    let a ← Prog.read (ty := CTy R) (.rowptr k') (c + (nc : Int) * ((T : Int) - 1))
    let b ← Prog.read (ty := CTy R) (.rowptr k') (c - 1 + (nc : Int) * ((T : Int) - 1))
    Prog.write (ty := CTy R) (.itmp 4) c ((a : Int) - b)

/-- Lines 283-289, thread `t`: place its nodes, last to first. -/
def ccPlace (k' : Nat) (wb : Bool) (mm nc T t : Nat) : Prog (CTy R) Unit :=
  Prog.forDown (ty := CTy R) (simpleEnd T t mm) (simpleBegin T t mm) () fun i _ => do
    let ii ← ccNode wb i
    let r ← Prog.read (ty := CTy R) (.itmp 0) ii
    let c ← Prog.read (ty := CTy R) (.itmp 2) (r : Int)
    let v ← Prog.read (ty := CTy R) (.rowptr k') ((c : Int) + (nc : Int) * t)
    Prog.write (ty := CTy R) (.rowptr k') ((c : Int) + (nc : Int) * t) ((v : Int) - 1)
    let o ← Prog.read (ty := CTy R) (.rowptr k') ((c : Int) + (nc : Int) * t)
    Prog.write (ty := CTy R) (.itmp 5) o ii

/-- The allocations (lines 66-77, 80-81, 109, 209-211); `mm`, `nc` are 0 before they are known. -/
def ccSize (sz : CArr → Int) (k' m T mm nc : Nat) : CArr → Int
  | .itmp 0 => m
  | .itmp 1 => (T : Int) + 1
  | .itmp 2 => m
  | .itmp 3 => nc
  | .itmp 4 => nc
  | .itmp 5 => m
  | .itmp 6 => mm
  | .itmp 7 => (m : Int) * T
  | .itmp 8 => (T : Int) + 1
  | .rowptr j => if j = k' then ((nc : Int) + 1) * T else sz (.rowptr j)
  | a => sz a

/-- Lines 120-292: everything after the nodes are known. Returns the number of components. -/
def ccMain (sz : CArr → Int) (T k k' base : Nat) (wb : Bool) (bv : Nat → Bool) (m mm : Nat) : Script (CTy R) Nat :=
  let sz1 := ccSize sz k' m T mm 0
  .phase sz1 T (ccInit wb mm T) fun _ =>
  .phase sz1 T (ccUnions k base wb bv m mm T) fun _ =>
  .phase sz1 T (ccCompress wb bv m mm T) fun _ =>
  Script.seq sz1 (ccSum 1 T) fun n =>
  let nc := n.toNat
  let sz2 := ccSize sz k' m T mm nc
  .phase sz2 T (ccMap wb mm T) fun _ =>
  .phase sz2 T (ccCount k' wb mm nc T) fun _ =>
  .phase sz2 T (trScan k' nc T) fun _ =>
  Script.seq sz2 (trMaster k' nc T) fun _ =>
  .phase sz2 T (trAdd k' nc T) fun _ =>
  .phase sz2 T (ccSizes k' nc T) fun _ =>
  .phase sz2 T (ccPlace k' wb mm nc T) fun _ => .done nc

/-- Lines 58-326 findConnectedComponents_, for a team of `T`. -/
def findComponents (sz : CArr → Int) (T k k' base : Nat) (wb : Bool) (bv : Nat → Bool) (m : Nat) : Script (CTy R) Nat :=
  let sz0 := ccSize sz k' m T 0 0
  Script.seq sz0 (Prog.write (ty := CTy R) (.itmp 1) 0 (0 : Int)) fun _ =>
  if wb then
    Script.seq sz0 (Prog.write (ty := CTy R) (.itmp 8) 0 (0 : Int)) fun _ =>
    .phase sz0 T (ccCollect bv m T) fun c =>
    Script.seq sz0 (ccSum 8 T) fun n =>
    .phase (ccSize sz k' m T n.toNat 0) T (fun t => ccCopy m t (c t)) fun _ =>
    ccMain sz T k k' base wb bv m n.toNat
  else ccMain sz T k k' base wb bv m m

end SpMP
