import Verif.Levels
import Verif.Components
import Verif.StdLib
/-
Breadth-first search and getBFSPermutation (/repo/reordering/RCM.cpp:164-460, 970-1117). Object `k` is the matrix.
Arrays: `itmp 10`, `itmp 11` = aux.q[0], aux.q[1]; `itmp 20` = aux.rowptrs; `itmp 13` = the bit vector; `itmp 14` = inversePerm
(also `visited`); `itmp 15` = perm; `itmp 16` = levels; `itmp 0..8`, `rowptr k'` = those of findComponents.

Simplifications: barriers separate phases (the barrier itself is C40, C41); `int` does not overflow; qTail, nnzPrefixSum,
qTailPrefixSum, numLevels and *numOfVisited are handed from phase to phase as results instead of being stored; the row bounds of a
node are read once; the BitVector keeps one byte per element (BitVector.hpp:71-73 divides by sizeof(char)), so it is an array of 0/1;
the duplicate check under `#ifndef NDEBUG` (442-457), the symmetry assertion and time measurement are left out.
-/

namespace SpMP
open Spec

variable {R : Type}

/-- `aux.q[p]` (RCM.cpp:179-180). -/
abbrev bfsQ (p : Nat) : CArr := .itmp (10 + p)
/-- The bit vector (RCM.cpp:978). -/
abbrev bfsBits : CArr := .itmp 13
/-- `inversePerm` (RCM.cpp:970). -/
abbrev bfsInv : CArr := .itmp 14
/-- `perm` (RCM.cpp:970). -/
abbrev bfsPrm : CArr := .itmp 15
/-- `levels` (RCM.cpp:1002). -/
abbrev bfsLev : CArr := .itmp 16

/-- Allocations: RCM.cpp:177-191 (bfsAuxData), 978 (BitVector), 1002 (levels); perm and inversePerm have `m` elements. -/
def bfsSize (sz : CArr → Int) (m T : Nat) : CArr → Int
  | .itmp 10 => (m : Int) * T
  | .itmp 11 => (m : Int) * T
  | .itmp 20 => (T : Int) * m
  | .itmp 13 => m
  | .itmp 14 => m
  | .itmp 15 => m
  | .itmp 16 => m
  | a => sz a

/-- BitVector.hpp:54-63 testAndSet. -/
def bfsTas (v : Int) : Prog (CTy R) Bool := do
  let b ← Prog.read (ty := CTy R) bfsBits v
  if (b : Int) = 0 then do
    let old ← Prog.atomic (ty := CTy R) bfsBits v (fun _ => (1 : Int))
    pure (decide ((old : Int) = 0))
  else pure false

/-- RCM.cpp:414-418: append `v` as element `c` of the queue at offset `o`, and its degree to the sums. -/
def bfsPush (k p : Nat) (o c v : Int) : Prog (CTy R) Unit := do
  Prog.write (ty := CTy R) (bfsQ p) (o + c) v
  let r ← Prog.read (ty := CTy R) bufA (o + c)
  let e ← Prog.read (ty := CTy R) (.rowptr k) (v + 1)
  let d ← Prog.read (ty := CTy R) (.rowptr k) v
  Prog.write (ty := CTy R) bufA (o + c + 1) ((r : Int) + e - d)

/-- RCM.cpp:408-420 (OUTPUT_VISITED): the neighbours of `u`. -/
def bfsRow (k base p : Nat) (o u c : Int) : Prog (CTy R) Int := do
  let lo ← Prog.read (ty := CTy R) (.rowptr k) u
  let hi ← Prog.read (ty := CTy R) (.rowptr k) (u + 1)
  Prog.forUp (ty := CTy R) ((lo : Int) - base) ((hi : Int) - base) c fun j c => do
    let v ← Prog.read (ty := CTy R) (.colidx k) j
    let w ← bfsTas ((v : Int) - base)
    if w then do
      bfsPush k p o c ((v : Int) - base)
      pure (c + 1)
    else pure c

/-- RCM.cpp:350-353, 357-360: the queue in which the work `x` falls. -/
def bfsT (T : Nat) (N : Nat → Int) (x : Int) : Prog (CTy R) Int := do
  let t ← upperBound (fun t => pure (N t.toNat)) 0 ((T : Int) + 1) x
  pure (t - 1)

/-- RCM.cpp:373-376, 383-386: the position in queue `t`. -/
def bfsI (m : Nat) (qt N : Nat → Int) (t x : Int) : Prog (CTy R) Int := do
  let y ← upperBound (fun j => Prog.read (ty := CTy R) bufA j) (t * m) (t * m + qt t.toNat) (x - N t.toNat)
  pure (y - t * m - 1)

/-- RCM.cpp:348-387: the part of the frontier of thread `tid`, as tBegin, iBegin, tEnd, iEnd. -/
def bfsPart (T m : Nat) (qt N : Nat → Int) (tid : Nat) : Prog (CTy R) ((Int × Int) × (Int × Int)) := do
  let per := (N T + T - 1) / T
  let tB0 ← bfsT T N (per * tid)
  let tB := if tid = 0 then 0 else tB0
  let tE ← bfsT T N (per * (tid + 1))
  Prog.assert (ty := CTy R) (0 ≤ tB ∧ tB ≤ T)
  Prog.assert (ty := CTy R) (0 ≤ tE ∧ tE ≤ T)
  Prog.assert (ty := CTy R) (tB ≤ tE)
  let iB ← (if tid = 0 then pure 0 else if tB = T then pure (qt (tE - 1).toNat) else bfsI m qt N tB (per * tid) : Prog (CTy R) Int)
  let iE ← (if tE = T then pure 0 else bfsI m qt N tE (per * (tid + 1)) : Prog (CTy R) Int)
  pure ((tB, iB), (tE, iE))

/-- RCM.cpp:389-394: copy the thread's queue `p` to `visited`. `b` is the position of the level in inversePerm. -/
def bfsCopy (m p : Nat) (b : Int) (qt P : Nat → Int) (tid : Nat) : Prog (CTy R) Unit :=
  Prog.forUp (ty := CTy R) 0 (qt tid) () fun x _ => do
    let v ← Prog.read (ty := CTy R) (bfsQ p) ((tid : Int) * m + x)
    Prog.write (ty := CTy R) bfsInv (b + P tid + x) (v : Int)

/-- RCM.cpp:397-438: traverse the part `r` of the frontier in queues `p`, fill the thread's queue in `p'`. Returns qTail and
nnzPrefixSum[tid+1]. -/
def bfsExpand (k base m p p' : Nat) (qt : Nat → Int) (r : (Int × Int) × (Int × Int)) (tid : Nat) : Prog (CTy R) (Int × Int) := do
  Prog.write (ty := CTy R) bufA ((tid : Int) * m) (0 : Int)
  let c ← Prog.forUp (ty := CTy R) r.1.1 (r.2.1 + 1) (0 : Int) fun t c =>
    Prog.forUp (ty := CTy R) (if t = r.1.1 then r.1.2 else 0) (if t = r.2.1 then r.2.2 else qt t.toNat) c fun i c => do
      let u ← Prog.read (ty := CTy R) (bfsQ p) (t * m + i)
      bfsRow k base p' ((tid : Int) * m) (u : Int) c
  let n ← Prog.read (ty := CTy R) bufA ((tid : Int) * m + c)
  pure (c, (n : Int))

/-- RCM.cpp:325-439: the loop over levels. `lev` is numLevels, `nv` is *numOfVisited, `off` the position of `visited` in inversePerm.
The first argument bounds the iterations; running out of it is a failure. -/
def bfsLoop (sz : CArr → Int) (k base T m : Nat) (off : Int) : Nat → Nat → (Nat → Int) → (Nat → Int) → Int → Script (CTy R) (Nat × Int)
  | 0, _, _, _, _ => Script.seq sz (Prog.fail : Prog (CTy R) Unit) fun _ => .done (0, 0)
  | fuel + 1, lev, qt, nz, nv =>
    let P := psum qt
    let N := psum nz
    if P T = 0 then .done (lev + 1, nv) else
    .phase sz T (fun tid => do
      bfsCopy m (1 - (lev + 1) % 2) (off + nv) qt P tid
      bfsPart T m qt N tid) fun r =>
    .phase sz T (fun tid => bfsExpand k base m (1 - (lev + 1) % 2) ((lev + 1) % 2) qt (r tid) tid) fun s =>
    bfsLoop sz k base T m off fuel (lev + 1) (onTeam T fun t => (s t).1) (onTeam T fun t => (s t).2) (nv + P T)

/-- RCM.cpp:292-313: the start; returns the degree of the source. -/
def bfsStart (k : Nat) (src : Int) : Prog (CTy R) Int := do
  let _ ← Prog.read (ty := CTy R) bfsBits src
  Prog.write (ty := CTy R) bfsBits src (1 : Int)
  Prog.write (ty := CTy R) (bfsQ 0) 0 src
  Prog.write (ty := CTy R) bufA 0 (0 : Int)
  let e ← Prog.read (ty := CTy R) (.rowptr k) (src + 1)
  let d ← Prog.read (ty := CTy R) (.rowptr k) src
  Prog.write (ty := CTy R) bufA 1 ((e : Int) - d)
  pure ((e : Int) - d)

/-- RCM.cpp:285-460 `bfs_<BASE, false, true>`. Returns numLevels and *numOfVisited. -/
def bfsPar (sz : CArr → Int) (k base T m : Nat) (off src : Int) : Script (CTy R) (Nat × Int) :=
  Script.seq sz (bfsStart k src) fun d =>
  bfsLoop sz k base T m off (m + 2) 0 (onTeam T fun t => if t = 0 then 1 else 0) (onTeam T fun t => if t = 0 then d else 0) 0

/-- RCM.cpp:244-252: the neighbours of `u` in the serial search. -/
def bfsSerialRow (k base p : Nat) (o u : Int) (lev : Nat) (c : Int) : Prog (CTy R) Int := do
  let lo ← Prog.read (ty := CTy R) (.rowptr k) u
  let hi ← Prog.read (ty := CTy R) (.rowptr k) (u + 1)
  Prog.forUp (ty := CTy R) ((lo : Int) - base) ((hi : Int) - base) c fun j c => do
    let v ← Prog.read (ty := CTy R) (.colidx k) j
    let l ← Prog.read (ty := CTy R) bfsLev ((v : Int) - base)
    if (l : Int) = -1 then do
      Prog.write (ty := CTy R) bfsLev ((v : Int) - base) (lev : Int)
      Prog.write (ty := CTy R) (bfsQ p) (o + c) ((v : Int) - base)
      pure (c + 1)
    else pure c

/-- RCM.cpp:227-256: the loop of the serial search; `o` is tid*m, `ov` is OUTPUT_VISITED, `vo` the position of `visited`. Returns
numLevels. -/
def bfsSerialLoop (k base : Nat) (ov : Bool) (o vo : Int) : Nat → Nat → Int → Int → Prog (CTy R) Nat
  | 0, _, _, _ => Prog.fail
  | fuel + 1, lev, cnt, nv => do
    let _ ← (if ov then Prog.forUp (ty := CTy R) 0 cnt () fun x _ => do
        let v ← Prog.read (ty := CTy R) (bfsQ (lev % 2)) (o + x)
        Prog.write (ty := CTy R) bfsInv (vo + nv + x) (v : Int)
      else pure () : Prog (CTy R) Unit)
    if cnt = 0 then pure (lev + 1) else do
    let c ← Prog.forUp (ty := CTy R) 0 cnt (0 : Int) fun i c => do
      let u ← Prog.read (ty := CTy R) (bfsQ (lev % 2)) (o + i)
      let l ← Prog.read (ty := CTy R) bfsLev (u : Int)
      Prog.assert (ty := CTy R) ((l : Int) = lev)
      bfsSerialRow k base ((lev + 1) % 2) o (u : Int) (lev + 1) c
    bfsSerialLoop k base ov o vo fuel (lev + 1) c (nv + cnt)

/-- RCM.cpp:210-259 bfs_serial_. -/
def bfsSerial (k base m : Nat) (ov : Bool) (o vo src : Int) : Prog (CTy R) Nat := do
  Prog.write (ty := CTy R) bfsLev src (0 : Int)
  Prog.write (ty := CTy R) (bfsQ 0) o src
  bfsSerialLoop k base ov o vo (m + 2) 0 1 0

/-! ### getBFSPermutation -/

/-- RCM.cpp:1031: is node `i` alone: no entry, or only its diagonal entry? -/
def bfsSingle (k base : Nat) (i : Int) : Prog (CTy R) Bool := do
  let e ← Prog.read (ty := CTy R) (.rowptr k) (i + 1)
  let d ← Prog.read (ty := CTy R) (.rowptr k) i
  if (e : Int) = d + 1 then do
    let c ← Prog.read (ty := CTy R) (.colidx k) ((d : Int) - base)
    pure (decide ((c : Int) - base = i))
  else pure (decide ((e : Int) = d))

/-- RCM.cpp:1037-1039, one entry in the row of `i`: `u` if the only entry of the row of `u` is `i`. -/
def bfsTwin1 (k base : Nat) (i d : Int) : Prog (CTy R) (Option Int) := do
  let c ← Prog.read (ty := CTy R) (.colidx k) (d - base)
  let u : Int := (c : Int) - base
  let e' ← Prog.read (ty := CTy R) (.rowptr k) (u + 1)
  let d' ← Prog.read (ty := CTy R) (.rowptr k) u
  if (e' : Int) = d' + 1 then do
    let c' ← Prog.read (ty := CTy R) (.colidx k) ((d' : Int) - base)
    pure (if (c' : Int) - base = i then some u else none)
  else pure none

/-- RCM.cpp:1056-1059: is `u` ≠ -1 with the two entries `u` and `i`? -/
def bfsTwin2c (k base : Nat) (i u : Int) : Prog (CTy R) (Option Int) :=
  if u = -1 then pure none else do
  let e' ← Prog.read (ty := CTy R) (.rowptr k) (u + 1)
  let d' ← Prog.read (ty := CTy R) (.rowptr k) u
  if (e' : Int) = d' + 2 then do
    let x ← Prog.read (ty := CTy R) (.colidx k) ((d' : Int) - base)
    let y ← Prog.read (ty := CTy R) (.colidx k) ((d' : Int) + 1 - base)
    pure (if ((x : Int) - base = u ∧ (y : Int) - base = i) ∨ ((y : Int) - base = u ∧ (x : Int) - base = i) then some u else none)
  else pure none

/-- RCM.cpp:1048-1059, two entries in the row of `i`. -/
def bfsTwin2 (k base : Nat) (i d : Int) : Prog (CTy R) (Option Int) := do
  let c ← Prog.read (ty := CTy R) (.colidx k) (d - base)
  if (c : Int) - base = i then do
    let c2 ← Prog.read (ty := CTy R) (.colidx k) (d + 1 - base)
    bfsTwin2c k base i ((c2 : Int) - base)
  else do
    let c2 ← Prog.read (ty := CTy R) (.colidx k) (d + 1 - base)
    bfsTwin2c k base i (if (c2 : Int) - base = i then (c : Int) - base else -1)

/-- RCM.cpp:1037-1067: the other node of a component of two nodes, if the shortcut recognises it. -/
def bfsTwin (k base : Nat) (i : Int) : Prog (CTy R) (Option Int) := do
  let e ← Prog.read (ty := CTy R) (.rowptr k) (i + 1)
  let d ← Prog.read (ty := CTy R) (.rowptr k) i
  if (e : Int) = d + 1 then bfsTwin1 k base i (d : Int)
  else if (e : Int) = d + 2 then bfsTwin2 k base i (d : Int)
  else pure none

/-- RCM.cpp:1069-1076: a small component searched serially. `st`, `n` are compSizePrefixSum[c], compSizes[c]; `off` is offset. -/
def bfsSearchSmall (k base m : Nat) (i st n off : Int) : Prog (CTy R) Unit := do
  Prog.forUp (ty := CTy R) 0 n () fun x _ => do
    let v ← Prog.read (ty := CTy R) (.itmp 5) (st + x)
    Prog.write (ty := CTy R) bfsLev (v : Int) (-1 : Int)
  let _ ← bfsSerial k base m true 0 off i
  Prog.forUp (ty := CTy R) 0 n () fun x _ => do
    let v ← Prog.read (ty := CTy R) bfsInv (off + x)
    Prog.write (ty := CTy R) bfsPrm (v : Int) (off + x)

/-- RCM.cpp:1032-1033, 1040-1043, 1060-1063: place the node(s) of a shortcut. -/
def bfsPlaceTwin (k base m : Nat) (i st n off : Int) : Option Int → Prog (CTy R) Unit
  | some u => do
    Prog.write (ty := CTy R) bfsInv off i
    Prog.write (ty := CTy R) bfsInv (off + 1) u
    Prog.write (ty := CTy R) bfsPrm i off
    Prog.write (ty := CTy R) bfsPrm u (off + 1)
  | none => bfsSearchSmall k base m i st n off

/-- RCM.cpp:1024-1077: component `c` if it is small. `n0` is nNodesinFirstComp, `thr` is PAR_THR. -/
def bfsSmallComp (k k' base m thr : Nat) (n0 : Int) (c : Int) : Prog (CTy R) Unit := do
  let i ← Prog.read (ty := CTy R) (.itmp 3) c
  let st ← Prog.read (ty := CTy R) (.rowptr k') c
  let n ← Prog.read (ty := CTy R) (.itmp 4) c
  let b ← Prog.read (ty := CTy R) bfsBits (i : Int)
  if (thr : Int) ≤ n ∨ (b : Int) ≠ 0 then pure () else do
  let s ← bfsSingle k base (i : Int)
  if s then do
    Prog.write (ty := CTy R) bfsInv ((st : Int) + n0) (i : Int)
    Prog.write (ty := CTy R) bfsPrm (i : Int) ((st : Int) + n0)
  else do
    let u ← bfsTwin k base (i : Int)
    bfsPlaceTwin k base m (i : Int) (st : Int) (n : Int) ((st : Int) + n0) u

/-- RCM.cpp:1023-1077. The `omp for` is outside a parallel region: one thread runs all iterations in order. -/
def bfsSmall (k k' base m thr nc : Nat) (n0 : Int) : Prog (CTy R) Unit :=
  Prog.forUp (ty := CTy R) 0 (nc : Int) () fun c _ => bfsSmallComp k k' base m thr n0 c

/-- RCM.cpp:993-996, 1103-1106: number the nodes at positions `off .. off+n-1`; iterations in any order. -/
def bfsNumber (off : Int) (i : Nat) : Prog (CTy R) Unit := do
  let v ← Prog.read (ty := CTy R) bfsInv (off + i)
  Prog.write (ty := CTy R) bfsPrm (v : Int) (off + i)

/-- RCM.cpp:1087-1090: compSizes[c], offset and root of component `c`, and whether it is to be searched by the team. -/
def bfsLargeHead (k' thr : Nat) (n0 : Int) (c : Nat) : Prog (CTy R) (Option (Int × Int × Int)) := do
  let i ← Prog.read (ty := CTy R) (.itmp 3) (c : Int)
  let st ← Prog.read (ty := CTy R) (.rowptr k') (c : Int)
  let n ← Prog.read (ty := CTy R) (.itmp 4) (c : Int)
  let b ← Prog.read (ty := CTy R) bfsBits (i : Int)
  pure (if (n : Int) < thr ∨ (b : Int) ≠ 0 then none else some ((i : Int), ((st : Int) + n0), (n : Int)))

/-- RCM.cpp:1095-1106: one large component. -/
def bfsLargeComp (sz : CArr → Int) (k base T m : Nat) : Option (Int × Int × Int) → Script (CTy R) Unit
  | none => .done ()
  | some (i, off, n) => (bfsPar sz k base T m off i).bind fun _ => .phase sz n.toNat (bfsNumber off) fun _ => .done ()

/-- RCM.cpp:1086-1107: the large components. -/
def bfsLarge (sz : CArr → Int) (k k' base T m thr : Nat) (n0 : Int) : Nat → Script (CTy R) Unit
  | 0 => .done ()
  | c + 1 => (bfsLarge sz k k' base T m thr n0 c).bind fun _ =>
      Script.seq sz (bfsLargeHead k' thr n0 c) fun h => bfsLargeComp sz k base T m h

/-- RCM.cpp:1002-1107: the components other than that of node 0. findConnectedComponentsWithBitVector only reads the bit vector; it
is handed its contents. -/
def bfsRest (sz : CArr → Int) (T k k' base m thr : Nat) (n0 : Int) : Script (CTy R) Unit :=
  Script.seq sz (readList 13 0 m) fun l =>
  (findComponents sz T k k' base true (fun i => decide (l[i]?.getD (0 : Int) ≠ (0 : Int))) m).bind fun nc =>
  let sz2 := ccSize sz k' m T 0 nc
  Script.seq sz2 (bfsSmall k k' base m thr nc n0) fun _ => bfsLarge sz2 k k' base T m thr n0 nc

/-- RCM.cpp:970-1117 getBFSPermutation of a matrix with `m` rows by a team of `T`; `thr` is PAR_THR. -/
def bfsPermutation (sz : CArr → Int) (T k k' base m thr : Nat) : Script (CTy R) Unit :=
  let sz1 := bfsSize sz m T
  .phase sz1 m (fun i => Prog.write (ty := CTy R) bfsBits (i : Int) (0 : Int)) fun _ =>
  (bfsPar sz1 k base T m 0 0).bind fun r =>
  .phase sz1 r.2.toNat (bfsNumber 0) fun _ =>
  if r.2 = m then .done () else bfsRest sz1 T k k' base m thr r.2

end SpMP
