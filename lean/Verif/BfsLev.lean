import Verif.Bfs
/-
The parallel breadth-first search that may store levels, `bfs_<BASE, SET_LEVEL, false>` (/repo/reordering/RCM.cpp:276-460; `sl` is
SET_LEVEL): nodes are marked
without atomic operations, so several threads may queue the same node. Object `k` is the matrix. Arrays and simplifications as in
Verif/Bfs.lean; width and numLevels are handed from phase to phase as results.
-/

namespace SpMP
open Spec

variable {R : Type}

/-- BitVector.hpp:46-48 set: `|=` of a byte whose value is 0 or 1. -/
def bfsMark (v : Int) : Prog (CTy R) Unit := do
  let _ ← Prog.read (ty := CTy R) bfsBits v
  Prog.write (ty := CTy R) bfsBits v (1 : Int)

/-- RCM.cpp:422-431: the neighbour `v`; `c` nodes are in the queue at `o`, `lev` is numLevels. -/
def bfsLevNode (k p : Nat) (sl : Bool) (lev : Nat) (o v c : Int) : Prog (CTy R) Int := do
  let b ← Prog.read (ty := CTy R) bfsBits v
  if (b : Int) = 0 then do
    bfsMark v
    let _ ← (if sl then Prog.write (ty := CTy R) bfsLev v (lev : Int) else pure () : Prog (CTy R) Unit)
    bfsPush k p o c v
    pure (c + 1)
  else pure c

/-- RCM.cpp:408-433: the neighbours of `u`. -/
def bfsLevRow (k base p : Nat) (sl : Bool) (lev : Nat) (o u c : Int) : Prog (CTy R) Int := do
  let lo ← Prog.read (ty := CTy R) (.rowptr k) u
  let hi ← Prog.read (ty := CTy R) (.rowptr k) (u + 1)
  Prog.forUp (ty := CTy R) ((lo : Int) - base) ((hi : Int) - base) c fun j c => do
    let v ← Prog.read (ty := CTy R) (.colidx k) j
    bfsLevNode k p sl lev o ((v : Int) - base) c

/-- RCM.cpp:406 `assert(!SET_LEVEL || levels[u] == numLevels - 1)`. -/
def bfsLevCheck (sl : Bool) (lev : Nat) (u : Int) : Prog (CTy R) Unit :=
  if sl then do
    let d ← Prog.read (ty := CTy R) bfsLev u
    Prog.assert (ty := CTy R) ((d : Int) = (lev : Int) - 1)
  else pure ()

/-- RCM.cpp:397-438: traverse the part `r` of the frontier in queues `p`, fill the thread's queue in `p'`; `lev` is numLevels. Returns
qTail and nnzPrefixSum[tid+1]. -/
def bfsLevExpand (k base m p p' : Nat) (sl : Bool) (lev : Nat) (qt : Nat → Int) (r : (Int × Int) × (Int × Int)) (tid : Nat) : Prog (CTy R) (Int × Int) := do
  Prog.write (ty := CTy R) bufA ((tid : Int) * m) (0 : Int)
  let c ← Prog.forUp (ty := CTy R) r.1.1 (r.2.1 + 1) (0 : Int) fun t c =>
    Prog.forUp (ty := CTy R) (if t = r.1.1 then r.1.2 else 0) (if t = r.2.1 then r.2.2 else qt t.toNat) c fun i c => do
      let u ← Prog.read (ty := CTy R) (bfsQ p) (t * m + i)
      bfsLevCheck sl lev (u : Int)
      bfsLevRow k base p' sl lev ((tid : Int) * m) (u : Int) c
  let n ← Prog.read (ty := CTy R) bufA ((tid : Int) * m + c)
  pure (c, (n : Int))

/-- RCM.cpp:337-341: is the level wider than *shortCircuitWidth? -/
def tooWide (sc : Option Int) (x : Int) : Bool :=
  match sc with
  | none => false
  | some w => decide (w < x)

/-- RCM.cpp:325-439: the loop over levels. `lev` is numLevels, `wd` is *width, `sc` is *shortCircuitWidth. `qp` is the other half of
qTail. Returns numLevels, *width and qTail[numLevels%2]. The first argument after them bounds the iterations; running out of it is a failure. -/
def bfsLevLoop (sz : CArr → Int) (k base T m : Nat) (sl : Bool) (sc : Option Int) :
    Nat → Nat → (Nat → Int) → (Nat → Int) → (Nat → Int) → Int → Script (CTy R) (Int × Int × (Nat → Int))
  | 0, _, qp, _, _, _ => Script.seq sz (Prog.fail : Prog (CTy R) Unit) fun _ => .done (0, 0, qp)
  | fuel + 1, lev, qp, qt, nz, wd =>
    let n := psum qt T
    if tooWide sc n then .done (-1, max wd n, qp) else
    if n = 0 then .done ((lev : Int) + 1, max wd n, qp) else
    .phase sz T (fun tid => bfsPart T m qt (psum nz) tid) fun r =>
    .phase sz T (fun tid => bfsLevExpand k base m (1 - (lev + 1) % 2) ((lev + 1) % 2) sl (lev + 1) qt (r tid) tid) fun s =>
    bfsLevLoop sz k base T m sl sc fuel (lev + 1) qt (onTeam T fun t => (s t).1) (onTeam T fun t => (s t).2) (max wd n)

/-- RCM.cpp:292-311: the start; returns the degree of the source. -/
def bfsLevStart (k : Nat) (sl : Bool) (src : Int) : Prog (CTy R) Int := do
  let _ ← (if sl then Prog.write (ty := CTy R) bfsLev src (0 : Int) else pure () : Prog (CTy R) Unit)
  bfsStart k src

/-- RCM.cpp:285-460 `bfs_<BASE, SET_LEVEL, false>`. Returns numLevels, the final *width and the final qTail[numLevels%2]. -/
def bfsLevPar (sz : CArr → Int) (k base T m : Nat) (sl : Bool) (sc : Option Int) (wd src : Int) : Script (CTy R) (Int × Int × (Nat → Int)) :=
  Script.seq sz (bfsLevStart k sl src) fun d =>
  bfsLevLoop sz k base T m sl sc (m + 2) 0 (fun _ => 0) (onTeam T fun t => if t = 0 then 1 else 0) (onTeam T fun t => if t = 0 then d else 0) wd

/-- RCM.cpp:545-554 initializeBitVector: iteration `i` clears the bit of the `i`-th node from `st` on. -/
def bfsUnmark (m : Nat) (st : Int) (i : Nat) : Prog (CTy R) Unit := do
  let u ← Prog.read (ty := CTy R) (.itmp 5) (st + i)
  Prog.assert (ty := CTy R) (0 ≤ (u : Int) ∧ (u : Int) < m)
  let _ ← Prog.atomic (ty := CTy R) bfsBits (u : Int) (fun _ => (0 : Int))
  pure ()

end SpMP
