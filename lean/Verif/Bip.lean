import Verif.Bfs
/-
Breadth-first numbering of a bipartite graph, bfsBipartite (/repo/reordering/BFSBipartite.cpp:542-817). Side 0 are the rows of A, side 1
its columns, that is the rows of AT. `k s` is the object whose rows are side `s` (k 0 = A, k 1 = AT).
Arrays: `itmp 10`, `itmp 11` = aux.q[0], aux.q[1]; `itmp 20` = aux.rowptrs; `itmp 30`, `itmp 31` = bv1, bv2; `itmp 32`, `itmp 33` =
rowInversePerm, colInversePerm; `itmp 34`, `itmp 35` = rowPerm, colPerm.

Simplifications: as in Verif/Bfs.lean (barriers separate phases, `int` does not overflow, counters are handed from phase to phase, row
bounds of a node are read once, one byte per element of a BitVector). Both matrices have the same index base (the code uses A's). The
checks under `#ifndef NDEBUG` (693-717) and the four isPerm assertions at the end, whose truth is what C46 states, are left out; the
assertions on the totals (810-811) are kept.
-/

namespace SpMP
open Spec

variable {R : Type}

/-- The bit vectors of rows (`s` = 0) and columns (BFSBipartite.cpp:726-729). -/
abbrev bipBits (s : Nat) : CArr := .itmp (30 + s)
/-- The inverse permutations of rows and columns, arguments of the function. -/
abbrev bipInv (s : Nat) : CArr := .itmp (32 + s)
/-- The permutations of rows and columns, arguments of the function. -/
abbrev bipPrm (s : Nat) : CArr := .itmp (34 + s)

/-- Allocations: BFSBipartite.cpp:443-457 (bfsAuxData of max(A.m, A.n)), 726-729; the permutations have one element per row or column.
`n s` is the number of nodes of side `s`. -/
def bipSize (sz : CArr → Int) (n : Nat → Nat) (T : Nat) : CArr → Int
  | .itmp 10 => ((max (n 0) (n 1) : Nat) : Int) * T
  | .itmp 11 => ((max (n 0) (n 1) : Nat) : Int) * T
  | .itmp 20 => (T : Int) * ((max (n 0) (n 1) : Nat) : Int)
  | .itmp 30 => n 0
  | .itmp 31 => n 1
  | .itmp 32 => n 0
  | .itmp 33 => n 1
  | .itmp 34 => n 0
  | .itmp 35 => n 1
  | a => sz a

/-- BitVector.hpp:54-63 testAndSet on the bits of side `s`. -/
def bipTas (s : Nat) (v : Int) : Prog (CTy R) Bool := do
  let b ← Prog.read (ty := CTy R) (bipBits s) v
  if (b : Int) = 0 then do
    let old ← Prog.atomic (ty := CTy R) (bipBits s) v (fun _ => (1 : Int))
    pure (decide ((old : Int) = 0))
  else pure false

/-- BFSBipartite.cpp:678-682: append `v` as element `c` of the queue at offset `o`, and its degree in the next matrix to the sums. -/
def bipPush (kn p : Nat) (o c v : Int) : Prog (CTy R) Unit := do
  Prog.write (ty := CTy R) (bfsQ p) (o + c) v
  let r ← Prog.read (ty := CTy R) bufA (o + c)
  let e ← Prog.read (ty := CTy R) (.rowptr kn) (v + 1)
  let d ← Prog.read (ty := CTy R) (.rowptr kn) v
  Prog.write (ty := CTy R) bufA (o + c + 1) ((r : Int) + e - d)

/-- BFSBipartite.cpp:675-684: the neighbours of `u`. `kc`, `kn` are currA, nextA; `s'` is the side of the neighbours. -/
def bipRow (kc kn base s' p : Nat) (o u c : Int) : Prog (CTy R) Int := do
  let lo ← Prog.read (ty := CTy R) (.rowptr kc) u
  let hi ← Prog.read (ty := CTy R) (.rowptr kc) (u + 1)
  Prog.forUp (ty := CTy R) ((lo : Int) - base) ((hi : Int) - base) c fun j c => do
    let v ← Prog.read (ty := CTy R) (.colidx kc) j
    let w ← bipTas s' ((v : Int) - base)
    if w then do
      bipPush kn p o c ((v : Int) - base)
      pure (c + 1)
    else pure c

/-- BFSBipartite.cpp:658-661: copy the thread's queue `p` to `visited` of side `s`, at position `b`. -/
def bipCopy (mx p s : Nat) (b : Int) (qt P : Nat → Int) (tid : Nat) : Prog (CTy R) Unit :=
  Prog.forUp (ty := CTy R) 0 (qt tid) () fun x _ => do
    let v ← Prog.read (ty := CTy R) (bfsQ p) ((tid : Int) * mx + x)
    Prog.write (ty := CTy R) (bipInv s) (b + P tid + x) (v : Int)

/-- BFSBipartite.cpp:665-689: traverse the part `r` of the frontier in queues `p`, fill the thread's queue in `p'`. Returns qTail and
nnzPrefixSum[tid+1]. -/
def bipExpand (kc kn base mx s' p p' : Nat) (qt : Nat → Int) (r : (Int × Int) × (Int × Int)) (tid : Nat) : Prog (CTy R) (Int × Int) := do
  Prog.write (ty := CTy R) bufA ((tid : Int) * mx) (0 : Int)
  let c ← Prog.forUp (ty := CTy R) r.1.1 (r.2.1 + 1) (0 : Int) fun t c =>
    Prog.forUp (ty := CTy R) (if t = r.1.1 then r.1.2 else 0) (if t = r.2.1 then r.2.2 else qt t.toNat) c fun i c => do
      let u ← Prog.read (ty := CTy R) (bfsQ p) (t * mx + i)
      bipRow kc kn base s' p' ((tid : Int) * mx) (u : Int) c
  let n ← Prog.read (ty := CTy R) bufA ((tid : Int) * mx + c)
  pure (c, (n : Int))

/-- The side of level `lev` of a search that starts on side `c` (BFSBipartite.cpp:588-601). -/
def bipSide (c lev : Nat) : Nat := (c + lev) % 2

/-- BFSBipartite.cpp:584-690: the loop over levels. `lev` is numLevels, `nv s` is *nVisited of side `s`, `off s` the position of `visited`
of side `s`. The partition (617-656) is that of RCM.cpp. The first number bounds the iterations; running out of it is a failure. -/
def bipLoop (sz : CArr → Int) (k : Nat → Nat) (base T mx c : Nat) (off : Nat → Int) :
    Nat → Nat → (Nat → Int) → (Nat → Int) → (Nat → Int) → Script (CTy R) (Nat → Int)
  | 0, _, _, _, _ => Script.seq sz (Prog.fail : Prog (CTy R) Unit) fun _ => .done (fun _ => 0)
  | fuel + 1, lev, qt, nz, nv =>
    let P := psum qt
    let N := psum nz
    if P T = 0 then .done nv else
    .phase sz T (fun tid => do
      bipCopy mx (1 - (lev + 1) % 2) (bipSide c lev) (off (bipSide c lev) + nv (bipSide c lev)) qt P tid
      bfsPart T mx qt N tid) fun r =>
    .phase sz T (fun tid => bipExpand (k (bipSide c lev)) (k (bipSide c (lev + 1))) base mx (bipSide c (lev + 1))
      (1 - (lev + 1) % 2) ((lev + 1) % 2) qt (r tid) tid) fun s =>
    bipLoop sz k base T mx c off fuel (lev + 1) (onTeam T fun t => (s t).1) (onTeam T fun t => (s t).2)
      (Function.update nv (bipSide c lev) (nv (bipSide c lev) + P T))

/-- BFSBipartite.cpp:552-572: the start on side `c`; returns the degree of the source. -/
def bipStart (kc c : Nat) (src : Int) : Prog (CTy R) Int := do
  let _ ← Prog.read (ty := CTy R) (bipBits c) src
  Prog.write (ty := CTy R) (bipBits c) src (1 : Int)
  Prog.write (ty := CTy R) (bfsQ 0) 0 src
  Prog.write (ty := CTy R) bufA 0 (0 : Int)
  let e ← Prog.read (ty := CTy R) (.rowptr kc) (src + 1)
  let d ← Prog.read (ty := CTy R) (.rowptr kc) src
  Prog.write (ty := CTy R) bufA 1 ((e : Int) - d)
  pure ((e : Int) - d)

/-- BFSBipartite.cpp:542-720 bfs from node `src` of side `c`; `n s` is the number of nodes of side `s`. Returns *nVisited of both sides. -/
def bipBfs (sz : CArr → Int) (k : Nat → Nat) (base T : Nat) (n : Nat → Nat) (c : Nat) (off : Nat → Int) (src : Int) :
    Script (CTy R) (Nat → Int) :=
  Script.seq sz (bipStart (k c) c src) fun d =>
  bipLoop sz k base T (max (n 0) (n 1)) c off (n 0 + n 1 + 2) 0 (onTeam T fun t => if t = 0 then 1 else 0)
    (onTeam T fun t => if t = 0 then d else 0) (fun _ => 0)

/-- What to do with a node (BFSBipartite.cpp:738-747, 773-782). -/
inductive BipKind
  | visited | single | search

/-- BFSBipartite.cpp:738-747 (773-782): look at node `i` of side `c`; a node without entries is placed at `idx`. -/
def bipHead (kc c : Nat) (idx : Int) (i : Nat) : Prog (CTy R) BipKind := do
  let b ← Prog.read (ty := CTy R) (bipBits c) (i : Int)
  if (b : Int) ≠ 0 then pure .visited else do
  let e ← Prog.read (ty := CTy R) (.rowptr kc) ((i : Int) + 1)
  let d ← Prog.read (ty := CTy R) (.rowptr kc) (i : Int)
  if (e : Int) = d then do
    Prog.write (ty := CTy R) (bipInv c) idx (i : Int)
    Prog.write (ty := CTy R) (bipPrm c) (i : Int) idx
    pure .single
  else pure .search

/-- BFSBipartite.cpp:757-764 (792-799): number the nodes of side `s` at positions `off .. off+n-1`; iterations in any order. -/
def bipNumber (s : Nat) (off : Int) (i : Nat) : Prog (CTy R) Unit := do
  let v ← Prog.read (ty := CTy R) (bipInv s) (off + i)
  Prog.write (ty := CTy R) (bipPrm s) (v : Int) (off + i)

/-- BFSBipartite.cpp:749-769 (784-804): the rest of an iteration. `idx s` is rowPermIdx or colPermIdx; returns the new ones. -/
def bipNode (sz : CArr → Int) (k : Nat → Nat) (base T : Nat) (n : Nat → Nat) (c : Nat) (idx : Nat → Int) (i : Nat) :
    BipKind → Script (CTy R) (Nat → Int)
  | .visited => .done idx
  | .single => .done (Function.update idx c (idx c + 1))
  | .search => (bipBfs sz k base T n c idx (i : Int)).bind fun nv =>
      .phase sz (nv 0).toNat (bipNumber 0 (idx 0)) fun _ =>
      .phase sz (nv 1).toNat (bipNumber 1 (idx 1)) fun _ => .done (fun s => idx s + nv s)

/-- BFSBipartite.cpp:737-771 (side 0), 772-806 (side 1): the first `i` nodes of side `c`. -/
def bipNodes (sz : CArr → Int) (k : Nat → Nat) (base T : Nat) (n : Nat → Nat) (c : Nat) (idx0 : Nat → Int) : Nat → Script (CTy R) (Nat → Int)
  | 0 => .done idx0
  | i + 1 => (bipNodes sz k base T n c idx0 i).bind fun idx =>
      Script.seq sz (bipHead (k c) c (idx c) i) fun h => bipNode sz k base T n c idx i h

/-- BFSBipartite.cpp:724-817 bfsBipartite. -/
def bfsBipartite (sz : CArr → Int) (k : Nat → Nat) (base T : Nat) (n : Nat → Nat) : Script (CTy R) Unit :=
  let sz1 := bipSize sz n T
  .phase sz1 (n 0) (fun i => Prog.write (ty := CTy R) (bipBits 0) (i : Int) (0 : Int)) fun _ =>
  .phase sz1 (n 1) (fun i => Prog.write (ty := CTy R) (bipBits 1) (i : Int) (0 : Int)) fun _ =>
  (bipNodes sz1 k base T n 0 (fun _ => 0) (n 0)).bind fun idx =>
  (bipNodes sz1 k base T n 1 idx (n 1)).bind fun idx =>
  Script.seq sz1 (do
    Prog.assert (ty := CTy R) (idx 0 = n 0)
    Prog.assert (ty := CTy R) (idx 1 = n 1)) fun _ => .done ()

end SpMP
