import Verif.BfsLev
import Verif.CsrMetrics
/-
The choice of a source for a large component: getMinDegreeNode, initializeBitVector, selectSourcesWithPseudoDiameter
(/repo/reordering/RCM.cpp:480-646). The matrix is 0-based (getRCMPermutation makes it so). The nodes of the component are the `n` elements
of nodesSortedByComp (`itmp 5`) from `st` on; `itmp 26` = aux.candidates. Simplified: `omp for` distributes iterations by a function; every
call of initializeBitVector for a component distributes them in the same way; local_min, local_min_idx and qTail are handed from phase to
phase; `!adjacent` in loop conditions is a test in the body.
-/

namespace SpMP
open Spec

variable {R : Type}

/-- aux.candidates (RCM.cpp:190, 569). -/
abbrev rcmCand : CArr := .itmp 26

/-- RCM.cpp:545-554 initializeBitVector, thread `t`. -/
def rcmClear (m n : Nat) (pa : Nat → Nat) (st : Int) (t : Nat) : Prog (CTy R) Unit :=
  Prog.forUp (ty := CTy R) 0 (n : Int) () fun x _ => if pa x.toNat = t then bfsUnmark m st x.toNat else pure ()

/-- A->rowptr[u + 1] - A->rowptr[u]. -/
def selDeg (k : Nat) (u : Int) : Prog (CTy R) Int := do
  let hi ← Prog.read (ty := CTy R) (.rowptr k) (u + 1)
  let lo ← Prog.read (ty := CTy R) (.rowptr k) u
  pure ((hi : Int) - (lo : Int))

/-- RCM.cpp:497-511, thread `t`: its smallest degree and a node of that degree. -/
def minDegThread (k n : Nat) (pa : Nat → Nat) (st : Int) (t : Nat) : Prog (CTy R) (Int × Int) :=
  Prog.forUp (ty := CTy R) 0 (n : Int) (intMax, (-1 : Int)) fun i s =>
    if pa i.toNat = t then do
      let u ← Prog.read (ty := CTy R) (.itmp 5) (st + i)
      let d ← selDeg k (u : Int)
      pure (if d < s.1 then (d, (u : Int)) else s)
    else pure s

/-- RCM.cpp:515-525: the master's choice among the first threads. -/
def minDegPick (r : Nat → Int × Int) : Nat → Int × Int
  | 0 => (intMax, -1)
  | t + 1 => if (r t).1 < (minDegPick r t).1 then r t else minDegPick r t

/-- RCM.cpp:577-584: the nodes of the last level, from queues `p` with lengths `qt`; returns nCandidates. -/
def selGather (T m p : Nat) (qt : Nat → Int) : Prog (CTy R) Int :=
  Prog.forUp (ty := CTy R) 0 (T : Int) (0 : Int) fun t c =>
    Prog.forUp (ty := CTy R) 0 (qt t.toNat) c fun j c => do
      let u ← Prog.read (ty := CTy R) (bfsQ p) (t * m + j)
      Prog.write (ty := CTy R) rcmCand c (u : Int)
      pure (c + 1)

/-- RCM.cpp:591-597: insert `c` of degree `d` among the first candidates; the argument is j + 1. -/
def selShift (k : Nat) (c d : Int) : Nat → Prog (CTy R) Unit
  | 0 => Prog.write (ty := CTy R) rcmCand 0 c
  | j + 1 => do
    let v ← Prog.read (ty := CTy R) rcmCand (j : Int)
    let e ← selDeg k (v : Int)
    if d < e then do
      Prog.write (ty := CTy R) rcmCand ((j : Int) + 1) (v : Int)
      selShift k c d j
    else Prog.write (ty := CTy R) rcmCand ((j : Int) + 1) c

/-- RCM.cpp:586-598: sort by degree. -/
def selSort (k : Nat) (n : Int) : Prog (CTy R) Unit :=
  Prog.forUp (ty := CTy R) 1 n () fun i _ => do
    let c ← Prog.read (ty := CTy R) rcmCand i
    let d ← selDeg k (c : Int)
    selShift k (c : Int) d i.toNat

/-- RCM.cpp:605-607, 610-612: is `v` among the first `o` candidates? -/
def selHas (o v : Int) : Prog (CTy R) Bool :=
  Prog.forUp (ty := CTy R) 0 o false fun q a =>
    if a then pure true else do
      let x ← Prog.read (ty := CTy R) rcmCand q
      pure (decide ((x : Int) = v))

/-- RCM.cpp:604-613: is `u` chosen already or adjacent to one of the first `o` candidates? -/
def selAdj (k : Nat) (o u : Int) : Prog (CTy R) Bool := do
  let a ← selHas o u
  let lo ← Prog.read (ty := CTy R) (.rowptr k) u
  let hi ← Prog.read (ty := CTy R) (.rowptr k) (u + 1)
  Prog.forUp (ty := CTy R) (lo : Int) (hi : Int) a fun j a =>
    if a then pure true else do
      let v ← Prog.read (ty := CTy R) (.colidx k) j
      selHas o (v : Int)

/-- RCM.cpp:600-617: keep at most five candidates; returns outIdx. -/
def selPick (k : Nat) (n : Int) : Prog (CTy R) Int :=
  Prog.forUp (ty := CTy R) 1 n (1 : Int) fun i o =>
    if o < 5 then do
      let u ← Prog.read (ty := CTy R) rcmCand i
      let a ← selAdj k o (u : Int)
      if a then pure o else do
        Prog.write (ty := CTy R) rcmCand o (u : Int)
        pure (o + 1)
    else pure o

/-- RCM.cpp:577-619. -/
def selCands (k T m p : Nat) (qt : Nat → Int) : Prog (CTy R) Int := do
  let n ← selGather T m p qt
  selSort k n
  selPick k n

/-- RCM.cpp:621-642: the loop over candidates from the `i`-th on, `left` of them; `dia` is diameter, `mw` minWidth. Returns s and e. -/
def selWidths (sz : CArr → Int) (T k m n : Nat) (clr : Nat → Nat) (st dia : Int) : Nat → Nat → Int → Int → Int → Script (CTy R) (Int × Int)
  | 0, _, _, s, e => .done (s, e)
  | left + 1, i, mw, s, e =>
    .phase sz T (rcmClear m n clr st) fun _ =>
    Script.seq sz (Prog.read (ty := CTy R) rcmCand (i : Int)) fun c =>
    (bfsLevPar sz k 0 T m false (some mw) intMin (c : Int)).bind fun r =>
    if r.1 = -1 then selWidths sz T k m n clr st dia left (i + 1) mw s e
    else if dia < r.1 ∧ r.2.1 < mw then .done ((c : Int), -1)
    else if r.2.1 < mw then selWidths sz T k m n clr st dia left (i + 1) r.2.1 s (c : Int)
    else selWidths sz T k m n clr st dia left (i + 1) mw s e

/-- RCM.cpp:573-574: clear the marks, except the first time. -/
def selReset (sz : CArr → Int) (T m n : Nat) (clr : Nat → Nat) (st : Int) (first : Bool) : Script (CTy R) Unit :=
  if first then .done () else .phase sz T (rcmClear m n clr st) fun _ => .done ()

/-- RCM.cpp:572-643: the loop `while (e == -1)`; its first argument bounds the iterations, running out of it is a failure. -/
def selLoop (sz : CArr → Int) (T k m n : Nat) (clr : Nat → Nat) (st : Int) : Nat → Bool → Int → Script (CTy R) Int
  | 0, _, _ => Script.seq sz (Prog.fail : Prog (CTy R) Unit) fun _ => .done (-1)
  | fuel + 1, first, s =>
    (selReset sz T m n clr st first).bind fun _ =>
    (bfsLevPar sz k 0 T m false none 0 s).bind fun r =>
    Script.seq sz (selCands k T m (r.1.toNat % 2) r.2.2) fun nc =>
    (selWidths sz T k m n clr st r.1 nc.toNat 0 intMax s (-1)).bind fun q =>
    if q.2 = -1 then selLoop sz T k m n clr st fuel false q.1 else .done q.1

/-- RCM.cpp:561-646 selectSourcesWithPseudoDiameter. `pa` distributes the iterations of getMinDegreeNode. -/
def selectSource (sz : CArr → Int) (T k m n : Nat) (pa clr : Nat → Nat) (st : Int) : Script (CTy R) Int :=
  .phase sz T (minDegThread k n pa st) fun r =>
  selLoop sz T k m n clr st (m + 2) true (minDegPick r T).2

end SpMP
