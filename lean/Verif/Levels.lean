import Verif.Partition
import Verif.CsrDiag
import Verif.Spec.Level
/-
Level search of the level scheduler (/repo/LevelSchedule.cpp:190-436 and 498-572).

Simplifications: barriers separate phases (the barrier itself is C40, C41); `int` does not overflow; the per-thread counters
qTail, nnzPrefixSum and qTailPrefixSum are handed from phase to phase as results instead of being stored; failed assertions inside a
parallel traversal are recorded and stop the program at the end of that phase; time measurement is left out.
-/

namespace SpMP
open Spec

variable {R : Type}

/-- The integer buffer holding q, rowPtrs and nparents (LevelSchedule.cpp:508-519). -/
abbrev bufA : CArr := .itmp 20
/-- `reversePerm`, the rows in level order (LevelSchedule.cpp:505). -/
abbrev revA : CArr := .itmp 21

/-- `max(nthreads, n + nthreads - 1)` (LevelSchedule.cpp:508, 540). -/
def lvMx (T m : Nat) : Nat := max T (m + T - 1)
/-- `max(nthreads, n + nthreads - 1)/nthreads*2` (LevelSchedule.cpp:540-541). -/
def lvCap (T m : Nat) : Nat := lvMx T m / T * 2
/-- Start of `q[t]` in the buffer (LevelSchedule.cpp:540). -/
def qOff (T m t : Nat) : Int := ((lvCap T m * t : Nat) : Int)
/-- Start of `rowPtrs[t]` in the buffer (LevelSchedule.cpp:541). -/
def rOff (T m t : Nat) : Int := ((lvMx T m * 2 + lvCap T m * t : Nat) : Int)
/-- Start of `nparents` in the buffer (LevelSchedule.cpp:510, 515). -/
def npOff (T m : Nat) : Int := ((lvMx T m * 4 : Nat) : Int)

/-- `extptr[i]`, where a missing extptr is `rowptr + 1` (LevelSchedule.cpp:469-471). -/
def extAt (hasExt : Bool) (i : Int) : Prog (CTy R) Int :=
  if hasExt then Prog.read (ty := CTy R) (.extptr 0) i else Prog.read (ty := CTy R) (.rowptr 0) (i + 1)

/-- `*tailPtr = succ; *(rowPtr + 1) = *rowPtr + extptr[succ] - diagptr[succ] - 1` with tailPtr = `qa[qb + k]`, rowPtr = `rb + k`
(LevelSchedule.cpp:331-332, 410-412, 551-552). -/
def pushRow (hasExt : Bool) (qa : Nat) (qb rb k succ : Int) : Prog (CTy R) Unit := do
  Prog.write (ty := CTy R) (.itmp qa) (qb + k) succ
  let v ← Prog.read (ty := CTy R) bufA (rb + k)
  let e ← extAt hasExt succ
  let d ← Prog.read (ty := CTy R) (.diagptr 0) succ
  Prog.write (ty := CTy R) bufA (rb + k + 1) (v + e - d - 1)

/-- Initial counters and ready rows, for the rows `lo .. hi-1` of one thread (LevelSchedule.cpp:543-560). Returns qTail and
nnzPrefixSum[tid+1]. -/
def firstReady (hasExt : Bool) (T m : Nat) (lo hi : Nat) (tid : Nat) : Prog (CTy R) (Int × Int) := do
  Prog.write (ty := CTy R) bufA (rOff T m tid) 0
  let k ← Prog.forUp (lo : Int) (hi : Int) (0 : Int) fun i k => do
    let d ← Prog.read (ty := CTy R) (.diagptr 0) i
    let r ← Prog.read (ty := CTy R) (.rowptr 0) i
    Prog.write (ty := CTy R) bufA (npOff T m + i) (d - r)
    if d - r = 0 then do
      pushRow hasExt 20 (qOff T m tid) (rOff T m tid) k i
      pure (k + 1)
    else pure k
  let v ← Prog.read (ty := CTy R) bufA (rOff T m tid + k)
  pure (k, v)

/-- std::upper_bound of `x` in `[first, last)`, as lower_bound of `x + 1`, which is the same on integers. -/
def upperBound (get : Int → Prog (CTy R) Int) (first last x : Int) : Prog (CTy R) Int := lowerBound get first last (x + 1)

/-- `a[t+1] = a[t] + f(t)`, `a[0] = 0` (the sums of LevelSchedule.cpp:263-269). -/
def psum (f : Nat → Int) : Nat → Int
  | 0 => 0
  | t + 1 => psum f t + f t

/-- One thread's part of the copy of the thread queues into `reversePerm` (LevelSchedule.cpp:281-302); `qt t` is qTail[t*16], `P`
is qTailPrefixSum. A negative size for memcpy is a failure. -/
def copyQueues (T m : Nat) (qt P : Nat → Int) (begin_ : Int) (tid : Nat) : Prog (CTy R) Unit := do
  let iPer := (P T + T - 1) / T
  let end_ := begin_ + P T
  let iBegin := min (begin_ + iPer * tid) end_
  let iEnd := min (iBegin + iPer) end_
  let tB ← upperBound (fun t => pure (P t.toNat)) 0 (T + 1) (iPer * tid)
  let tE ← upperBound (fun t => pure (P t.toNat)) 0 (T + 1) (iPer * (tid + 1))
  Prog.forUp (tB - 1) (min (tE - 1) (T - 1) + 1) () fun t _ => do
    let b := max 0 (iBegin - begin_ - P t.toNat)
    let e := min (qt t.toNat) (iEnd - begin_ - P t.toNat)
    if e < b then Prog.fail else
    Prog.forUp b e () fun x _ => do
      let v ← Prog.read (ty := CTy R) bufA (qOff T m t.toNat + x)
      Prog.write (ty := CTy R) revA (begin_ + P t.toNat + x) v

/-- One bound of the part of a thread: the first row whose work starts after `per * u` (LevelSchedule.cpp:353-386). -/
def cutAt (T m : Nat) (qt P N : Nat → Int) (per : Int) (u : Nat) : Prog (CTy R) Int := do
  let t ← upperBound (fun t => pure (N t.toNat)) 0 (T + 1) (per * u)
  let t := t - 1
  if t = T then pure (P T) else do
    let x ← upperBound (fun j => Prog.read (ty := CTy R) bufA j) (rOff T m t.toNat) (rOff T m t.toNat + qt t.toNat) (per * u - N t.toNat)
    pure (x - rOff T m t.toNat - 1 + P t.toNat)

/-- The part `[iBegin, iEnd)` of the level that a thread traverses (LevelSchedule.cpp:352-386), relative to the level's begin. -/
def partLevel (T m : Nat) (qt P N : Nat → Int) (tid : Nat) : Prog (CTy R) (Int × Int) := do
  let per := (N T + T - 1) / T
  let b ← (if tid = 0 then pure 0 else cutAt T m qt P N per tid : Prog (CTy R) Int)
  let e ← cutAt T m qt P N per (tid + 1)
  pure (b, e)

/-- Traversal of rows `reversePerm[lo..hi)` by one thread of the team (LevelSchedule.cpp:398-422). Returns qTail,
nnzPrefixSum[tid+1] and whether all assertions held. -/
def traverse (hasExt : Bool) (base T m : Nat) (lo hi : Int) (tid : Nat) : Prog (CTy R) (Int × Int × Bool) := do
  Prog.write (ty := CTy R) bufA (rOff T m tid) 0
  let s ← Prog.forUp lo hi ((0 : Int), true) fun i s => do
    let pred ← Prog.read (ty := CTy R) revA i
    let d ← Prog.read (ty := CTy R) (.diagptr 0) pred
    let e ← extAt hasExt pred
    Prog.forUp (d + 1) e s fun j s => do
      let c ← Prog.read (ty := CTy R) (.colidx 0) (j - base)
      let succ := c - base
      if succ ≥ m then pure s else do
        let old ← Prog.atomic (ty := CTy R) bufA (npOff T m + succ) (fun v => v - 1)
        let k ← (if old = 1 then do
          pushRow hasExt 20 (qOff T m tid) (rOff T m tid) s.1 succ
          pure (s.1 + 1)
        else pure s.1 : Prog (CTy R) Int)
        let now ← Prog.read (ty := CTy R) bufA (npOff T m + succ)
        pure (k, s.2 && decide (now ≥ 0))
  let v ← Prog.read (ty := CTy R) bufA (rOff T m tid + s.1)
  pure (s.1, v, s.2)

/-- Traversal of a small level `reversePerm[lo..hi)` by thread 0 alone, which appends the next level to `reversePerm`
(LevelSchedule.cpp:317-341). Returns qTail[0] and nnzPrefixSum[1]. -/
def traverseSerial (hasExt : Bool) (base T m : Nat) (lo hi : Int) : Prog (CTy R) (Int × Int) := do
  Prog.write (ty := CTy R) bufA (rOff T m 0) 0
  let k ← Prog.forUp lo hi (0 : Int) fun i k => do
    let pred ← Prog.read (ty := CTy R) revA i
    let d ← Prog.read (ty := CTy R) (.diagptr 0) pred
    let e ← extAt hasExt pred
    Prog.forUp (d + 1) e k fun j k => do
      let c ← Prog.read (ty := CTy R) (.colidx 0) (j - base)
      let succ := c - base
      if succ ≥ m then pure k else do
        let v ← Prog.read (ty := CTy R) bufA (npOff T m + succ)
        Prog.write (ty := CTy R) bufA (npOff T m + succ) (v - 1)
        Prog.assert (v - 1 ≥ 0)
        if v - 1 = 0 then do
          pushRow hasExt 21 hi (rOff T m 0) k succ
          pure (k + 1)
        else pure k
  let v ← Prog.read (ty := CTy R) bufA (rOff T m 0 + k)
  pure (k, v)

/-- The per-thread values of a team of `T` threads; the entries past the team do not exist in the code and are never used. -/
def onTeam (T : Nat) (f : Nat → Int) (t : Nat) : Int := if t < T then f t else 0

/-- The loop over levels (LevelSchedule.cpp:221-427). `ser` is prevIterSerial; `qt`, `nz` are the results of the last traversal;
`lev` is levIndices. After a serial iteration the sums are those of LevelSchedule.cpp:238, 250-251. The first argument bounds the
number of iterations; running out of it is a failure. -/
def levelLoop (sz : CArr → Int) (hasExt : Bool) (base T m : Nat) : Nat → Bool → (Nat → Int) → (Nat → Int) → Int → List Int →
    Script (CTy R) (List Int)
  | 0, _, _, _, _, _ => .seq sz (Prog.fail : Prog (CTy R) Unit) fun _ => .done []
  | fuel + 1, ser, qt, nz, begin_, lev =>
    let P : Nat → Int := if ser then (fun t => if t = 0 then 0 else qt 0) else psum qt
    let N : Nat → Int := if ser then (fun t => if t = 0 then 0 else nz 0) else psum nz
    let end_ := begin_ + P T
    if P T = 0 then .done lev
    else if P T < (if ser then 128 else 64) then
      (if ser then .done () else .phase sz T (copyQueues T m qt P begin_) fun _ => .done () : Script (CTy R) Unit).bind fun _ =>
      .seq sz (traverseSerial hasExt base T m begin_ end_) fun r =>
      levelLoop sz hasExt base T m fuel true (fun _ => r.1) (fun _ => r.2) end_ (lev ++ [end_])
    else
      .phase sz T (fun tid => do
        let _ ← (if ser then pure () else copyQueues T m qt P begin_ tid : Prog (CTy R) Unit)
        partLevel T m qt P N tid) fun ie =>
      .phase sz T (fun tid => traverse hasExt base T m (begin_ + (ie tid).1) (begin_ + (ie tid).2) tid) fun r =>
      .seq sz (Prog.assert (∀ t, t < T → (r t).2.2 = true)) fun _ =>
      levelLoop sz hasExt base T m fuel false (onTeam T fun t => (r t).1) (onTeam T fun t => (r t).2.1) end_ (lev ++ [end_])

/-- Initialisation and level search (LevelSchedule.cpp:524-572). `cb t` is the first row of thread `t` in the `omp for`. Returns
levIndices; `reversePerm` is left in memory. -/
def findLevels (sz : CArr → Int) (hasExt : Bool) (base T m : Nat) (cb : Nat → Nat) : Script (CTy R) (List Int) :=
  .phase sz T (fun tid => firstReady hasExt T m (cb tid) (cb (tid + 1)) tid) fun r =>
  levelLoop sz hasExt base T m (m + 1) false (onTeam T fun t => (r t).1) (onTeam T fun t => (r t).2) 0 [0]

end SpMP
