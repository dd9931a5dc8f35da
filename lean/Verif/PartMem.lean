import Verif.StdLib
import Verif.TaskPart
import Verif.Levels
import Verif.Perm
import Verif.TgMem
/-
Memory-level model of the second half of findLevels_ (/repo/LevelSchedule.cpp:589-798) and of constructTaskGraph_ as a whole
(LevelSchedule.cpp:800-1763): the levels found before are sorted and cut into one task per thread, and the tasks are laid out thread by
thread. TaskPart.lean models the same lines with functional arrays.

Arrays: itmp 21 reversePerm, 50 bBuffer, 51 and 52 the two components of taskRows, 53 rowPartialSum, 31 threadBoundaries,
30 taskBoundaries, 54 origToThreadContPerm, 32 threadContToOrigPerm. levIndices, a std::vector read by every thread and written by
none of them here, is passed as a list.

Simplifications: `int` is unbounded; memory pool, deallocation and time measurement are left out; `reversePerm[j]` is read once per row
where the source reads it two or three times.
-/

namespace SpMP
open Spec

variable {R : Type}

/-- `costFunction.getCostOf(row)`: a caller's function of the row (LevelSchedule.hpp:128-138), or PrefixSumCostFunction(rowptr), the
default (LevelSchedule.hpp:140-147, LevelSchedule.cpp:126). -/
def costOf (cf : Option (Int → Int)) (row : Int) : Prog (CTy R) Int :=
  match cf with
  | some f => pure (f row)
  | none => do
    let e ← Prog.read (ty := CTy R) (.rowptr 0) (row + 1)
    let b ← Prog.read (ty := CTy R) (.rowptr 0) row
    pure ((e : Int) - b)

/-- LevelSchedule.cpp:623-628: prefix sums of the costs of a level; returns the total cost. -/
def lvPrefix (cf : Option (Int → Int)) (lb le : Int) : Prog (CTy R) Int :=
  Prog.forUp lb le (0 : Int) fun i nnz => do
    Prog.write (ty := CTy R) (.itmp 50) i nnz
    let r ← Prog.read (ty := CTy R) (.itmp 21) i
    let c ← costOf cf r
    pure (nnz + c)

/-- LevelSchedule.cpp:636-648: the new `r` (the divisions are of numbers that are not negative). -/
def cutPointI (agg : Bool) (le t r newr : Int) : Int :=
  if agg then
    if t = 0 then min (r + (newr - r + 7) / 8 * 8) le
    else min (r - 1 + (newr - r + 1 + 7) / 8 * 8) le
  else newr

/-- LevelSchedule.cpp:629-665: the loop over threads of level `l`, from thread `t` on; returns `t` at the end of the loop. -/
def lvCuts (agg : Bool) (nlev l : Nat) (per le : Int) : Nat → Int → Int → Int → Prog (CTy R) Int
  | 0, t, _, _ => pure t
  | fuel + 1, t, r, prevEnd => do
    let newr ← lowerBound (ty := CTy R) (fun i => Prog.read (ty := CTy R) (.itmp 50) i) r le ((t + 1) * per)
    let r := cutPointI agg le t r newr
    let e := min r le
    Prog.write (ty := CTy R) (.itmp 51) (t * nlev + l) prevEnd
    Prog.write (ty := CTy R) (.itmp 52) (t * nlev + l) e
    if agg && decide (le ≤ e) then pure t else lvCuts agg nlev l per le fuel (t + 1) (r + 1) e

/-- LevelSchedule.cpp:667-681: move the tasks of level `l` to the last threads, give the first ones empty tasks. -/
def lvShift (T nlev l : Nat) (lb t : Int) : Prog (CTy R) Unit := do
  Prog.forDown (t + 1) 0 () fun i _ => do
    let b ← Prog.read (ty := CTy R) (.itmp 51) (i * nlev + l)
    let e ← Prog.read (ty := CTy R) (.itmp 52) (i * nlev + l)
    Prog.write (ty := CTy R) (.itmp 51) ((T - 1 - t + i) * nlev + l) b
    Prog.write (ty := CTy R) (.itmp 52) ((T - 1 - t + i) * nlev + l) e
  Prog.forUp 0 (T - t - 1) () fun i _ => do
    Prog.write (ty := CTy R) (.itmp 51) (i * nlev + l) lb
    Prog.write (ty := CTy R) (.itmp 52) (i * nlev + l) lb

/-- LevelSchedule.cpp:617-682, one level. -/
def lvTask (cf : Option (Int → Int)) (agg : Bool) (T nlev : Nat) (lev : List Int) (l : Nat) : Prog (CTy R) Unit := do
  let lb := lev.getD l 0
  let le := lev.getD (l + 1) 0
  stdSort 21 lb le
  let nnz ← lvPrefix cf lb le
  let per := (nnz + T - 1) / T
  let t ← lvCuts agg nlev l per le T 0 lb lb
  if agg then lvShift T nlev l lb t else pure ()

/-- LevelSchedule.cpp:702-712 and 716-726: number of rows and of tasks of thread `tid`. -/
def ptCount (useBarrier : Bool) (nlev tid : Nat) : Prog (CTy R) Unit := do
  let s ← Prog.forUp 0 (nlev : Int) ((0 : Int), (0 : Int)) fun i s => do
    let e ← Prog.read (ty := CTy R) (.itmp 52) (tid * nlev + i)
    let b ← Prog.read (ty := CTy R) (.itmp 51) (tid * nlev + i)
    let diff : Int := (e : Int) - b
    pure (s.1 + diff, if useBarrier || decide (diff ≠ 0) then s.2 + 1 else s.2)
  Prog.write (ty := CTy R) (.itmp 53) ((tid : Int) + 1) s.1
  Prog.write (ty := CTy R) (.itmp 31) ((tid : Int) + 1) s.2

/-- LevelSchedule.cpp:729-732: sums over the threads; returns `threadBoundaries[nthreads]` (741). -/
def ptSums (T : Nat) : Prog (CTy R) Int := do
  Prog.forUp 0 (T : Int) () fun t _ => do
    let a ← Prog.read (ty := CTy R) (.itmp 53) (t + 1)
    let b ← Prog.read (ty := CTy R) (.itmp 53) t
    Prog.write (ty := CTy R) (.itmp 53) (t + 1) ((a : Int) + b)
    let c ← Prog.read (ty := CTy R) (.itmp 31) (t + 1)
    let d ← Prog.read (ty := CTy R) (.itmp 31) t
    Prog.write (ty := CTy R) (.itmp 31) (t + 1) ((c : Int) + d)
  Prog.read (ty := CTy R) (.itmp 31) (T : Int)

/-- LevelSchedule.cpp:752-756 and 770-775: the rows of one task; returns rowOffset. -/
def ptRows (useBarrier : Bool) (b e ro : Int) : Prog (CTy R) Int :=
  Prog.forUp b e ro fun j ro => do
    let r ← Prog.read (ty := CTy R) (.itmp 21) j
    Prog.write (ty := CTy R) (.itmp 54) r ro
    Prog.assert (useBarrier = true ∨ (0 : Int) ≤ r)
    Prog.write (ty := CTy R) (.itmp 32) ro r
    pure (ro + 1)

/-- LevelSchedule.cpp:746-757 and 763-777: the tasks of thread `tid`. -/
def ptFill (useBarrier : Bool) (nlev tid : Nat) : Prog (CTy R) Unit := do
  let ro ← Prog.read (ty := CTy R) (.itmp 53) (tid : Int)
  let ko ← Prog.read (ty := CTy R) (.itmp 31) (tid : Int)
  let _ ← Prog.forUp 0 (nlev : Int) ((ro : Int), (ko : Int)) fun i s => do
    let b ← Prog.read (ty := CTy R) (.itmp 51) (tid * nlev + i)
    let e ← Prog.read (ty := CTy R) (.itmp 52) (tid * nlev + i)
    if useBarrier || decide ((b : Int) < e) then do
      Prog.write (ty := CTy R) (.itmp 30) s.2 s.1
      let ro ← ptRows useBarrier b e s.1
      pure (ro, s.2 + 1)
    else pure s
  pure ()

/-- LevelSchedule.cpp:780-783 and 797: the last boundary, the two assertions, and ntasks. -/
def ptEnd (T m : Nat) : Prog (CTy R) Int := do
  let nt ← Prog.read (ty := CTy R) (.itmp 31) (T : Int)
  Prog.write (ty := CTy R) (.itmp 30) nt (m : Int)
  let l ← readList 54 0 m
  Prog.assert (isPerm l = true)
  let l' ← readList 32 0 m
  Prog.assert (isPerm l' = true)
  pure nt

/-- The sizes with which the arrays are allocated (LevelSchedule.cpp:505, 509, 605-606, 612, 695, 698, 736-741); `nt` is the number of tasks. -/
def partSize (sz : CArr → Int) (T m nlev : Nat) (nt : Int) : CArr → Int
  | .itmp 20 => 5 * (max T (m + T - 1) : Nat) + 2048 * 22
  | .itmp 21 => (m + 15) / 16 * 16 + 128
  | .itmp 50 => m + T
  | .itmp 51 => T * (nlev + 1) - 1
  | .itmp 52 => T * (nlev + 1) - 1
  | .itmp 53 => T + 1
  | .itmp 31 => T + 1
  | .itmp 30 => nt + 1
  | .itmp 54 => m + 64
  | .itmp 32 => m + 64
  | a => sz a

/-- LevelSchedule.cpp:602-797: the task partition for the levels with boundaries `lev`; returns ntasks. -/
def taskPart (sz : CArr → Int) (cf : Option (Int → Int)) (useBarrier agg : Bool) (T m : Nat) (lev : List Int) : Script (CTy R) Int :=
  let nlev := lev.length - 1
  .phase (partSize sz T m nlev 0) nlev (lvTask cf agg T nlev lev) fun _ =>
  .seq (partSize sz T m nlev 0) (do
    Prog.write (ty := CTy R) (.itmp 53) 0 (0 : Int)
    Prog.write (ty := CTy R) (.itmp 31) 0 (0 : Int)) fun _ =>
  .phase (partSize sz T m nlev 0) T (ptCount useBarrier nlev) fun _ =>
  .seq (partSize sz T m nlev 0) (ptSums T) fun nt =>
  .phase (partSize sz T m nlev nt) T (ptFill useBarrier nlev) fun _ =>
  .seq (partSize sz T m nlev nt) (ptEnd T m) .done

end SpMP
