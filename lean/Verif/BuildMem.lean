import Verif.PartMem
import Verif.TgMem
import Verif.CsrDiag
import Verif.CsrQuery
/-
Construction of a LevelSchedule from a matrix in memory (LevelSchedule.cpp:164-183, 445-493, 800-1777): the pointers to the diagonal,
the assertions on the pattern, the level search, the task partition and the task graph, as one script.
-/

namespace SpMP

variable {R : Type} [DecidableEq R]

/-- LevelSchedule.cpp:476-486, one row of the check that the columns are partially sorted. The third loop of the code runs from
extptr[i] to rowptr[i] (sic). -/
def lvCheckRow (hasExt : Bool) (base m : Nat) (i : Int) : Prog (CTy R) Unit := do
  let r ← Prog.read (ty := CTy R) (.rowptr 0) i
  let d ← Prog.read (ty := CTy R) (.diagptr 0) i
  let e ← extOf 0 base hasExt (i + base)
  Prog.forUp ((r : Int) - base) ((d : Int) - base) () fun j _ => do
    let c ← Prog.read (ty := CTy R) (.colidx 0) j
    Prog.assert ((c : Int) - base < i)
  Prog.forUp ((d : Int) - base) (e - base) () fun j _ => do
    let c ← Prog.read (ty := CTy R) (.colidx 0) j
    Prog.assert ((c : Int) - base ≥ i)
  Prog.forUp (e - base) ((r : Int) - base) () fun j _ => do
    let c ← Prog.read (ty := CTy R) (.colidx 0) j
    Prog.assert ((c : Int) - base ≥ m)

/-- LevelSchedule.cpp:476-486. -/
def lvCheck (hasExt : Bool) (base m : Nat) : Prog (CTy R) Unit :=
  Prog.forUp 0 (m : Int) () fun i _ => lvCheckRow hasExt base m i

/-- LevelSchedule.cpp:445-797 findLevels_<base> and 800-1763 constructTaskGraph_<base>, with the assertions of a debug build: symmetry
(456-463; the temporary CSR is m by m), partial sorting (476-486), level search, task partition, task graph. `cb` is the split of the rows
among the threads in the first loop of the level search. Returns levIndices and ntasks. -/
def buildSchedule (sz : CArr → Int) (hasExt : Bool) (cf : Option (Int → Int)) (useBarrier agg tr : Bool) (base T m : Nat) (cb : Nat → Nat) :
    Script (CTy R) (List Int × Int) :=
  (isSymmetric sz T 0 m m hasExt false true).bind fun b =>
  .seq sz (Prog.assert (b = true)) fun _ =>
  .seq sz (lvCheck hasExt base m) fun _ =>
  (findLevels (partSize sz T m 0 0) hasExt base T m cb).bind fun lev =>
  (taskPart sz cf useBarrier agg T m lev).bind fun nt =>
  (taskGraph (partSize sz T m (lev.length - 1) nt) hasExt tr base T m nt.toNat).bind fun _ =>
  .done (lev, nt)

/-- LevelSchedule.cpp:1765-1777: constructTaskGraph(m, rowptr, diagptr, extptr, colidx, costFunction) picks the template for the base of
the arrays. -/
def constructTaskGraph (sz : CArr → Int) (hasExt : Bool) (cf : Option (Int → Int)) (useBarrier agg tr : Bool) (T m : Nat) (cb : Nat → Nat) :
    Script (CTy R) (List Int × Int) :=
  .seq sz (Prog.read (ty := CTy R) (.rowptr 0) 0) fun (b : Int) =>
  if b = 0 then buildSchedule sz hasExt cf useBarrier agg tr 0 T m cb
  else .seq sz (Prog.assert (b = 1)) fun _ => buildSchedule sz hasExt cf useBarrier agg tr 1 T m cb

/-- LevelSchedule.cpp:164-169: constructTaskGraph(CSR&, costFunction); `haveDiag`: the matrix has its diagonal pointers already. -/
def constructTaskGraphCsr (sz : CArr → Int) (haveDiag hasExt : Bool) (cf : Option (Int → Int)) (useBarrier agg tr : Bool) (T m n : Nat)
    (cb : Nat → Nat) : Script (CTy R) (List Int × Int) :=
  (constructDiagPtr sz 0 m haveDiag).bind fun _ =>
  (isSymmetric sz T 0 m n hasExt false false).bind fun b =>
  .seq sz (Prog.assert (b = true)) fun _ =>
  constructTaskGraph sz hasExt cf useBarrier agg tr T m cb

/-- LevelSchedule.cpp:171-179: constructTaskGraph(m, rowptr, colidx, costFunction); the diagonal pointers are temporary. -/
def constructTaskGraphPtr (sz : CArr → Int) (cf : Option (Int → Int)) (useBarrier agg tr : Bool) (T m : Nat) (cb : Nat → Nat) :
    Script (CTy R) (List Int × Int) :=
  (constructDiagPtr sz 0 m false).bind fun _ => constructTaskGraph sz false cf useBarrier agg tr T m cb

end SpMP
