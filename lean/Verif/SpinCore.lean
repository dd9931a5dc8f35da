import Verif.Prog
import Verif.Team
/-
Teams whose threads spin on a cell between pieces of straight code: the thread automaton. Models no particular function.
-/

namespace SpMP

section
variable {A : Type} [DecidableEq A] {ty : A → Type} {C : Type}

/-- The code of a thread: at control point `c` it spins until the cell `guard c` passes its test, then runs `code c`, which returns the
next control point; it has returned at a control point with `stop c`. -/
structure Spin (ty : A → Type) (C : Type) where
  guard : C → Option ((a : A) × Int × (ty a → Bool))
  code : C → Prog ty C
  stop : C → Bool

/-- A thread at a control point, or inside the code of one. -/
inductive SState {A : Type} (ty : A → Type) (C : Type) where
  | at (c : C)
  | run (p : Prog ty C)

/-- The spin loop is left: the cell passes its test. -/
def Spin.Open (S : Spin ty C) (c : C) (m : Mem ty) : Prop :=
  ∀ g, S.guard c = some g → ∃ v, m g.1 g.2.1 = some v ∧ g.2.2 v = true

/-- One step of a thread. -/
inductive SpinStep (sz : A → Int) (S : Spin ty C) : SState ty C → Mem ty → SState ty C → Mem ty → Prop
  | enter {c m} : S.stop c = false → S.Open c m → SpinStep sz S (.at c) m (.run (S.code c)) m
  | exec {p p' m m'} : Step sz p m p' m' → SpinStep sz S (.run p) m (.run p') m'
  | leave {c m} : SpinStep sz S (.run (.ret c)) m (.at c) m

/-- Undefined behaviour of a thread: an access of its code, or spinning on a cell never written. -/
def SpinBad (sz : A → Int) (S : Spin ty C) : SState ty C → Mem ty → Prop
  | .at c, m => S.stop c = false ∧ ∃ g, S.guard c = some g ∧ m g.1 g.2.1 = none
  | .run p, m => Stuck sz p m

/-- The thread has returned. -/
def SpinFinal (S : Spin ty C) : SState ty C → Prop
  | .at c => S.stop c = true
  | .run _ => False

/-- The automaton. -/
def Spin.machine (sz : A → Int) (S : Spin ty C) : Machine (SState ty C) (Mem ty) where
  step := SpinStep sz S
  bad := SpinBad sz S
  final := SpinFinal S

end

end SpMP
