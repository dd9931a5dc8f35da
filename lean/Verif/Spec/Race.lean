import Verif.Script
/-
Specification: data races. Definitions only.

Two accesses of different threads to one cell conflict if at least one of them writes and not both are atomic updates
(`__sync_fetch_and_add`, ...). An execution has a data race if it reaches a state in which two threads of a team are about to perform
conflicting accesses (nothing orders the two). In C++ such an execution is undefined behaviour; an execution model of interleaved
accesses is adequate for programs without data races.
-/

namespace SpMP
variable {A : Type} [DecidableEq A] {ty : A → Type} {α : Type}

/-- Any number of accesses of the threads of a team, in any order. -/
inductive PSteps (sz : A → Int) (n : Nat) : (Nat → Prog ty α) → Mem ty → (Nat → Prog ty α) → Mem ty → Prop
  | refl {ts m} : PSteps sz n ts m ts m
  | step {ts m ts1 m1 ts2 m2} : PStep sz n ts m ts1 m1 → PSteps sz n ts1 m1 ts2 m2 → PSteps sz n ts m ts2 m2

/-- `s.Racy tol m`: some execution of `s` from memory `m` reaches a data race on a cell outside `tol`: in the first phase after some
accesses, or in the rest of the script after the first phase has been completed. Races inside `spin` phases are
not looked for, only races after them; in a `p2p` phase the row code is looked at, the flags are the synchronisation (`P2P.NoRace`). -/
inductive Script.Racy (tol : A → Int → Prop) : Script ty α → Mem ty → Prop
  | here {β : Type} {sz n} {ts ts' : Nat → Prog ty β} {k m m' t u a i} : PSteps sz n ts m ts' m' → t < n → u < n → t ≠ u →
      Race (ts' t) (ts' u) a i → ¬ tol a i → Script.Racy tol (.phase sz n ts k) m
  | later {β : Type} {sz n} {ts ts' : Nat → Prog ty β} {k m m'} {r : Nat → β} : PSteps sz n ts m ts' m' →
      (∀ t, t < n → ts' t = .ret (r t)) → Script.Racy tol (k r) m' → Script.Racy tol (.phase sz n ts k) m
  | spinLater {C : Type} {sz n} {S : Spin ty C} {c0 k m ls m'} : TeamReach (S.machine sz) n (fun t => .at (c0 t)) m ls m' →
      (∀ t, t < n → (S.machine sz).final (ls t)) → Script.Racy tol k m' → Script.Racy tol (.spin sz n S c0 k) m
  | p2pHere {sz n} {S : P2P ty} {k m ls m'} : TeamReach (p2pMachine sz S) n (fun t => .next (S.tasksOf t)) m ls m' →
      ¬ S.NoRace n ls → Script.Racy tol (.p2p sz n S k) m
  | p2pLater {sz n} {S : P2P ty} {k m ls m'} : TeamReach (p2pMachine sz S) n (fun t => .next (S.tasksOf t)) m ls m' →
      (∀ t, t < n → (p2pMachine sz S).final (ls t)) → Script.Racy tol k m' → Script.Racy tol (.p2p sz n S k) m

/-- No execution has a data race. -/
def Script.RaceFree (s : Script ty α) (m : Mem ty) : Prop := ¬ s.Racy (fun _ _ => False) m

/-- No execution has a data race outside the cells `tol`. -/
def Script.RaceFreeExcept (tol : A → Int → Prop) (s : Script ty α) (m : Mem ty) : Prop := ¬ s.Racy tol m

end SpMP
