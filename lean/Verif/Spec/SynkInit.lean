import Verif.SynkInit

/-
Specification: what an initialized barrier object looks like.
-/

namespace SpMP

/-- The cell of round `i` of virtual core `x`: of the core itself, or of the pseudo core that core `x - C` holds. -/
def cellOf (C x i : Nat) : CellPtr := if x < C then ⟨x, false, i⟩ else ⟨x - C, true, i⟩

/-- A core or pseudo core with number `x` on a ring of `n2` is ready for `lg` rounds: its flags are 0, its parity 0 and
sense 1, and in round `i` it is linked to number `x + 2^i` on the ring, in both flag arrays and for the values. -/
structure SideReady (C lg n2 x : Nat) (s : InitSide) : Prop where
  flags : ∀ j i, j < 2 → i < lg → s.flags j i = some false
  partner : ∀ j i, j < 2 → i < lg → s.partner j i = some (cellOf C ((x + 2 ^ i) % n2) i)
  parity : s.parity = 0
  sense : s.sense = true
  rvals : ∀ i, i < lg → s.rvals i = true
  partnerRvals : ∀ i, i < lg → s.partnerRvals i = some (cellOf C ((x + 2 ^ i) % n2) i)

/-- The object is ready for `wait`: every core exists with all senses 1 and is linked, holds a ready pseudo core if
there is one for it, and every thread knows its core and its place in the core. -/
structure SynkReady (C P lg n2 : Nat) (g : InitG) : Prop where
  core : ∀ c, c < C → ∃ r, g.cores c = some r ∧ r.coreSense = true ∧ (∀ p, p < P → r.threadSenses p = some true) ∧
    SideReady C lg n2 c r.side ∧
    (c + C < n2 → ∃ s, r.pseudo = some s ∧ SideReady C lg n2 (c + C) s) ∧ (n2 ≤ c + C → r.pseudo = none)
  thread : ∀ t, t < C * P → g.threadCores t = some (t / P) ∧ g.coreTids t = some ((t % P : Nat) : Int)

end SpMP
