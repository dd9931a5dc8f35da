import Verif.Barrier
import Mathlib.Algebra.BigOperators.Group.Finset.Basic
import Mathlib.Algebra.BigOperators.Intervals
/-
The reducing barrier, /repo/synk/reduce.hpp:100-359 (class ReduceBarrier).
Memory is sequentially consistent (volatile data with sfence between the value and the flag of a notification).
-/

namespace SpMP

/-- Shared state (struct ReduceCoreBarrier and struct PseudoCore, reduce.hpp:40-80). Cores `0..numCores-1` are real and
`numCores..nearestPow2Cores-1` are pseudo cores; `flags`, `rvals`, `parity`, `sense` are indexed by both kinds.
`threadRvals` and `threadSenses` are indexed by the global thread id. Memory that `init` leaves uninitialised
(threadRvals, rval) has an arbitrary value. -/
structure RedG (V : Type) where
  threadRvals : Nat → V
  threadSenses : Nat → Bool
  coreSense : Nat → Bool
  rval : Nat → V
  /-- `myFlags[parity][i*CacheLineSize]` -/
  flags : Nat → Nat → Nat → Bool
  /-- `myRvals[i]` -/
  rvals : Nat → Nat → V
  parity : Nat → Nat
  sense : Nat → Bool

/-- Where a thread is inside `wait` (reduce.hpp:255-359). `i` is the round, `k` the index into the cores handled by the
thread. -/
inductive RedPc
  | idle
  /-- threadRvals written, about to flip threadSenses (line 267) -/
  | flip
  /-- core thread 0 waits for core thread `i` (line 272) -/
  | gather (i : Nat)
  /-- line 276 -/
  | gread (i : Nat)
  /-- `*partnerRvals[i] = …` (lines 284-285, 313, 336) -/
  | val (i k : Nat)
  /-- `*partnerFlags[parity][i] = sense` (lines 289-291, 315, 338) -/
  | flag (i k : Nat)
  /-- spinning on the own flag (lines 293-297, 316, 340) -/
  | wt (i k : Nat)
  /-- the reduction operation (lines 300-301, 320, 345) -/
  | rd (i k : Nat)
  /-- parity and sense (lines 304-308, 323-324, 347-349) -/
  | adjust (k : Nat)
  /-- `bar->rval = redVal` (line 328) -/
  | pub
  /-- `coreSense = threadSenses[0]` (line 330) -/
  | wake
  /-- line 353 -/
  | spin
  /-- line 358 -/
  | ret
  deriving DecidableEq

/-- A thread: id, calls made and returned from, program counter, the local variables `redVal` and `zeroVal`, and the
values returned so far. -/
structure RedL (V : Type) where
  tid : Nat
  calls : Nat
  rets : Nat
  pc : RedPc
  red : V
  zero : V
  out : Nat → V

/-- The (real or pseudo) cores whose rounds the thread runs: lines 266, 281, 312, 333. -/
def redHs (C P n2 tid : Nat) : List Nat :=
  if tid % P = 0 then tid / P :: (if P = 1 ∧ tid / P + C < n2 then [tid / P + C] else [])
  else if tid % P = 1 ∧ tid / P + C < n2 then [tid / P + C] else []

/-- The `k`-th of them. -/
def redH (C P n2 tid k : Nat) : Nat := (redHs C P n2 tid).getD k 0

/-- The partial result of a handled core: `redVal` for a real core, `zeroVal` for a pseudo core. -/
def RedL.acc {V : Type} (C : Nat) (l : RedL V) (x : Nat) : V := if x < C then l.red else l.zero

/-- Assignment to it. -/
def RedL.setAcc {V : Type} (C : Nat) (l : RedL V) (x : Nat) (v : V) : RedL V :=
  if x < C then { l with red := v } else { l with zero := v }

/-- Next round, or the end of the cross-core synchronization. -/
def redRound (lg i : Nat) : RedPc := if i < lg then .val i 0 else .adjust 0

/-- One atomic step of `ReduceBarrier::wait` (reduce.hpp:255-359) with `C` cores of `P` threads, `n2` =
nearestPow2Cores, `lg` rounds, reduction operation `op` with zero value `zv`. Every thread calls wait `N` times, thread
`t` passing `inp t e` in episode `e`. The partner of round `i` is `(x + (1 << i)) % nearestPow2Cores` (lines 185, 210).
`none`: returned or spinning. -/
def redNext {V : Type} (C P n2 lg : Nat) (op : V → V → V) (zv : V) (inp : Nat → Nat → V) (N : Nat) (l : RedL V)
    (g : RedG V) : Option (RedL V × RedG V) :=
  match l.pc with
  | .idle =>
    if l.calls < N then
      some ({ l with calls := l.calls + 1, pc := .flip, red := inp l.tid l.calls, zero := zv },
        { g with threadRvals := upd1 g.threadRvals l.tid (inp l.tid l.calls) })
    else none
  | .flip =>
    some ({ l with pc := if l.tid % P = 0 then .gather 1 else if (redHs C P n2 l.tid).length = 0 then .spin
                         else redRound lg 0 },
      { g with threadSenses := upd1 g.threadSenses l.tid (!g.threadSenses l.tid) })
  | .gather i =>
    if i < P then
      if g.threadSenses (l.tid + i) = g.coreSense (l.tid / P) then none
      else some ({ l with pc := .gread i }, g)
    else some ({ l with pc := redRound lg 0 }, g)
  | .gread i => some ({ l with red := op l.red (g.threadRvals (l.tid + i)), pc := .gather (i + 1) }, g)
  | .val i k =>
    let x := redH C P n2 l.tid k
    let q := (x + 2 ^ i) % n2
    some ({ l with pc := if k + 1 < (redHs C P n2 l.tid).length then .val i (k + 1) else .flag i 0 },
      { g with rvals := upd1 g.rvals q (upd1 (g.rvals q) i (l.acc C x)) })
  | .flag i k =>
    let x := redH C P n2 l.tid k
    let q := (x + 2 ^ i) % n2
    let p := g.parity x
    some ({ l with pc := if k + 1 < (redHs C P n2 l.tid).length then .flag i (k + 1) else .wt i 0 },
      { g with flags := upd1 g.flags q (upd1 (g.flags q) p (upd1 (g.flags q p) i (g.sense x))) })
  | .wt i k =>
    let x := redH C P n2 l.tid k
    if g.flags x (g.parity x) i = g.sense x then
      some ({ l with pc := if k + 1 < (redHs C P n2 l.tid).length then .wt i (k + 1) else .rd i 0 }, g)
    else none
  | .rd i k =>
    let x := redH C P n2 l.tid k
    some ({ l.setAcc C x (op (l.acc C x) (g.rvals x i)) with
        pc := if k + 1 < (redHs C P n2 l.tid).length then .rd i (k + 1) else redRound lg (i + 1) }, g)
  | .adjust k =>
    let x := redH C P n2 l.tid k
    some ({ l with pc := if k + 1 < (redHs C P n2 l.tid).length then .adjust (k + 1)
                         else if l.tid % P = 0 then .pub else .spin },
      { g with sense := if g.parity x = 1 then upd1 g.sense x (!g.sense x) else g.sense,
               parity := upd1 g.parity x (1 - g.parity x) })
  | .pub => some ({ l with pc := .wake }, { g with rval := upd1 g.rval (l.tid / P) l.red })
  | .wake => some ({ l with pc := .ret }, { g with coreSense := upd1 g.coreSense (l.tid / P) (g.threadSenses l.tid) })
  | .spin => if g.coreSense (l.tid / P) = g.threadSenses l.tid then some ({ l with pc := .ret }, g) else none
  | .ret =>
    some ({ l with pc := .idle, rets := l.rets + 1, out := upd1 l.out (l.calls - 1) (g.rval (l.tid / P)) }, g)

/-- Accesses outside the arrays: threadSenses and threadRvals have `P` entries per core, the round arrays `lg`, and a
partner must be a real core or an allocated pseudo core. -/
def redBad {V : Type} (C P n2 lg : Nat) (l : RedL V) (_ : RedG V) : Prop :=
  match l.pc with
  | .gather i => i < P ∧ ¬ l.tid + i < C * P
  | .gread i => ¬ l.tid + i < C * P
  | .val i k | .flag i k => ¬ i < lg ∨ ¬ k < (redHs C P n2 l.tid).length ∨
      ¬ ((redH C P n2 l.tid k + 2 ^ i) % n2 < C ∨
        ((redH C P n2 l.tid k + 2 ^ i) % n2 < n2 ∧ (redH C P n2 l.tid k + 2 ^ i) % n2 < C + C))
  | .wt i k | .rd i k => ¬ i < lg ∨ ¬ k < (redHs C P n2 l.tid).length
  | .adjust k => ¬ k < (redHs C P n2 l.tid).length
  | _ => False

/-- The machine. -/
def redMachine {V : Type} (C P n2 lg : Nat) (op : V → V → V) (zv : V) (inp : Nat → Nat → V) (N : Nat) :
    Machine (RedL V) (RedG V) where
  step := fun l g l' g' => redNext C P n2 lg op zv inp N l g = some (l', g')
  bad := redBad C P n2 lg
  final := fun l => l.pc = .idle ∧ l.calls = N

/-- synk.cpp:68-70: `nearestPow2Cores = 1; while (nearestPow2Cores < numCores) nearestPow2Cores <<= 1` (the first
argument bounds the number of iterations). -/
def pow2Loop : Nat → Nat → Nat → Nat
  | 0, _, p => p
  | f + 1, n, p => if p < n then pow2Loop f n (2 * p) else p

/-- `nearestPow2Cores`. -/
def nearestPow2 (n : Nat) : Nat := pow2Loop n n 1

/-! ### Rank: no thread steps for ever -/

section
variable {V : Type} {C P n2 lg N : Nat} {op : V → V → V} {zv : V} {inp : Nat → Nat → V}

theorem redHs_length (C P n2 tid : Nat) : (redHs C P n2 tid).length ≤ 2 := by
  unfold redHs
  split
  · split <;> simp
  · split <;> simp

/-- Rank of a program counter. -/
def RedPc.rank (P lg : Nat) : RedPc → Nat
  | .idle => 0
  | .flip => lg * 32 + 2 * P + 60
  | .gather i => if i < P then lg * 32 + 50 + 2 * (P - i) + 2 else lg * 32 + 50
  | .gread i => if i < P then lg * 32 + 50 + 2 * (P - i) + 1 else lg * 32 + 51
  | .val i k => (lg - i) * 32 + 16 + (2 - k) + 8
  | .flag i k => (lg - i) * 32 + 12 + (2 - k) + 8
  | .wt i k => (lg - i) * 32 + 8 + (2 - k) + 8
  | .rd i k => (lg - i) * 32 + 4 + (2 - k) + 8
  | .adjust k => (2 - k) + 4
  | .pub => 3
  | .wake => 2
  | .spin => 2
  | .ret => 1

theorem redRound_rank (P lg i : Nat) : (redRound lg i).rank P lg ≤ (lg - i) * 32 + 26 ∧
    ∀ j, j + 1 = i → (redRound lg i).rank P lg ≤ (lg - j) * 32 + 11 := by
  unfold redRound
  refine ⟨?_, ?_⟩
  · split <;> simp only [RedPc.rank] <;> omega
  · intro j hj
    split <;> simp only [RedPc.rank] <;> omega

/-- Rank of a thread. -/
def redRank (P lg N : Nat) (l : RedL V) : Nat := (N - l.calls) * (lg * 32 + 2 * P + 61) + l.pc.rank P lg

theorem redRank_step {l l' : RedL V} {g g' : RedG V} (hs : redNext C P n2 lg op zv inp N l g = some (l', g')) :
    redRank P lg N l' < redRank P lg N l := by
  have hlen := redHs_length C P n2 l.tid
  have hr0 := (redRound_rank P lg 0).1
  unfold redNext at hs
  split at hs
  · next hpc =>
    split at hs
    · simp only [Option.some.injEq, Prod.mk.injEq] at hs
      obtain ⟨rfl, rfl⟩ := hs
      unfold redRank; dsimp only
      have e : N - l.calls = (N - (l.calls + 1)) + 1 := by omega
      rw [e, Nat.succ_mul (N - (l.calls + 1)), hpc]; simp only [RedPc.rank]; omega
    · simp at hs
  · next hpc =>
    simp only [Option.some.injEq, Prod.mk.injEq] at hs
    obtain ⟨rfl, rfl⟩ := hs
    unfold redRank; dsimp only; rw [hpc]
    have : (if l.tid % P = 0 then RedPc.gather 1 else if (redHs C P n2 l.tid).length = 0 then RedPc.spin
      else redRound lg 0).rank P lg < RedPc.rank P lg .flip := by
      split
      · simp only [RedPc.rank]; split <;> omega
      · split
        · simp only [RedPc.rank]; omega
        · generalize (redRound lg 0).rank P lg = r at *
          simp only [RedPc.rank]; omega
    omega
  · next i hpc =>
    split at hs
    · next hi =>
      split at hs
      · simp at hs
      · simp only [Option.some.injEq, Prod.mk.injEq] at hs
        obtain ⟨rfl, rfl⟩ := hs
        unfold redRank; dsimp only; rw [hpc]
        simp only [RedPc.rank, if_pos hi]; omega
    · next hi =>
      simp only [Option.some.injEq, Prod.mk.injEq] at hs
      obtain ⟨rfl, rfl⟩ := hs
      unfold redRank; dsimp only; rw [hpc]
      generalize (redRound lg 0).rank P lg = r at *
      simp only [RedPc.rank, if_neg hi]; omega
  · next i hpc =>
    simp only [Option.some.injEq, Prod.mk.injEq] at hs
    obtain ⟨rfl, rfl⟩ := hs
    unfold redRank; dsimp only; rw [hpc]
    simp only [RedPc.rank]; split <;> split <;> omega
  · next i k hpc =>
    simp only [Option.some.injEq, Prod.mk.injEq] at hs
    obtain ⟨rfl, rfl⟩ := hs
    unfold redRank; dsimp only; rw [hpc]
    split <;> simp only [RedPc.rank] <;> omega
  · next i k hpc =>
    simp only [Option.some.injEq, Prod.mk.injEq] at hs
    obtain ⟨rfl, rfl⟩ := hs
    unfold redRank; dsimp only; rw [hpc]
    split <;> simp only [RedPc.rank] <;> omega
  · next i k hpc =>
    dsimp only at hs
    split at hs
    · simp only [Option.some.injEq, Prod.mk.injEq] at hs
      obtain ⟨rfl, rfl⟩ := hs
      unfold redRank; dsimp only; rw [hpc]
      split <;> simp only [RedPc.rank] <;> omega
    · simp at hs
  · next i k hpc =>
    simp only [Option.some.injEq, Prod.mk.injEq] at hs
    obtain ⟨rfl, rfl⟩ := hs
    have hr := (redRound_rank P lg (i + 1)).2 i rfl
    have hc : ∀ x v, (l.setAcc C x v).calls = l.calls := by intro x v; unfold RedL.setAcc; split <;> rfl
    unfold redRank; dsimp only; rw [hc, hpc]
    split
    · simp only [RedPc.rank]; omega
    · generalize (redRound lg (i + 1)).rank P lg = r at *
      simp only [RedPc.rank]; omega
  · next k hpc =>
    simp only [Option.some.injEq, Prod.mk.injEq] at hs
    obtain ⟨rfl, rfl⟩ := hs
    unfold redRank; dsimp only; rw [hpc]
    split
    · simp only [RedPc.rank]; omega
    · split <;> simp only [RedPc.rank] <;> omega
  · next hpc =>
    simp only [Option.some.injEq, Prod.mk.injEq] at hs
    obtain ⟨rfl, rfl⟩ := hs
    unfold redRank; dsimp only; rw [hpc]; simp only [RedPc.rank]; omega
  · next hpc =>
    simp only [Option.some.injEq, Prod.mk.injEq] at hs
    obtain ⟨rfl, rfl⟩ := hs
    unfold redRank; dsimp only; rw [hpc]; simp only [RedPc.rank]; omega
  · next hpc =>
    split at hs
    · simp only [Option.some.injEq, Prod.mk.injEq] at hs
      obtain ⟨rfl, rfl⟩ := hs
      unfold redRank; dsimp only; rw [hpc]; simp only [RedPc.rank]; omega
    · simp at hs
  · next hpc =>
    simp only [Option.some.injEq, Prod.mk.injEq] at hs
    obtain ⟨rfl, rfl⟩ := hs
    unfold redRank; dsimp only; rw [hpc]; simp only [RedPc.rank]; omega

theorem redAcc (l : RedL V) :
    Acc (fun l' l => ∃ g g', (redMachine C P n2 lg op zv inp N).step l g l' g') l := by
  have : ∀ n l, redRank P lg N l < n →
      Acc (fun l' l => ∃ g g', (redMachine C P n2 lg op zv inp N).step l g l' g') l := by
    intro n
    induction n with
    | zero => intro l h; omega
    | succ n ih =>
      intro l hl
      constructor
      rintro l' ⟨g, g', hs⟩
      exact ih l' (Nat.lt_of_lt_of_le (redRank_step hs) (by omega))
  exact this _ l (Nat.lt_succ_self _)

end

end SpMP
