import Verif.Team
import Mathlib.Data.Nat.ModEq
/-
The dissemination barrier, /repo/synk/barrier.cpp:128-274.
Memory is sequentially consistent (the flags are volatile bytes; x86 stores are not reordered with each other).
-/

namespace SpMP

/-- Shared state of the barrier object (struct CoreBarrier, barrier.hpp:43-51). `threadSenses` is indexed by the global
thread id `tid = cid*numThreadsPerCore + coreTid`. The bytes only take the values 0 and 1 and are modelled as Bool. -/
structure BarG where
  threadSenses : Nat → Bool
  coreSense : Nat → Bool
  /-- `cores[c]->myFlags[parity][i*CacheLineSize]` -/
  flags : Nat → Nat → Nat → Bool
  parity : Nat → Nat
  sense : Nat → Bool

/-- Where a thread is inside `wait`. -/
inductive BarPc
  /-- not inside wait -/
  | idle
  /-- core thread 0 waits for core thread `i` (lines 210-213) -/
  | gather (i : Nat)
  /-- about to notify the partner of round `i` -/
  | send (i : Nat)
  /-- spinning on its own flag of round `i` -/
  | recv (i : Nat)
  /-- lines 250-251 -/
  | adjust
  /-- line 255 -/
  | wake
  /-- other core threads, line 270 -/
  | spin
  deriving DecidableEq

/-- A thread: id, number of calls of `wait` made and returned from, program counter. -/
structure BarL where
  tid : Nat
  calls : Nat
  rets : Nat
  pc : BarPc

/-- Point update. -/
def upd1 {α : Type} (f : Nat → α) (i : Nat) (v : α) : Nat → α := fun j => if j = i then v else f j

theorem upd3 (f : Nat → Nat → Nat → Bool) (q p i : Nat) (v : Bool) (q' p' i' : Nat) :
    upd1 f q (upd1 (f q) p (upd1 (f q p) i v)) q' p' i' = if q' = q ∧ p' = p ∧ i' = i then v else f q' p' i' := by
  unfold upd1
  by_cases h1 : q' = q
  · subst h1
    by_cases h2 : p' = p
    · subst h2
      by_cases h3 : i' = i
      · subst h3; simp
      · simp [h3]
    · simp [h2]
  · simp [h1]

/-- One atomic step of `Barrier::wait` (barrier.cpp:190-274) for `C` cores with `P` threads each and `lg` rounds; every
thread calls wait `N` times. `none`: nothing to do (returned) or spinning. -/
def barNext (C P lg N : Nat) (l : BarL) (g : BarG) : Option (BarL × BarG) :=
  match l.pc with
  | .idle =>
    -- line 204: threadSenses[coreTid] = !threadSenses[coreTid]
    if l.calls < N then
      some ({ l with calls := l.calls + 1, pc := if l.tid % P = 0 then .gather 1 else .spin },
        { g with threadSenses := upd1 g.threadSenses l.tid (!g.threadSenses l.tid) })
    else none
  | .gather i =>
    if i < P then
      -- line 211: while (threadSenses[i] == coreSense)
      if g.threadSenses (l.tid + i) = g.coreSense (l.tid / P) then none
      else some ({ l with pc := .gather (i + 1) }, g)
    else some ({ l with pc := if 1 < C then .send 0 else .wake }, g)
  | .send i =>
    -- line 239/247: *partnerFlags[parity][i] = sense; the partner is core (cid + (1 << i)) % numCores (line 173)
    let c := l.tid / P
    let q := (c + 2 ^ i) % C
    let p := g.parity c
    some ({ l with pc := .recv i },
      { g with flags := upd1 g.flags q (upd1 (g.flags q) p (upd1 (g.flags q p) i (g.sense c))) })
  | .recv i =>
    -- line 242/248: while (myFlags[parity][di] != sense)
    let c := l.tid / P
    if g.flags c (g.parity c) i = g.sense c then
      some ({ l with pc := if i + 1 < lg then .send (i + 1) else .adjust }, g)
    else none
  | .adjust =>
    let c := l.tid / P
    some ({ l with pc := .wake },
      { g with sense := if g.parity c = 1 then upd1 g.sense c (!g.sense c) else g.sense,
               parity := upd1 g.parity c (1 - g.parity c) })
  | .wake =>
    some ({ l with pc := .idle, rets := l.rets + 1 },
      { g with coreSense := upd1 g.coreSense (l.tid / P) (g.threadSenses l.tid) })
  | .spin =>
    if g.coreSense (l.tid / P) = g.threadSenses l.tid then some ({ l with pc := .idle, rets := l.rets + 1 }, g)
    else none

/-- Accesses outside the arrays (threadSenses has P entries per core, the flag arrays `lg`, the cores are `C`). -/
def barBad (C P lg : Nat) (l : BarL) (_ : BarG) : Prop :=
  match l.pc with
  | .gather i => i < P ∧ ¬ l.tid + i < C * P
  | .send i => ¬ i < lg ∨ C = 0
  | .recv i => ¬ i < lg
  | _ => False

/-- The barrier machine. -/
def barMachine (C P lg N : Nat) : Machine BarL BarG where
  step := fun l g l' g' => barNext C P lg N l g = some (l', g')
  bad := barBad C P lg
  final := fun l => l.pc = .idle ∧ l.calls = N

/-- State after `init` (barrier.cpp:128-185). -/
def barG0 : BarG where
  threadSenses := fun _ => true
  coreSense := fun _ => true
  flags := fun _ _ _ => false
  parity := fun _ => 0
  sense := fun _ => true

/-- All threads before their first call. -/
def barL0 : Nat → BarL := fun t => ⟨t, 0, 0, .idle⟩

/-! ### Invariant -/

section
variable {C P lg N : Nat}

/-- The leader has collected its core's threads. -/
def BarPc.past : BarPc → Bool
  | .send _ | .recv _ | .adjust | .wake => true
  | _ => false

/-- Rounds received in the current episode. -/
def BarPc.got (lg : Nat) : BarPc → Nat
  | .send i | .recv i => i
  | .adjust | .wake => lg
  | _ => 0

/-- Rounds sent in the current episode. -/
def BarPc.sent (lg : Nat) : BarPc → Nat
  | .send i => i
  | .recv i => i + 1
  | .adjust | .wake => lg
  | _ => 0

/-- Episodes for which the core has collected all its threads. -/
def BarL.arr (l : BarL) : Nat := l.rets + if l.pc.past then 1 else 0

/-- Number of round-`j` notifications sent. -/
def BarL.sends (lg j : Nat) (l : BarL) : Nat := l.rets + if j < l.pc.sent lg then 1 else 0

/-- Episode according to parity/sense. -/
def BarL.ep (l : BarL) : Nat := l.rets + if l.pc = .wake then 1 else 0

/-- Value of a flag after `S` notifications. -/
def flagVal (S p : Nat) : Bool := decide (((S + 1 - p) / 2) % 2 = 1)

structure BarInv (C P lg N : Nat) (ls : Nat → BarL) (g : BarG) : Prop where
  tid : ∀ t, t < C * P → (ls t).tid = t
  calls : ∀ t, t < C * P → (ls t).calls = (ls t).rets + (if (ls t).pc = .idle then 0 else 1)
  bound : ∀ t, t < C * P → (ls t).calls ≤ N
  senses : ∀ t, t < C * P → g.threadSenses t = decide ((ls t).calls % 2 = 0)
  leader : ∀ c, c < C → (ls (c * P)).pc ≠ .spin
  slave : ∀ t, t < C * P → t % P ≠ 0 → (ls t).pc = .idle ∨ (ls t).pc = .spin
  gather : ∀ c i, c < C → (ls (c * P)).pc = .gather i → 1 ≤ i
  round : ∀ c i, c < C → ((ls (c * P)).pc = .send i ∨ (ls (c * P)).pc = .recv i) → i < lg ∧ 1 < C
  adj : ∀ c, c < C → (ls (c * P)).pc = .adjust → 1 < C
  cs : ∀ c, c < C → g.coreSense c = decide ((ls (c * P)).rets % 2 = 0)
  par : 1 < C → ∀ c, c < C → g.parity c = (ls (c * P)).ep % 2
  sen : 1 < C → ∀ c, c < C → g.sense c = decide (((ls (c * P)).ep / 2) % 2 = 0)
  core : ∀ c i, c < C → 1 ≤ i → i < P →
    (ls (c * P + i)).rets ≤ (ls (c * P)).rets ∧ (ls (c * P)).rets ≤ (ls (c * P + i)).calls ∧
    (ls (c * P + i)).calls ≤ (ls (c * P)).rets + 1
  gathered : ∀ c i, c < C → 1 ≤ i → i < P →
    ((ls (c * P)).pc.past = true ∨ ∃ k, (ls (c * P)).pc = .gather k ∧ i < k) →
    (ls (c * P + i)).calls = (ls (c * P)).rets + 1
  flag : 1 < C → ∀ c p j, c < C → p < 2 → j < lg →
    g.flags ((c + 2 ^ j) % C) p j = flagVal ((ls (c * P)).sends lg j) p
  done : ∀ c c', c < C → c' < C → (ls (c * P)).rets ≤ (ls (c' * P)).arr
  know : ∀ c c' d, c < C → c' < C → (ls (c * P)).pc.past = true → d < 2 ^ (ls (c * P)).pc.got lg →
    (c' + d) % C = c → (ls (c * P)).rets + 1 ≤ (ls (c' * P)).arr

theorem barInv_init : BarInv C P lg N barL0 barG0 := by
  refine ⟨?_, ?_, ?_, ?_, ?_, ?_, ?_, ?_, ?_, ?_, ?_, ?_, ?_, ?_, ?_, ?_, ?_⟩ <;>
    simp [barL0, barG0, BarPc.past, BarL.arr, BarL.sends, BarL.ep, flagVal, BarPc.sent]
  intro _ c p j _ hp _
  omega

theorem core_lt {c i : Nat} (hc : c < C) (hi : i < P) : c * P + i < C * P := by
  have : (c + 1) * P ≤ C * P := Nat.mul_le_mul_right _ hc
  rw [Nat.add_mul] at this; omega

theorem add_mod_inj {a b x : Nat} (ha : a < C) (hb : b < C) (h : (a + x) % C = (b + x) % C) : a = b := by
  have h : a + x ≡ b + x [MOD C] := h
  have := Nat.ModEq.add_right_cancel' x h
  have : a % C = b % C := this
  rwa [Nat.mod_eq_of_lt ha, Nat.mod_eq_of_lt hb] at this

theorem exists_pred {c x : Nat} (hc : c < C) : ∃ c', c' < C ∧ (c' + x) % C = c := by
  refine ⟨(c + (C - x % C)) % C, Nat.mod_lt _ (by omega), ?_⟩
  have hx : x % C < C := Nat.mod_lt _ (by omega)
  rw [Nat.mod_add_mod, Nat.add_assoc]
  have : (C - x % C) + x = C * (1 + x / C) := by
    have := Nat.div_add_mod x C
    rw [Nat.mul_add, Nat.mul_one]; omega
  rw [this, Nat.add_mul_mod_self_left, Nat.mod_eq_of_lt hc]

theorem mul_ne {c c0 : Nat} (hP : 0 < P) (h : c ≠ c0) : c * P ≠ c0 * P :=
  fun he => h (Nat.eq_of_mul_eq_mul_right hP he)

theorem mul_add_mod {c i : Nat} (h : i < P) : (c * P + i) % P = i := by
  rw [Nat.mul_comm, Nat.mul_add_mod, Nat.mod_eq_of_lt h]

theorem off_ne {c c0 i : Nat} (h1 : 1 ≤ i) (h2 : i < P) : c * P + i ≠ c0 * P := by
  intro h
  have : (c * P + i) % P = (c0 * P) % P := by rw [h]
  rw [mul_add_mod h2, Nat.mul_mod_left] at this
  omega

theorem BarInv.leader_step {ls : Nat → BarL} {g : BarG} (h : BarInv C P lg N ls g) (hP : 0 < P) {c0 : Nat}
    (hc0 : c0 < C) {l' : BarL} {g' : BarG}
    (htid : l'.tid = c0 * P)
    (hcalls : l'.calls = l'.rets + (if l'.pc = .idle then 0 else 1)) (hbound : l'.calls ≤ N)
    (hsens : ∀ t, t < C * P → g'.threadSenses t =
      if t = c0 * P then decide (l'.calls % 2 = 0) else g.threadSenses t)
    (hspin : l'.pc ≠ .spin) (hgath : ∀ i, l'.pc = .gather i → 1 ≤ i)
    (hround : ∀ i, (l'.pc = .send i ∨ l'.pc = .recv i) → i < lg ∧ 1 < C)
    (hadj : l'.pc = .adjust → 1 < C)
    (hcs : ∀ c, c < C → g'.coreSense c = if c = c0 then decide (l'.rets % 2 = 0) else g.coreSense c)
    (hpar : 1 < C → ∀ c, c < C → g'.parity c = if c = c0 then l'.ep % 2 else g.parity c)
    (hsen : 1 < C → ∀ c, c < C → g'.sense c = if c = c0 then decide ((l'.ep / 2) % 2 = 0) else g.sense c)
    (hcore : ∀ i, 1 ≤ i → i < P → (ls (c0 * P + i)).rets ≤ l'.rets ∧ l'.rets ≤ (ls (c0 * P + i)).calls ∧
      (ls (c0 * P + i)).calls ≤ l'.rets + 1)
    (hgathered : ∀ i, 1 ≤ i → i < P → (l'.pc.past = true ∨ ∃ k, l'.pc = .gather k ∧ i < k) →
      (ls (c0 * P + i)).calls = l'.rets + 1)
    (hflag : 1 < C → ∀ c p j, c < C → p < 2 → j < lg → g'.flags ((c + 2 ^ j) % C) p j =
      if c = c0 then flagVal (l'.sends lg j) p else g.flags ((c + 2 ^ j) % C) p j)
    (hdone : ∀ c', c' < C → c' ≠ c0 → l'.rets ≤ (ls (c' * P)).arr)
    (harr : (ls (c0 * P)).arr ≤ l'.arr)
    (hknow : l'.pc.past = true → ∀ c' d, c' < C → c' ≠ c0 → d < 2 ^ l'.pc.got lg → (c' + d) % C = c0 →
      l'.rets + 1 ≤ (ls (c' * P)).arr) :
    BarInv C P lg N (updT ls (c0 * P) l') g' := by
  have hL : updT ls (c0 * P) l' (c0 * P) = l' := updT_same _ _ _
  have hO : ∀ t, t ≠ c0 * P → updT ls (c0 * P) l' t = ls t := fun t ht => updT_other _ _ ht
  have hC : ∀ c, c ≠ c0 → updT ls (c0 * P) l' (c * P) = ls (c * P) := fun c hc => hO _ (mul_ne hP hc)
  have hI : ∀ c i, 1 ≤ i → i < P → updT ls (c0 * P) l' (c * P + i) = ls (c * P + i) :=
    fun c i h1 h2 => hO _ (off_ne h1 h2)
  refine ⟨?_, ?_, ?_, ?_, ?_, ?_, ?_, ?_, ?_, ?_, ?_, ?_, ?_, ?_, ?_, ?_, ?_⟩
  · intro t ht
    by_cases he : t = c0 * P
    · subst he; rw [hL]; exact htid
    · rw [hO t he]; exact h.tid t ht
  · intro t ht
    by_cases he : t = c0 * P
    · subst he; rw [hL]; exact hcalls
    · rw [hO t he]; exact h.calls t ht
  · intro t ht
    by_cases he : t = c0 * P
    · subst he; rw [hL]; exact hbound
    · rw [hO t he]; exact h.bound t ht
  · intro t ht
    rw [hsens t ht]
    by_cases he : t = c0 * P
    · subst he; rw [hL, if_pos rfl]
    · rw [hO t he, if_neg he]; exact h.senses t ht
  · intro c hc
    by_cases he : c = c0
    · subst he; rw [hL]; exact hspin
    · rw [hC c he]; exact h.leader c hc
  · intro t ht hm
    have he : t ≠ c0 * P := by rintro rfl; rw [Nat.mul_mod_left] at hm; exact hm rfl
    rw [hO t he]; exact h.slave t ht hm
  · intro c i hc
    by_cases he : c = c0
    · subst he; rw [hL]; exact hgath i
    · rw [hC c he]; exact h.gather c i hc
  · intro c i hc
    by_cases he : c = c0
    · subst he; rw [hL]; exact hround i
    · rw [hC c he]; exact h.round c i hc
  · intro c hc
    by_cases he : c = c0
    · subst he; rw [hL]; exact hadj
    · rw [hC c he]; exact h.adj c hc
  · intro c hc
    rw [hcs c hc]
    by_cases he : c = c0
    · subst he; rw [hL, if_pos rfl]
    · rw [hC c he, if_neg he]; exact h.cs c hc
  · intro h1 c hc
    rw [hpar h1 c hc]
    by_cases he : c = c0
    · subst he; rw [hL, if_pos rfl]
    · rw [hC c he, if_neg he]; exact h.par h1 c hc
  · intro h1 c hc
    rw [hsen h1 c hc]
    by_cases he : c = c0
    · subst he; rw [hL, if_pos rfl]
    · rw [hC c he, if_neg he]; exact h.sen h1 c hc
  · intro c i hc h1 h2
    rw [hI c i h1 h2]
    by_cases he : c = c0
    · subst he; rw [hL]; exact hcore i h1 h2
    · rw [hC c he]; exact h.core c i hc h1 h2
  · intro c i hc h1 h2
    rw [hI c i h1 h2]
    by_cases he : c = c0
    · subst he; rw [hL]; exact hgathered i h1 h2
    · rw [hC c he]; exact h.gathered c i hc h1 h2
  · intro h1 c p j hc hp hj
    rw [hflag h1 c p j hc hp hj]
    by_cases he : c = c0
    · subst he; rw [hL, if_pos rfl]
    · rw [hC c he, if_neg he]; exact h.flag h1 c p j hc hp hj
  · intro c c' hc hc'
    by_cases he : c = c0
    · subst he; rw [hL]
      by_cases he' : c' = c
      · subst he'; rw [hL]; unfold BarL.arr; omega
      · rw [hC c' he']; exact hdone c' hc' he'
    · rw [hC c he]
      by_cases he' : c' = c0
      · subst he'; rw [hL]; exact Nat.le_trans (h.done c c' hc hc') harr
      · rw [hC c' he']; exact h.done c c' hc hc'
  · intro c c' d hc hc'
    by_cases he : c = c0
    · subst he; rw [hL]
      by_cases he' : c' = c
      · subst he'; rw [hL]; intro hp _ _; unfold BarL.arr; rw [hp]; simp
      · rw [hC c' he']; intro hp; exact hknow hp c' d hc' he'
    · rw [hC c he]
      by_cases he' : c' = c0
      · subst he'; rw [hL]; intro h1 h2 h3
        exact Nat.le_trans (h.know c c' d hc hc' h1 h2 h3) harr
      · rw [hC c' he']; exact h.know c c' d hc hc'

theorem BarInv.slave_step {ls : Nat → BarL} {g : BarG} (h : BarInv C P lg N ls g) {c0 i0 : Nat}
    (hc0 : c0 < C) (hi0 : 1 ≤ i0) (hi1 : i0 < P) {l' : BarL} {g' : BarG}
    (htid : l'.tid = c0 * P + i0)
    (hcalls : l'.calls = l'.rets + (if l'.pc = .idle then 0 else 1)) (hbound : l'.calls ≤ N)
    (hpc : l'.pc = .idle ∨ l'.pc = .spin)
    (hsens : ∀ t, t < C * P → g'.threadSenses t =
      if t = c0 * P + i0 then decide (l'.calls % 2 = 0) else g.threadSenses t)
    (hg : g' = { g with threadSenses := g'.threadSenses })
    (hcore : l'.rets ≤ (ls (c0 * P)).rets ∧ (ls (c0 * P)).rets ≤ l'.calls ∧
      l'.calls ≤ (ls (c0 * P)).rets + 1)
    (hgathered : (ls (c0 * P + i0)).calls = (ls (c0 * P)).rets + 1 → l'.calls = (ls (c0 * P)).rets + 1) :
    BarInv C P lg N (updT ls (c0 * P + i0) l') g' := by
  have hL : updT ls (c0 * P + i0) l' (c0 * P + i0) = l' := updT_same _ _ _
  have hO : ∀ t, t ≠ c0 * P + i0 → updT ls (c0 * P + i0) l' t = ls t := fun t ht => updT_other _ _ ht
  have hC : ∀ c, updT ls (c0 * P + i0) l' (c * P) = ls (c * P) := fun c => hO _ (off_ne hi0 hi1).symm
  have hI : ∀ c i, i < P → ¬ (c = c0 ∧ i = i0) → updT ls (c0 * P + i0) l' (c * P + i) = ls (c * P + i) := by
    intro c i h2 hne
    refine hO _ ?_
    intro he
    have e1 : (c * P + i) % P = (c0 * P + i0) % P := by rw [he]
    rw [mul_add_mod h2, mul_add_mod hi1] at e1
    subst e1
    have : c * P = c0 * P := by omega
    exact hne ⟨Nat.eq_of_mul_eq_mul_right (by omega) this, rfl⟩
  rw [hg]
  refine ⟨?_, ?_, ?_, ?_, ?_, ?_, ?_, ?_, ?_, ?_, ?_, ?_, ?_, ?_, ?_, ?_, ?_⟩
  · intro t ht
    by_cases he : t = c0 * P + i0
    · subst he; rw [hL]; exact htid
    · rw [hO t he]; exact h.tid t ht
  · intro t ht
    by_cases he : t = c0 * P + i0
    · subst he; rw [hL]; exact hcalls
    · rw [hO t he]; exact h.calls t ht
  · intro t ht
    by_cases he : t = c0 * P + i0
    · subst he; rw [hL]; exact hbound
    · rw [hO t he]; exact h.bound t ht
  · intro t ht
    show g'.threadSenses t = _
    rw [hsens t ht]
    by_cases he : t = c0 * P + i0
    · subst he; rw [hL, if_pos rfl]
    · rw [hO t he, if_neg he]; exact h.senses t ht
  · intro c hc; rw [hC c]; exact h.leader c hc
  · intro t ht hm
    by_cases he : t = c0 * P + i0
    · subst he; rw [hL]; exact hpc
    · rw [hO t he]; exact h.slave t ht hm
  · intro c i hc; rw [hC c]; exact h.gather c i hc
  · intro c i hc; rw [hC c]; exact h.round c i hc
  · intro c hc; rw [hC c]; exact h.adj c hc
  · intro c hc; rw [hC c]; exact h.cs c hc
  · intro h1 c hc; rw [hC c]; exact h.par h1 c hc
  · intro h1 c hc; rw [hC c]; exact h.sen h1 c hc
  · intro c i hc h1 h2
    rw [hC c]
    by_cases he : c = c0 ∧ i = i0
    · obtain ⟨rfl, rfl⟩ := he; rw [hL]; exact hcore
    · rw [hI c i h2 he]; exact h.core c i hc h1 h2
  · intro c i hc h1 h2
    rw [hC c]
    by_cases he : c = c0 ∧ i = i0
    · obtain ⟨rfl, rfl⟩ := he; rw [hL]; intro hp; exact hgathered (h.gathered c i hc h1 h2 hp)
    · rw [hI c i h2 he]; exact h.gathered c i hc h1 h2
  · intro h1 c p j hc hp hj; rw [hC c]; exact h.flag h1 c p j hc hp hj
  · intro c c' hc hc'; rw [hC c, hC c']; exact h.done c c' hc hc'
  · intro c c' d hc hc'; rw [hC c, hC c']; exact h.know c c' d hc hc'

theorem sends_congr {l l' : BarL} {j : Nat} (h1 : l.rets = l'.rets)
    (h2 : j < l.pc.sent lg ↔ j < l'.pc.sent lg) : l.sends lg j = l'.sends lg j := by
  unfold BarL.sends
  by_cases h : j < l.pc.sent lg
  · rw [if_pos h, if_pos (h2.1 h), h1]
  · rw [if_neg h, if_neg (fun h' => h (h2.2 h')), h1]

/-- A core waiting in round `j` sees its flag set exactly when its predecessor has notified it in this episode. -/
theorem BarInv.recv_iff {ls : Nat → BarL} {g : BarG} (h : BarInv C P lg N ls g) {c c' j : Nat} (hc : c < C)
    (hc' : c' < C) (hpc : (ls (c * P)).pc = .recv j) (hp : (c' + 2 ^ j) % C = c) :
    g.flags c (g.parity c) j = g.sense c ↔ (ls (c * P)).rets + 1 ≤ (ls (c' * P)).sends lg j := by
  obtain ⟨hj, h1⟩ := h.round c j hc (Or.inr hpc)
  have e1 := h.par h1 c hc
  have e2 := h.sen h1 c hc
  have e3 := h.flag h1 c' (g.parity c) j hc' (by omega) hj
  rw [hp] at e3
  have hep : (ls (c * P)).ep = (ls (c * P)).rets := by simp [BarL.ep, hpc]
  rw [hep] at e1 e2
  rw [e3, e2]
  have d1 := h.done c c' hc hc'
  have d2 := h.done c' c hc' hc
  have a1 : (ls (c * P)).arr = (ls (c * P)).rets + 1 := by simp [BarL.arr, hpc, BarPc.past]
  have a2 : (ls (c' * P)).arr ≤ (ls (c' * P)).rets + 1 := by unfold BarL.arr; split <;> omega
  have a3 : (ls (c' * P)).rets ≤ (ls (c' * P)).sends lg j := by unfold BarL.sends; omega
  have a4 : (ls (c' * P)).sends lg j ≤ (ls (c' * P)).rets + 1 := by unfold BarL.sends; split <;> omega
  rw [e1]
  unfold flagVal
  rw [decide_eq_decide]
  generalize (ls (c * P)).rets = k at *
  generalize (ls (c' * P)).sends lg j = S at *
  omega

theorem leader_of {t : Nat} (ht : t < C * P) (hm : t % P = 0) : t = t / P * P ∧ t / P < C := by
  have := Nat.div_add_mod t P
  refine ⟨by rw [Nat.mul_comm]; omega, Nat.div_lt_of_lt_mul (by rw [Nat.mul_comm]; exact ht)⟩

theorem BarInv.step {ls : Nat → BarL} {g : BarG} (h : BarInv C P lg N ls g) (hP : 0 < P) (hlg : 1 ≤ lg)
    (hC : C ≤ 2 ^ lg) {t : Nat} (ht : t < C * P) {l' : BarL} {g' : BarG}
    (hs : barNext C P lg N (ls t) g = some (l', g')) : BarInv C P lg N (updT ls t l') g' := by
  have hc0 : t / P < C := Nat.div_lt_of_lt_mul (by rw [Nat.mul_comm]; exact ht)
  have htid := h.tid t ht
  have hcalls := h.calls t ht
  have hbound := h.bound t ht
  have hsen := h.senses t ht
  by_cases hm : t % P = 0
  · -- core thread 0
    obtain ⟨he, _⟩ := leader_of ht hm
    obtain ⟨c, hc⟩ : ∃ c, c = t / P := ⟨_, rfl⟩
    rw [← hc] at he hc0
    subst he
    clear hc
    have hdiv : c * P / P = c := Nat.mul_div_cancel _ hP
    have hns := h.leader c hc0
    have hcs := h.cs c hc0
    have hcore := fun i => h.core c i hc0
    have hgd := fun i => h.gathered c i hc0
    unfold barNext at hs
    rw [htid, hdiv, hm] at hs
    cases hpc : (ls (c * P)).pc with
    | idle =>
      simp only [hpc] at hs hcalls
      split at hs
      next hN =>
        simp only [Option.some.injEq, Prod.mk.injEq] at hs
        obtain ⟨rfl, rfl⟩ := hs
        simp only [if_true] at hcalls ⊢
        refine h.leader_step hP hc0 rfl (by simp; omega) (by show _ + 1 ≤ N; omega) ?_ (by simp) ?_ (by simp) (by simp)
          ?_ ?_ ?_ hcore ?_ ?_ ?_ ?_ (by simp [BarPc.past])
        · intro t' _
          simp only [upd1]
          split
          · next e => rw [hsen]; rw [← decide_not, decide_eq_decide]; omega
          · rfl
        · intro i hi; cases hi; omega
        · intro c' hc'
          split
          · next e => subst e; exact hcs
          · rfl
        · intro h1 c' hc'
          split
          · next e => subst e; rw [h.par h1 c' hc']; simp [BarL.ep, hpc]
          · rfl
        · intro h1 c' hc'
          split
          · next e => subst e; rw [h.sen h1 c' hc']; simp [BarL.ep, hpc]
          · rfl
        · intro i h1 h2 h3
          rcases h3 with h3 | ⟨k, h3, h4⟩
          · simp [BarPc.past] at h3
          · cases h3; omega
        · intro h1 c' p j hc' hp hj
          split
          · next e => subst e; rw [h.flag h1 c' p j hc' hp hj]; simp [BarL.sends, hpc, BarPc.sent]
          · rfl
        · intro c' hc' _; exact h.done c c' hc0 hc'
        · simp [BarL.arr, hpc, BarPc.past]
      next => simp at hs
    | gather i =>
      simp only [hpc] at hs hcalls
      have hi1 := h.gather c i hc0 hpc
      split at hs
      next hiP =>
        split at hs
        next => simp at hs
        next hne =>
          simp only [Option.some.injEq, Prod.mk.injEq] at hs
          obtain ⟨rfl, rfl⟩ := hs
          refine h.leader_step hP hc0 rfl (by simp; simpa using hcalls) hbound ?_ (by simp) ?_ (by simp) (by simp)
            ?_ ?_ ?_ hcore ?_ ?_ ?_ ?_ (by simp [BarPc.past])
          · intro t' _
            split
            · next e => rw [e, hsen]
            · rfl
          · intro k hk; cases hk; omega
          · intro c' hc'
            split
            · next e => subst e; exact hcs
            · rfl
          · intro h1 c' hc'
            split
            · next e => subst e; rw [h.par h1 c' hc']; simp [BarL.ep, hpc]
            · rfl
          · intro h1 c' hc'
            split
            · next e => subst e; rw [h.sen h1 c' hc']; simp [BarL.ep, hpc]
            · rfl
          · intro k h1 h2 h3
            rcases h3 with h3 | ⟨k', h3, h4⟩
            · simp [BarPc.past] at h3
            · cases h3
              by_cases hk : k < i
              · exact hgd k h1 h2 (Or.inr ⟨i, hpc, hk⟩)
              · have : k = i := by omega
                subst this
                have hx := hcore k h1 h2
                rw [h.senses _ (core_lt hc0 h2), hcs, decide_eq_decide] at hne
                show (ls (c * P + k)).calls = (ls (c * P)).rets + 1
                omega
          · intro h1 c' p j hc' hp hj
            split
            · next e => subst e; rw [h.flag h1 c' p j hc' hp hj]; simp [BarL.sends, hpc, BarPc.sent]
            · rfl
          · intro c' hc' _; exact h.done c c' hc0 hc'
          · simp [BarL.arr, hpc, BarPc.past]
      next hiP =>
        simp only [Option.some.injEq, Prod.mk.injEq] at hs
        obtain ⟨rfl, rfl⟩ := hs
        have hall : ∀ k, 1 ≤ k → k < P → (ls (c * P + k)).calls = (ls (c * P)).rets + 1 :=
          fun k h1 h2 => hgd k h1 h2 (Or.inr ⟨i, hpc, by omega⟩)
        by_cases hC1 : 1 < C
        · simp only [if_pos hC1]
          refine h.leader_step hP hc0 rfl (by simp; simpa using hcalls) hbound ?_ (by simp) (by simp) ?_ (by simp)
            ?_ ?_ ?_ hcore ?_ ?_ ?_ ?_ ?_
          · intro t' _
            split
            · next e => rw [e, hsen]
            · rfl
          · rintro k (hk | hk)
            · cases hk; exact ⟨by omega, hC1⟩
            · cases hk
          · intro c' hc'
            split
            · next e => subst e; exact hcs
            · rfl
          · intro h1 c' hc'
            split
            · next e => subst e; rw [h.par h1 c' hc']; simp [BarL.ep, hpc]
            · rfl
          · intro h1 c' hc'
            split
            · next e => subst e; rw [h.sen h1 c' hc']; simp [BarL.ep, hpc]
            · rfl
          · intro k h1 h2 _; exact hall k h1 h2
          · intro h1 c' p j hc' hp hj
            split
            · next e => subst e; rw [h.flag h1 c' p j hc' hp hj]; simp [BarL.sends, hpc, BarPc.sent]
            · rfl
          · intro c' hc' _; exact h.done c c' hc0 hc'
          · simp [BarL.arr, hpc, BarPc.past]
          · intro _ c' d hc' hne hd hmod
            have : d = 0 := by simp [BarPc.got] at hd; exact hd
            subst this
            rw [Nat.add_zero, Nat.mod_eq_of_lt hc'] at hmod
            exact absurd hmod hne
        · simp only [if_neg hC1]
          refine h.leader_step hP hc0 rfl (by simp; simpa using hcalls) hbound ?_ (by simp) (by simp) (by simp) (by simp)
            ?_ (by intro h1; omega) (by intro h1; omega) hcore ?_ (by intro h1; omega) ?_ ?_ ?_
          · intro t' _
            split
            · next e => rw [e, hsen]
            · rfl
          · intro c' hc'
            split
            · next e => subst e; exact hcs
            · rfl
          · intro k h1 h2 _; exact hall k h1 h2
          · intro c' hc' _; exact h.done c c' hc0 hc'
          · simp [BarL.arr, hpc, BarPc.past]
          · intro _ c' d hc' hne _ _; omega
    | send i =>
      simp only [hpc] at hs hcalls
      obtain ⟨hi, hC1⟩ := h.round c i hc0 (Or.inl hpc)
      simp only [Option.some.injEq, Prod.mk.injEq] at hs
      obtain ⟨rfl, rfl⟩ := hs
      have hpar := h.par hC1 c hc0
      have hsn := h.sen hC1 c hc0
      have hep : (ls (c * P)).ep = (ls (c * P)).rets := by simp [BarL.ep, hpc]
      rw [hep] at hpar hsn
      refine h.leader_step hP hc0 rfl (by simp; simpa using hcalls) hbound ?_ (by simp) (by simp) ?_ (by simp)
        ?_ ?_ ?_ hcore ?_ ?_ ?_ ?_ ?_
      · intro t' _
        split
        · next e => rw [e, hsen]
        · rfl
      · rintro k (hk | hk)
        · cases hk
        · cases hk; exact ⟨hi, hC1⟩
      · intro c' hc'
        split
        · next e => subst e; exact hcs
        · rfl
      · intro h1 c' hc'
        split
        · next e => subst e; rw [h.par h1 c' hc']; simp [BarL.ep, hpc]
        · rfl
      · intro h1 c' hc'
        split
        · next e => subst e; rw [h.sen h1 c' hc']; simp [BarL.ep, hpc]
        · rfl
      · intro k h1 h2 _; exact hgd k h1 h2 (Or.inl (by rw [hpc]; rfl))
      · intro h1 c' p j hc' hp hj
        show upd1 g.flags _ _ _ p j = _
        rw [upd3]
        by_cases hcc : c' = c
        · subst hcc
          rw [if_pos rfl]
          by_cases hji : j = i
          · subst hji
            have hS : BarL.sends lg j ⟨c' * P, (ls (c' * P)).calls, (ls (c' * P)).rets, .recv j⟩ =
                (ls (c' * P)).rets + 1 := by
              simp [BarL.sends, BarPc.sent]
            rw [hS]
            by_cases hpp : p = g.parity c'
            · rw [if_pos ⟨rfl, hpp, rfl⟩, hsn, hpp, hpar]
              unfold flagVal
              rw [decide_eq_decide]; omega
            · rw [if_neg (fun hh => hpp hh.2.1), h.flag h1 c' p j hc' hp hj]
              have hS0 : (ls (c' * P)).sends lg j = (ls (c' * P)).rets := by simp [BarL.sends, hpc, BarPc.sent]
              rw [hS0]
              unfold flagVal
              rw [decide_eq_decide]; omega
          · rw [if_neg (fun hh => hji hh.2.2), h.flag h1 c' p j hc' hp hj]
            refine congrArg (flagVal · p) (sends_congr rfl ?_)
            rw [hpc]; show j < i ↔ j < i + 1; omega
        · rw [if_neg hcc, if_neg]
          rintro ⟨he, _, rfl⟩; exact hcc (add_mod_inj hc' hc0 he)
      · intro c' hc' _; exact h.done c c' hc0 hc'
      · simp [BarL.arr, hpc, BarPc.past]
      · intro _ c' d hc' hne hd hmod
        exact h.know c c' d hc0 hc' (by rw [hpc]; rfl) (by rw [hpc]; exact hd) hmod
    | recv i =>
      simp only [hpc] at hs hcalls
      obtain ⟨hi, hC1⟩ := h.round c i hc0 (Or.inr hpc)
      split at hs
      next hflag =>
        simp only [Option.some.injEq, Prod.mk.injEq] at hs
        obtain ⟨rfl, rfl⟩ := hs
        -- the predecessor has sent, so it knows 2^i cores
        have hkn : ∀ c' d, c' < C → d < 2 ^ (i + 1) → (c' + d) % C = c →
            (ls (c * P)).rets + 1 ≤ (ls (c' * P)).arr := by
          intro c' d hc' hd hmod
          by_cases hd' : d < 2 ^ i
          · exact h.know c c' d hc0 hc' (by rw [hpc]; rfl) (by rw [hpc]; exact hd') hmod
          · obtain ⟨q, hq, hqc⟩ := exists_pred (C := C) (c := c) (x := 2 ^ i) hc0
            have hsnt := (h.recv_iff hc0 hq hpc hqc).1 hflag
            rw [Nat.pow_succ] at hd
            have hq2 : (c' + (d - 2 ^ i)) % C = q := by
              refine add_mod_inj (x := 2 ^ i) (Nat.mod_lt _ (by omega)) hq ?_
              rw [Nat.mod_add_mod, hqc, Nat.add_assoc, Nat.sub_add_cancel (by omega), hmod]
            by_cases hr : (ls (c * P)).rets < (ls (q * P)).rets
            · have := h.done q c' hq hc'; omega
            · have hb : (ls (q * P)).sends lg i = (ls (q * P)).rets + if i < (ls (q * P)).pc.sent lg then 1 else 0 := rfl
              have hlt : i < (ls (q * P)).pc.sent lg := by
                by_contra hn
                rw [if_neg hn] at hb; omega
              rw [if_pos hlt] at hb
              have hre : (ls (q * P)).rets = (ls (c * P)).rets := by omega
              rw [← hre]
              refine h.know q c' (d - 2 ^ i) hq hc' ?_ ?_ hq2
              · cases hq3 : (ls (q * P)).pc <;> rw [hq3] at hlt <;> simp [BarPc.sent] at hlt <;> rfl
              · have hgot : i ≤ (ls (q * P)).pc.got lg := by
                  cases hq3 : (ls (q * P)).pc <;> rw [hq3] at hlt <;> simp [BarPc.sent] at hlt <;>
                    simp [BarPc.got] <;> omega
                have := Nat.pow_le_pow_right (show 0 < 2 by omega) hgot
                omega
        have hgot : ∀ x, x = (if i + 1 < lg then BarPc.send (i + 1) else BarPc.adjust) →
            x.got lg = i + 1 ∧ x.sent lg = i + 1 ∧ x.past = true ∧ x ≠ .idle ∧ x ≠ .spin ∧ x ≠ .wake ∧
            (∀ k, x ≠ .gather k) ∧ (∀ k, x ≠ .recv k) ∧ (∀ k, x = .send k → k < lg) := by
          intro x hx
          split at hx
          · subst hx; refine ⟨rfl, rfl, rfl, by simp, by simp, by simp, by simp, by simp, ?_⟩
            intro k hk; cases hk; assumption
          · subst hx
            have : lg = i + 1 := by omega
            simp [BarPc.got, BarPc.sent, BarPc.past, this]
        generalize hx : (if i + 1 < lg then BarPc.send (i + 1) else BarPc.adjust) = x
        obtain ⟨g1, g2, g3, g4, g5, g6, g7, g8, g9⟩ := hgot x hx.symm
        refine h.leader_step hP hc0 rfl (by simp [g4]; simpa using hcalls) hbound ?_ g5 ?_ ?_ (fun _ => hC1)
          ?_ ?_ ?_ hcore ?_ ?_ ?_ ?_ ?_
        · intro t' _
          split
          · next e => rw [e, hsen]
          · rfl
        · intro k hk; exact absurd hk (g7 k)
        · rintro k (hk | hk)
          · exact ⟨g9 k hk, hC1⟩
          · exact absurd hk (g8 k)
        · intro c' hc'
          split
          · next e => subst e; exact hcs
          · rfl
        · intro h1 c' hc'
          split
          · next e => subst e; rw [h.par h1 c' hc']; simp [BarL.ep, hpc, g6]
          · rfl
        · intro h1 c' hc'
          split
          · next e => subst e; rw [h.sen h1 c' hc']; simp [BarL.ep, hpc, g6]
          · rfl
        · intro k h1 h2 _; exact hgd k h1 h2 (Or.inl (by rw [hpc]; rfl))
        · intro h1 c' p j hc' hp hj
          split
          · next e =>
            subst e; rw [h.flag h1 c' p j hc' hp hj]
            refine congrArg (flagVal · p) (sends_congr rfl ?_)
            rw [hpc]; show j < i + 1 ↔ j < x.sent lg; rw [g2]
          · rfl
        · intro c' hc' _; exact h.done c c' hc0 hc'
        · show _ ≤ (ls (c * P)).rets + if x.past then 1 else 0
          rw [g3]; simp [BarL.arr, hpc, BarPc.past]
        · intro _ c' d hc' hne hd hmod
          exact hkn c' d hc' (by rw [← g1]; exact hd) hmod
      next => simp at hs
    | adjust =>
      simp only [hpc] at hs hcalls
      have hC1 := h.adj c hc0 hpc
      simp only [Option.some.injEq, Prod.mk.injEq] at hs
      obtain ⟨rfl, rfl⟩ := hs
      have hpar := h.par hC1 c hc0
      have hsn := h.sen hC1 c hc0
      have hep : (ls (c * P)).ep = (ls (c * P)).rets := by simp [BarL.ep, hpc]
      rw [hep] at hpar hsn
      have hep' : BarL.ep ⟨c * P, (ls (c * P)).calls, (ls (c * P)).rets, .wake⟩ = (ls (c * P)).rets + 1 := by simp [BarL.ep]
      refine h.leader_step hP hc0 rfl (by simp; simpa using hcalls) hbound ?_ (by simp) (by simp) (by simp) (by simp)
        ?_ ?_ ?_ hcore ?_ ?_ ?_ ?_ ?_
      · intro t' _
        show g.threadSenses t' = _
        split
        · next e => rw [e, hsen]
        · rfl
      · intro c' hc'
        show g.coreSense c' = _
        split
        · next e => subst e; exact hcs
        · rfl
      · intro h1 c' hc'
        simp only [upd1]
        split
        · rw [hep', hpar]; omega
        · rfl
      · intro h1 c' hc'
        rw [hep']
        by_cases e : c' = c
        · subst e
          rw [if_pos rfl]
          by_cases hp1 : g.parity c' = 1
          · simp only [if_pos hp1, upd1, if_true]
            rw [hsn, ← decide_not, decide_eq_decide]; omega
          · simp only [if_neg hp1]
            rw [hsn, decide_eq_decide]; omega
        · rw [if_neg e]
          split
          · simp [upd1, e]
          · rfl
      · intro k h1 h2 _; exact hgd k h1 h2 (Or.inl (by rw [hpc]; rfl))
      · intro h1 c' p j hc' hp hj
        show g.flags ((c' + 2 ^ j) % C) p j = _
        by_cases e : c' = c
        · subst e; rw [if_pos rfl, h.flag h1 c' p j hc' hp hj]
          refine congrArg (flagVal · p) (sends_congr rfl ?_)
          rw [hpc]; exact Iff.rfl
        · rw [if_neg e]
      · intro c' hc' _; exact h.done c c' hc0 hc'
      · simp [BarL.arr, hpc, BarPc.past]
      · intro _ c' d hc' hne hd hmod
        exact h.know c c' d hc0 hc' (by rw [hpc]; rfl) (by rw [hpc]; exact hd) hmod
    | wake =>
      simp only [hpc] at hs hcalls
      simp only [Option.some.injEq, Prod.mk.injEq] at hs
      obtain ⟨rfl, rfl⟩ := hs
      have hall : ∀ k, 1 ≤ k → k < P → (ls (c * P + k)).calls = (ls (c * P)).rets + 1 :=
        fun k h1 h2 => hgd k h1 h2 (Or.inl (by rw [hpc]; rfl))
      have hcalls : (ls (c * P)).calls = (ls (c * P)).rets + 1 := by simpa using hcalls
      refine h.leader_step hP hc0 rfl (by simp; omega) hbound ?_ (by simp) (by simp) (by simp) (by simp)
        ?_ ?_ ?_ ?_ ?_ ?_ ?_ ?_ (by simp [BarPc.past])
      · intro t' _
        split
        · next e => rw [e, hsen]
        · rfl
      · intro c' hc'
        simp only [upd1]
        split
        · rw [hsen, decide_eq_decide]; omega
        · rfl
      · intro h1 c' hc'
        split
        · next e => subst e; rw [h.par h1 c' hc']; simp [BarL.ep, hpc]
        · rfl
      · intro h1 c' hc'
        split
        · next e => subst e; rw [h.sen h1 c' hc']; simp [BarL.ep, hpc]
        · rfl
      · intro k h1 h2
        have := hall k h1 h2
        have := hcore k h1 h2
        refine ⟨?_, ?_, ?_⟩
        · show _ ≤ (ls (c * P)).rets + 1; omega
        · show (ls (c * P)).rets + 1 ≤ _; omega
        · show _ ≤ (ls (c * P)).rets + 1 + 1; omega
      · intro k h1 h2 h3
        rcases h3 with h3 | ⟨k', h3, _⟩
        · simp [BarPc.past] at h3
        · cases h3
      · intro h1 c' p j hc' hp hj
        split
        · next e =>
          subst e; rw [h.flag h1 c' p j hc' hp hj]
          simp [BarL.sends, hpc, BarPc.sent, hj]
        · rfl
      · intro c' hc' hne
        obtain ⟨d, hd, hmod⟩ : ∃ d, d < C ∧ (c' + d) % C = c := by
          obtain ⟨d, h1, h2⟩ := exists_pred (C := C) (c := c) (x := c') hc0
          exact ⟨d, h1, by rw [Nat.add_comm]; exact h2⟩
        exact h.know c c' d hc0 hc' (by rw [hpc]; rfl)
          (by rw [hpc]; show d < 2 ^ lg; omega) hmod
      · simp [BarL.arr, hpc, BarPc.past]
    | spin => exact absurd hpc hns
  · -- other core threads
    obtain ⟨c, hc⟩ : ∃ c, c = t / P := ⟨_, rfl⟩
    obtain ⟨i, hi⟩ : ∃ i, i = t % P := ⟨_, rfl⟩
    have het : t = c * P + i := by rw [hc, hi, Nat.mul_comm]; exact (Nat.div_add_mod t P).symm
    rw [← hc] at hc0
    have hiP : i < P := by rw [hi]; exact Nat.mod_lt _ hP
    have hi1 : 1 ≤ i := by omega
    have hcore := h.core c i hc0 hi1 hiP
    unfold barNext at hs
    rw [htid, ← hc, ← hi] at hs
    clear hc hi
    subst het
    rcases h.slave _ ht hm with hpc | hpc
    · simp only [hpc] at hs hcalls
      split at hs
      next hN =>
        simp only [Option.some.injEq, Prod.mk.injEq] at hs
        obtain ⟨rfl, rfl⟩ := hs
        simp only [show ¬ i = 0 by omega, if_false] at hcalls ⊢
        simp only [if_true] at hcalls
        refine h.slave_step hc0 hi1 hiP rfl (by simp; omega) (by show _ + 1 ≤ N; omega) (Or.inr rfl) ?_ rfl ?_ ?_
        · intro t' _
          simp only [upd1]
          split
          · rw [hsen, ← decide_not, decide_eq_decide]; omega
          · rfl
        · refine ⟨hcore.1, ?_, ?_⟩
          · show _ ≤ (ls (c * P + i)).calls + 1; omega
          · show (ls (c * P + i)).calls + 1 ≤ _; omega
        · intro he; omega
      next => simp at hs
    · simp only [hpc] at hs hcalls
      split at hs
      next heq =>
        simp only [Option.some.injEq, Prod.mk.injEq] at hs
        obtain ⟨rfl, rfl⟩ := hs
        rw [h.cs c hc0, hsen, decide_eq_decide] at heq
        simp at hcalls
        refine h.slave_step hc0 hi1 hiP rfl (by simp; omega) hbound (Or.inl rfl) ?_ rfl ?_ ?_
        · intro t' _
          split
          · next e => rw [e, hsen]
          · rfl
        · refine ⟨?_, hcore.2.1, hcore.2.2⟩
          show (ls (c * P + i)).rets + 1 ≤ _
          omega
        · intro he; exact he
      next => simp at hs

/-- Measure of a thread's remaining work. -/
def barRank (P lg N : Nat) (l : BarL) : Nat :=
  (N - l.calls) * (2 * lg + P + 7) +
    match l.pc with
    | .idle => 0
    | .gather i => 2 * lg + 5 + (P + 1 - i)
    | .send i => 2 * (lg - i) + 4
    | .recv i => 2 * (lg - i) + 3
    | .adjust => 2
    | .wake => 1
    | .spin => 1

theorem barRank_step {l l' : BarL} {g g' : BarG} (hs : barNext C P lg N l g = some (l', g')) :
    barRank P lg N l' < barRank P lg N l := by
  obtain ⟨tid, calls, rets, pc⟩ := l
  unfold barNext at hs
  cases pc with
  | idle =>
    simp only at hs
    split at hs
    · next hlt =>
      simp only [Option.some.injEq, Prod.mk.injEq] at hs
      obtain ⟨rfl, -⟩ := hs
      have hlt : calls < N := hlt
      obtain ⟨d, rfl⟩ : ∃ d, N = calls + 1 + d := ⟨N - calls - 1, by omega⟩
      have h1 : calls + 1 + d - calls = d + 1 := by omega
      have h2 : calls + 1 + d - (calls + 1) = d := by omega
      unfold barRank
      simp only [h1, h2, Nat.add_mul, Nat.one_mul]
      split <;> rename_i he <;> split at he <;> simp at he <;> omega
    · simp at hs
  | gather i =>
    simp only at hs
    split at hs
    · split at hs
      · simp at hs
      · simp only [Option.some.injEq, Prod.mk.injEq] at hs
        obtain ⟨rfl, -⟩ := hs
        unfold barRank; dsimp only; omega
    · simp only [Option.some.injEq, Prod.mk.injEq] at hs
      obtain ⟨rfl, -⟩ := hs
      unfold barRank; dsimp only
      split <;> rename_i he <;> split at he <;> simp at he <;> omega
  | send i =>
    simp only [Option.some.injEq, Prod.mk.injEq] at hs
    obtain ⟨rfl, -⟩ := hs
    unfold barRank; dsimp only; omega
  | recv i =>
    simp only at hs
    split at hs
    · simp only [Option.some.injEq, Prod.mk.injEq] at hs
      obtain ⟨rfl, -⟩ := hs
      unfold barRank; dsimp only
      split <;> rename_i he <;> split at he <;> simp at he <;> omega
    · simp at hs
  | adjust =>
    simp only [Option.some.injEq, Prod.mk.injEq] at hs
    obtain ⟨rfl, -⟩ := hs
    unfold barRank; dsimp only; omega
  | wake =>
    simp only [Option.some.injEq, Prod.mk.injEq] at hs
    obtain ⟨rfl, -⟩ := hs
    unfold barRank; dsimp only; omega
  | spin =>
    simp only at hs
    split at hs
    · simp only [Option.some.injEq, Prod.mk.injEq] at hs
      obtain ⟨rfl, -⟩ := hs
      unfold barRank; dsimp only; omega
    · simp at hs

theorem barAcc (l : BarL) : Acc (fun l' l => ∃ g g', (barMachine C P lg N).step l g l' g') l := by
  have : ∀ n l, barRank P lg N l < n → Acc (fun l' l => ∃ g g', (barMachine C P lg N).step l g l' g') l := by
    intro n
    induction n with
    | zero => intro l h; omega
    | succ n ih =>
      intro l hl
      constructor
      rintro l' ⟨g, g', hs⟩
      exact ih l' (Nat.lt_of_lt_of_le (barRank_step hs) (by omega))
  exact this _ l (Nat.lt_succ_self _)

/-- A minimal element of a nonempty set of cores. -/
theorem exists_min_below (p : Nat → Prop) (f : Nat → Nat) (hex : ∃ c, p c) :
    ∃ c, p c ∧ ∀ c', p c' → f c ≤ f c' := by
  obtain ⟨c, hc⟩ := hex
  have : ∀ n c, p c → f c < n → ∃ c, p c ∧ ∀ c', p c' → f c ≤ f c' := by
    intro n
    induction n with
    | zero => intro c _ h; omega
    | succ n ih =>
      intro c hc hn
      by_cases h : ∀ c', p c' → f c ≤ f c'
      · exact ⟨c, hc, h⟩
      · simp only [not_forall] at h
        obtain ⟨c', hp, hlt⟩ := h
        exact ih c' hp (by omega)
  exact this _ c hc (Nat.lt_succ_self _)

theorem BarInv.progress {ls : Nat → BarL} {g : BarG} (h : BarInv C P lg N ls g) (hP : 0 < P)
    (hstuck : ∀ t, t < C * P → barNext C P lg N (ls t) g = none) :
    ∀ t, t < C * P → (ls t).pc = .idle ∧ (ls t).calls = N := by
  -- idle threads have finished
  have hidle : ∀ t, t < C * P → (ls t).pc = .idle → (ls t).calls = N := by
    intro t ht hpc
    have hs := hstuck t ht
    have hb := h.bound t ht
    unfold barNext at hs
    rw [hpc] at hs
    simp only at hs
    split at hs
    · simp at hs
    · omega
  have hslave : ∀ c i, c < C → 1 ≤ i → i < P →
      (ls (c * P + i)).calls = (ls (c * P)).rets + 1 ∨
      ((ls (c * P + i)).pc = .idle ∧ (ls (c * P + i)).calls = N ∧ N ≤ (ls (c * P)).rets) := by
    intro c i hc h1 h2
    have ht := core_lt (C := C) hc h2
    have hco := h.core c i hc h1 h2
    have hcl := h.calls _ ht
    rcases h.slave _ ht (by rw [mul_add_mod h2]; omega) with hpc | hpc
    · have := hidle _ ht hpc
      rw [hpc, if_pos rfl] at hcl
      exact Or.inr ⟨hpc, this, by omega⟩
    · have hs := hstuck _ ht
      unfold barNext at hs
      rw [hpc] at hs
      simp only [h.tid _ ht] at hs
      have hd : (c * P + i) / P = c := by
        rw [Nat.mul_comm, Nat.mul_add_div hP, Nat.div_eq_of_lt h2]; omega
      rw [hd] at hs
      split at hs
      · simp at hs
      · next hne =>
        rw [h.cs c hc, h.senses _ ht] at hne
        left
        have : ¬ (ls (c * P)).rets = (ls (c * P + i)).calls := by
          intro he; rw [he] at hne; exact hne rfl
        omega
  have hleader : ∀ c, c < C → ((ls (c * P)).pc = .idle ∧ (ls (c * P)).rets = N) ∨
      ∃ i, (ls (c * P)).pc = .recv i ∧ g.flags c (g.parity c) i ≠ g.sense c := by
    intro c hc
    have ht : c * P < C * P := by simpa using core_lt (P := P) (i := 0) hc hP
    have hs := hstuck _ ht
    have hcl := h.calls _ ht
    have hb := h.bound _ ht
    have hd : c * P / P = c := Nat.mul_div_cancel _ hP
    cases hpc : (ls (c * P)).pc with
    | idle =>
      left
      have := hidle _ ht hpc
      rw [hpc, if_pos rfl] at hcl
      exact ⟨rfl, by omega⟩
    | gather i =>
      exfalso
      have h1 := h.gather c i hc hpc
      unfold barNext at hs
      rw [hpc] at hs hcl
      simp only [h.tid _ ht, hd] at hs
      rw [if_neg (by simp)] at hcl
      split at hs
      · next h2 =>
        split at hs
        · next he =>
          rw [h.cs c hc, h.senses _ (core_lt hc h2)] at he
          have hco := h.core c i hc h1 h2
          rcases hslave c i hc h1 h2 with e | ⟨-, e1, e2⟩
          · rw [e] at he
            simp only [decide_eq_decide] at he
            omega
          · omega
        · simp at hs
      · simp at hs
    | send i => exfalso; unfold barNext at hs; rw [hpc] at hs; simp at hs
    | recv i =>
      right
      refine ⟨i, rfl, ?_⟩
      intro he
      unfold barNext at hs
      rw [hpc] at hs
      simp only [h.tid _ ht, hd, he, if_true] at hs
      simp at hs
    | adjust => exfalso; unfold barNext at hs; rw [hpc] at hs; simp at hs
    | wake => exfalso; unfold barNext at hs; rw [hpc] at hs; simp at hs
    | spin => exact absurd hpc (h.leader c hc)
  have hall : ∀ c, c < C → (ls (c * P)).pc = .idle ∧ (ls (c * P)).rets = N := by
    apply Classical.byContradiction
    intro hx
    simp only [not_forall] at hx
    obtain ⟨c0, hc0, hx⟩ := hx
    obtain ⟨c, ⟨hc, i, hpc⟩, hmin⟩ := exists_min_below
      (fun c => c < C ∧ ∃ i, (ls (c * P)).pc = .recv i)
      (fun c => (ls (c * P)).rets * (lg + 1) + (ls (c * P)).pc.got lg)
      ⟨c0, hc0, by rcases hleader c0 hc0 with h | ⟨i, h, -⟩; exacts [absurd h hx, ⟨i, h⟩]⟩
    have ht : c * P < C * P := by simpa using core_lt (P := P) (i := 0) hc hP
    obtain ⟨hi, -⟩ := h.round c i hc (Or.inr hpc)
    obtain ⟨c', hc', hp⟩ := exists_pred (C := C) (x := 2 ^ i) hc
    have hcl := h.calls _ ht
    have hb := h.bound _ ht
    rw [hpc, if_neg (by simp)] at hcl
    have hne : g.flags c (g.parity c) i ≠ g.sense c := by
      rcases hleader c hc with ⟨hh, -⟩ | ⟨i', hh, hf⟩
      · rw [hpc] at hh; exact absurd hh (by simp)
      · rw [hpc] at hh; cases hh; exact hf
    apply hne
    rw [h.recv_iff hc hc' hpc hp]
    rcases hleader c' hc' with ⟨hh, hr⟩ | ⟨i', hh, -⟩
    · unfold BarL.sends; omega
    · have hm := hmin c' ⟨hc', i', hh⟩
      obtain ⟨hi', -⟩ := h.round c' i' hc' (Or.inr hh)
      simp only [hpc, hh, BarPc.got] at hm
      have hle : (ls (c * P)).rets ≤ (ls (c' * P)).rets := by
        apply Nat.le_of_lt_succ
        apply Nat.lt_of_mul_lt_mul_right (a := lg + 1)
        rw [Nat.succ_mul]; omega
      rcases Nat.lt_or_eq_of_le hle with hlt | heq
      · unfold BarL.sends; omega
      · rw [heq] at hm ⊢
        have : i < (ls (c' * P)).pc.sent lg := by rw [hh]; show i < i' + 1; omega
        unfold BarL.sends
        rw [if_pos this]
  intro t ht
  have hc : t / P < C := Nat.div_lt_of_lt_mul (by rw [Nat.mul_comm]; exact ht)
  have htd : t = t / P * P + t % P := by rw [Nat.mul_comm]; exact (Nat.div_add_mod t P).symm
  by_cases hm : t % P = 0
  · have := hall _ hc
    rw [hm, Nat.add_zero] at htd
    rw [← htd] at this
    exact ⟨this.1, hidle t ht this.1⟩
  · have hlt := Nat.mod_lt t hP
    have hb := h.bound t ht
    have h2 := (hall _ hc).2
    have := hslave (t / P) (t % P) hc (by omega) hlt
    rw [← htd] at this
    rcases this with h1 | ⟨h1, h3, -⟩
    · omega
    · exact ⟨h1, h3⟩

theorem BarInv.not_bad {ls : Nat → BarL} {g : BarG} (h : BarInv C P lg N ls g) (hP : 0 < P) {t : Nat}
    (ht : t < C * P) : ¬ barBad C P lg (ls t) g := by
  have hc : t / P < C := Nat.div_lt_of_lt_mul (by rw [Nat.mul_comm]; exact ht)
  have htd : t = t / P * P + t % P := by rw [Nat.mul_comm]; exact (Nat.div_add_mod t P).symm
  intro hb
  unfold barBad at hb
  by_cases hm : t % P = 0
  · rw [hm, Nat.add_zero] at htd
    have hr := fun i => h.round (t / P) i hc
    rw [← htd] at hr
    split at hb
    · rw [h.tid t ht] at hb
      have := core_lt hc hb.1
      omega
    · next i e => have := hr i (Or.inl e); omega
    · next i e => have := hr i (Or.inr e); omega
    · exact hb
  · rcases h.slave t ht hm with e | e <;> rw [e] at hb <;> exact hb

/-- A thread that has returned from `k` waits proves that all threads have called at least `k`. -/
theorem BarInv.safe {ls : Nat → BarL} {g : BarG} (h : BarInv C P lg N ls g) (hP : 0 < P) {t u : Nat}
    (ht : t < C * P) (hu : u < C * P) : (ls t).rets ≤ (ls u).calls := by
  have key : ∀ t, t < C * P → t / P < C ∧ (ls t).rets ≤ (ls (t / P * P)).rets ∧
      (ls (t / P * P)).arr ≤ (ls t).calls := by
    intro t ht
    have hc : t / P < C := Nat.div_lt_of_lt_mul (by rw [Nat.mul_comm]; exact ht)
    have htd : t = t / P * P + t % P := by rw [Nat.mul_comm]; exact (Nat.div_add_mod t P).symm
    refine ⟨hc, ?_⟩
    by_cases hm : t % P = 0
    · rw [hm, Nat.add_zero] at htd
      rw [← htd]
      refine ⟨Nat.le_refl _, ?_⟩
      rw [h.calls t ht]
      unfold BarL.arr
      cases hpc : (ls t).pc <;> simp [BarPc.past]
    · have hlt := Nat.mod_lt t hP
      have h1 := h.core (t / P) (t % P) hc (by omega) hlt
      have h2 := h.gathered (t / P) (t % P) hc (by omega) hlt
      rw [← htd] at h1 h2
      refine ⟨h1.1, ?_⟩
      unfold BarL.arr
      split
      · next hp => rw [h2 (Or.inl hp)]
      · exact h1.2.1
  obtain ⟨h1, h2, -⟩ := key t ht
  obtain ⟨h3, -, h4⟩ := key u hu
  have := h.done _ _ h1 h3
  omega

end

end SpMP
