import Verif.RelyGuar
/-
The concurrent bit vector (/repo/reordering/BitVector.hpp).
-/

namespace SpMP

/-- BitVector.hpp:30, 69-76: one array of `char`; `sizeof(BitVectorType)` is 1, so every element has a byte of its own and the mask is 1. -/
abbrev BvTy : Unit → Type := fun _ => BitVec 8

abbrev BvProg := Prog BvTy

/-- BitVector.hpp:39-41, body of the parallel loop of the constructor. -/
def bvInit (i : Nat) : BvProg Unit := Prog.write (ty := BvTy) () (i : Int) 0#8

/-- BitVector.hpp:50-52. -/
def bvGet (i : Nat) : BvProg Bool := do
  let v ← Prog.read (ty := BvTy) () (i : Int)
  pure ((v &&& 1#8) != 0#8)

/-- BitVector.hpp:46-48: `|=` is a separate read and write. -/
def bvSet (i : Nat) : BvProg Unit := do
  let v ← Prog.read (ty := BvTy) () (i : Int)
  Prog.write (ty := BvTy) () (i : Int) (v ||| 1#8)

/-- BitVector.hpp:54-63. -/
def bvTestAndSet (i : Nat) : BvProg Bool := do
  let b ← bvGet i
  if b then pure false
  else do
    let prev ← Prog.atomic (ty := BvTy) () (i : Int) (fun v => v ||| 1#8)
    pure (!((prev &&& 1#8) != 0#8))

/-- BitVector.hpp:65-67. -/
def bvClear (i : Nat) : BvProg Unit := do
  let _ ← Prog.atomic (ty := BvTy) () (i : Int) (fun v => v &&& ~~~1#8)
  pure ()

/-! ### Specification -/

/-- The operations; `set` and `clear` return nothing, recorded as `false`. -/
inductive BvOp
  | get (i : Nat)
  | set (i : Nat)
  | testAndSet (i : Nat)
  | clear (i : Nat)
  deriving DecidableEq

def BvOp.ix : BvOp → Nat
  | .get i => i
  | .set i => i
  | .testAndSet i => i
  | .clear i => i

def BvOp.prog : BvOp → BvProg Bool
  | .get i => bvGet i
  | .set i => do bvSet i; pure false
  | .testAndSet i => bvTestAndSet i
  | .clear i => do bvClear i; pure false

/-- A set of flags. -/
abbrev Flags := Nat → Bool

def Flags.put (s : Flags) (i : Nat) (b : Bool) : Flags := fun j => if j = i then b else s j

/-- What an operation does to a set of flags, and what it returns, when nothing runs in parallel. -/
def BvOp.spec (s : Flags) : BvOp → Flags × Bool
  | .get i => (s, s i)
  | .set i => (s.put i true, false)
  | .testAndSet i => (s.put i true, !s i)
  | .clear i => (s.put i false, false)

/-- The log lists calls (thread, operation, result) as if executed one after the other from `s` to `s'`. -/
inductive Legal : Flags → List (Nat × BvOp × Bool) → Flags → Prop
  | nil (s : Flags) : Legal s [] s
  | snoc {s s' : Flags} {l : List (Nat × BvOp × Bool)} (h : Legal s l s') (t : Nat) (op : BvOp) :
      Legal s (l ++ [(t, op, (op.spec s').2)]) (op.spec s').1

/-- A thread's program: calls that may depend on earlier results. -/
inductive BvClient (α : Type)
  | done (a : α)
  | call (op : BvOp) (k : Bool → BvClient α)

def BvClient.prog {α : Type} : BvClient α → BvProg α
  | .done a => pure a
  | .call op k => do
    let b ← op.prog
    (k b).prog

/-- All elements a client may name are below `n`. -/
def BvClient.InRange {α : Type} (n : Nat) : BvClient α → Prop
  | .done _ => True
  | .call op k => op.ix < n ∧ ∀ b, (k b).InRange n

/-- The client makes exactly these calls, gets these results and ends with `r`. -/
def BvClient.Trace {α : Type} : BvClient α → List (BvOp × Bool) → α → Prop
  | .done a, l, r => l = [] ∧ a = r
  | .call op k, l, r => ∃ b l', l = (op, b) :: l' ∧ (k b).Trace l' r

/-- The calls of thread `t` in the log. -/
def callsOf (t : Nat) (log : List (Nat × BvOp × Bool)) : List (BvOp × Bool) := (log.filter fun e => e.1 = t).map Prod.snd

/-- The byte of a flag. -/
def flagByte (b : Bool) : BitVec 8 := if b then 1#8 else 0#8

/-- The array holds the flags `s`. -/
def HoldsFlags (m : Mem BvTy) (n : Nat) (s : Flags) : Prop := ∀ i : Nat, i < n → m () (i : Int) = some (flagByte (s i))

/-! ### Proofs -/

theorem callsOf_append (t : Nat) (l l' : List (Nat × BvOp × Bool)) : callsOf t (l ++ l') = callsOf t l ++ callsOf t l' := by
  simp [callsOf]

theorem callsOf_self (t : Nat) (x : BvOp × Bool) : callsOf t [(t, x)] = [x] := by simp [callsOf]

theorem callsOf_other {t u : Nat} (h : u ≠ t) (x : BvOp × Bool) : callsOf t [(u, x)] = [] := by simp [callsOf, h]

section
variable {T n : Nat} {s0 : Flags} {sz : Unit → Int}

abbrev BvLog := List (Nat × BvOp × Bool)

structure BvInv (T n : Nat) (s0 : Flags) (g : BvLog) (m : Mem BvTy) : Prop where
  legal : ∃ s, Legal s0 g s ∧ HoldsFlags m n s
  thr : ∀ e ∈ g, e.1 < T

def bvRely (t : Nat) (g : BvLog) (_ : Mem BvTy) (g' : BvLog) (_ : Mem BvTy) : Prop := callsOf t g' = callsOf t g

def bvGuar (t : Nat) (g : BvLog) (_ : Mem BvTy) (g' : BvLog) (_ : Mem BvTy) : Prop := ∀ u, u ≠ t → callsOf u g' = callsOf u g

theorem BvInv.add {g : BvLog} {m m' : Mem BvTy} {s : Flags} {t : Nat} {op : BvOp} {b : Bool} (hl : Legal s0 g s) (ht : t < T) (hthr : ∀ e ∈ g, e.1 < T)
    (hb : b = (op.spec s).2) (hm : HoldsFlags m' n (op.spec s).1) :
    BvInv T n s0 (g ++ [(t, op, b)]) m' ∧ bvGuar t g m (g ++ [(t, op, b)]) m' := by
  subst hb
  refine ⟨⟨⟨_, hl.snoc t op, hm⟩, ?_⟩, ?_⟩
  · intro e he
    rcases List.mem_append.mp he with he | he
    · exact hthr e he
    · rw [List.mem_singleton.mp he]; exact ht
  · intro u hu
    rw [callsOf_append, callsOf_other (Ne.symm hu), List.append_nil]

theorem flagByte_and (b : Bool) : ((flagByte b &&& 1#8) != 0#8) = b := by cases b <;> decide

theorem flagByte_or (b : Bool) : flagByte b ||| 1#8 = flagByte true := by cases b <;> decide

theorem flagByte_clear (b : Bool) : flagByte b &&& ~~~1#8 = flagByte false := by cases b <;> decide

theorem HoldsFlags.put {m : Mem BvTy} {s : Flags} (h : HoldsFlags m n s) (i : Nat) (b : Bool) :
    HoldsFlags (m.set () (i : Int) (flagByte b)) n (s.put i b) := by
  intro j hj
  unfold Flags.put
  by_cases he : j = i
  · subst he; simp [Mem.set]
  · have : (j : Int) ≠ i := by omega
    rw [if_neg he]
    simp only [Mem.set, true_and, this, if_false, dite_false]
    exact h j hj

/-- One call: the log grows by exactly this call. -/
theorem wpRG_op {t : Nat} {op : BvOp} {g : BvLog} {m : Mem BvTy} (ht : t < T) (hi : op.ix < n) (hsz : (n : Int) ≤ sz ()) :
    wpRG sz (BvInv T n s0) (bvRely t) (bvGuar t) op.prog g m
      (fun b g' _ => callsOf t g' = callsOf t g ++ [(op, b)]) := by
  have same : ∀ g m, bvGuar t g m g m := fun g m u _ => rfl
  cases op with
  | get i =>
    have hi : i < n := hi
    rintro g1 m1 hr ⟨⟨s, hl, hh⟩, hthr⟩
    refine ⟨_, hh i hi, ?_⟩
    obtain ⟨h1, h2⟩ := BvInv.add (T := T) (n := n) (m := m1) (m' := m1) (t := t) (op := .get i) (b := s i) hl ht hthr rfl hh
    refine ⟨_, h2, h1, ?_⟩
    rintro g2 m2 hr2 _
    unfold bvRely at hr hr2
    rw [hr2, callsOf_append, callsOf_self, hr, flagByte_and]
  | set i =>
    have hi : i < n := hi
    rintro g1 m1 hr ⟨⟨s, hl, hh⟩, hthr⟩
    refine ⟨_, hh i hi, g1, same _ _, ⟨⟨s, hl, hh⟩, hthr⟩, ?_⟩
    rintro g2 m2 hr2 ⟨⟨s2, hl2, hh2⟩, hthr2⟩
    refine ⟨by omega, by omega, ?_⟩
    have hw : (flagByte (s i) ||| 1#8) = flagByte true := flagByte_or _
    obtain ⟨h1, h2⟩ := BvInv.add (T := T) (n := n) (m := m2) (m' := m2.set () (i : Int) (flagByte true)) (t := t) (op := .set i) (b := false)
      hl2 ht hthr2 rfl (hh2.put i true)
    rw [hw]
    refine ⟨_, h2, h1, ?_⟩
    rintro g3 m3 hr3 _
    unfold bvRely at hr hr2 hr3
    rw [hr3, callsOf_append, callsOf_self, hr2, hr]
  | testAndSet i =>
    have hi : i < n := hi
    rintro g1 m1 hr ⟨⟨s, hl, hh⟩, hthr⟩
    refine ⟨_, hh i hi, ?_⟩
    have e := flagByte_and (s i)
    cases hs : s i with
    | true =>
      obtain ⟨h1, h2⟩ := BvInv.add (T := T) (n := n) (m := m1) (m' := m1) (t := t) (op := .testAndSet i) (b := false) hl ht hthr
        (by simp [BvOp.spec, hs])
        (by
          have : (BvOp.testAndSet i).spec s = (s, false) := by
            refine Prod.ext ?_ (by simp [BvOp.spec, hs])
            funext j
            simp only [BvOp.spec, Flags.put]
            by_cases hj : j = i
            · subst hj; simp [hs]
            · simp [hj]
          rw [this]; exact hh)
      refine ⟨_, h2, h1, ?_⟩
      rintro g2 m2 hr2 _
      unfold bvRely at hr hr2
      rw [hr2, callsOf_append, callsOf_self, hr]
    | false =>
      refine ⟨g1, same _ _, ⟨⟨s, hl, hh⟩, hthr⟩, ?_⟩
      rintro g2 m2 hr2 ⟨⟨s2, hl2, hh2⟩, hthr2⟩
      refine ⟨by omega, by omega, _, hh2 i hi, ?_⟩
      obtain ⟨h1, h2⟩ := BvInv.add (T := T) (n := n) (m := m2) (m' := m2.set () (i : Int) (flagByte true)) (t := t) (op := .testAndSet i)
        (b := !s2 i) hl2 ht hthr2 rfl (hh2.put i true)
      have hw : (fun v : BitVec 8 => v ||| 1#8) (flagByte (s2 i)) = flagByte true := flagByte_or _
      rw [hw]
      refine ⟨_, h2, h1, ?_⟩
      rintro g3 m3 hr3 _
      unfold bvRely at hr hr2 hr3
      rw [hr3, callsOf_append, callsOf_self, hr2, hr, flagByte_and]
  | clear i =>
    have hi : i < n := hi
    rintro g1 m1 hr ⟨⟨s, hl, hh⟩, hthr⟩
    refine ⟨by omega, by omega, _, hh i hi, ?_⟩
    obtain ⟨h1, h2⟩ := BvInv.add (T := T) (n := n) (m := m1) (m' := m1.set () (i : Int) (flagByte false)) (t := t) (op := .clear i) (b := false)
      hl ht hthr rfl (hh.put i false)
    have hw : (fun v : BitVec 8 => v &&& ~~~1#8) (flagByte (s i)) = flagByte false := flagByte_clear _
    rw [hw]
    refine ⟨_, h2, h1, ?_⟩
    rintro g2 m2 hr2 _
    unfold bvRely at hr hr2
    rw [hr2, callsOf_append, callsOf_self, hr]

theorem wpRG_client {α : Type} {t : Nat} (ht : t < T) (hsz : (n : Int) ≤ sz ()) (c : BvClient α) :
    ∀ {g : BvLog} {m : Mem BvTy}, BvInv T n s0 g m → c.InRange n →
    wpRG sz (BvInv T n s0) (bvRely t) (bvGuar t) c.prog g m
      (fun r g' _ => ∃ l, callsOf t g' = callsOf t g ++ l ∧ c.Trace l r) := by
  induction c with
  | done a =>
    intro g m _ _ g' m' hr _
    exact ⟨[], by rw [List.append_nil]; exact hr, rfl, rfl⟩
  | call op k ih =>
    intro g m hinv hin
    refine wpRG_bind (Rely := bvRely t) (fun _ _ => rfl) (fun g1 m1 g2 m2 g3 m3 h1 h2 => Eq.trans h2 h1) hinv ?_
    refine wpRG_mono (wpRG_op ht hin.1 hsz) ?_
    intro b g1 m1 hi1 hc
    refine wpRG_mono (ih b hi1 (hin.2 b)) ?_
    rintro r g2 m2 _ ⟨l, h1, h2⟩
    refine ⟨(op, b) :: l, ?_, b, l, rfl, h2⟩
    rw [h1, hc, List.append_assoc]; rfl

/-- Every interleaving of the clients is equivalent to one in which the calls are executed one after the other. -/
theorem bv_linear {α : Type} {c : Nat → BvClient α} {m0 : Mem BvTy} (hsz : (n : Int) ≤ sz ()) (hm : HoldsFlags m0 n s0)
    (hin : ∀ t, t < T → (c t).InRange n) :
    ParOk sz T (fun r m => ∃ log s, Legal s0 log s ∧ HoldsFlags m n s ∧ (∀ e ∈ log, e.1 < T) ∧
      ∀ t, t < T → (c t).Trace (callsOf t log) (r t)) (fun t => (c t).prog) m0 := by
  refine rg_rule (Γ := BvLog) (BvInv T n s0) bvRely bvGuar (fun t r g _ => (c t).Trace (callsOf t g) r) []
    ⟨⟨s0, Legal.nil s0, hm⟩, by simp⟩ (fun _ _ _ => rfl) (fun t g1 m1 g2 m2 g3 m3 h1 h2 => Eq.trans h2 h1) ?_ ?_ ?_
  · intro t u g m g' m' _ _ htu _ _ h
    exact h u (Ne.symm htu)
  · intro t ht
    refine wpRG_mono (wpRG_client ht hsz (c t) ⟨⟨s0, Legal.nil s0, hm⟩, by simp⟩ (hin t ht)) ?_
    rintro r g m _ ⟨l, h1, h2⟩
    rw [show callsOf t [] = [] from rfl, List.nil_append] at h1
    rw [h1]; exact h2
  · rintro r g m ⟨⟨s, hl, hh⟩, hthr⟩ hq
    exact ⟨g, s, hl, hh, hthr, hq⟩

end

/-- In a legal log, the wins on element `i` since a moment when it was clear. -/
theorem Legal.winners {s s' : Flags} {l : List (Nat × BvOp × Bool)} (h : Legal s l s') {i : Nat}
    (hl : ∀ e ∈ l, e.2.1 ≠ .clear i ∧ e.2.1 ≠ .set i) :
    (l.filter fun e => e.2 = (.testAndSet i, true)).length = (if s i = false ∧ (∃ e ∈ l, e.2.1 = .testAndSet i) then 1 else 0) ∧
    s' i = (s i || decide (∃ e ∈ l, e.2.1 = .testAndSet i)) := by
  induction h with
  | nil => simp
  | @snoc s' l h t op ih =>
    obtain ⟨h1, h2⟩ := ih (fun e he => hl e (List.mem_append_left _ he))
    obtain ⟨o1, o2⟩ := hl _ (List.mem_append_right l (List.mem_singleton.mpr rfl))
    rw [List.filter_append, List.length_append, h1]
    by_cases hop : op = .testAndSet i
    · subst hop
      have hex : ∃ e ∈ l ++ [(t, BvOp.testAndSet i, ((BvOp.testAndSet i).spec s').2)], e.2.1 = BvOp.testAndSet i :=
        ⟨_, List.mem_append_right _ (List.mem_singleton.mpr rfl), rfl⟩
      by_cases hl' : ∃ e ∈ l, e.2.1 = BvOp.testAndSet i
      · have : s' i = true := by rw [h2]; simp [hl']
        simp [BvOp.spec, this, hl', Flags.put]
      · have e2 : s' i = s i := by rw [h2, decide_eq_false hl', Bool.or_false]
        cases hs : s i <;> simp [BvOp.spec, e2, hs, hl', Flags.put]
    · have hne : (∃ e ∈ l ++ [(t, op, (op.spec s').2)], e.2.1 = BvOp.testAndSet i) ↔ ∃ e ∈ l, e.2.1 = BvOp.testAndSet i := by
        constructor
        · rintro ⟨e, he, h⟩
          rcases List.mem_append.mp he with he | he
          · exact ⟨e, he, h⟩
          · rw [List.mem_singleton.mp he] at h; exact absurd h hop
        · rintro ⟨e, he, h⟩; exact ⟨e, List.mem_append_left _ he, h⟩
      have hs' : (op.spec s').1 i = s' i := by
        cases op with
        | get j => rfl
        | set j =>
          have : i ≠ j := by rintro rfl; exact o2 rfl
          simp [BvOp.spec, Flags.put, this]
        | testAndSet j =>
          have : i ≠ j := by rintro rfl; exact hop rfl
          simp [BvOp.spec, Flags.put, this]
        | clear j =>
          have : i ≠ j := by rintro rfl; exact o1 rfl
          simp [BvOp.spec, Flags.put, this]
      refine ⟨?_, ?_⟩
      · simp only [hne]
        simp [hop]
      · rw [hs', h2]
        simp only [hne]

end SpMP
