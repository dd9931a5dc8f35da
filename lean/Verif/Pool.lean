import Mathlib.Tactic.SplitIfs
/-
The ring-buffer memory pool (/repo/MemoryPool.cpp, /repo/MemoryPool.hpp).
-/

namespace SpMP

/-- MemoryPool.hpp:92-94: `size_`, `head_`, `tail_`, `buffer_`. Addresses and offsets are natural numbers; every size_t operation
is reduced modulo `M` (2^64). -/
structure Pool where
  size : Nat
  head : Nat
  tail : Nat
  buffer : Nat

/-- MemoryPool.cpp:54-70 initialize. -/
def Pool.init (sz buffer : Nat) : Pool := ⟨sz, 0, 0, buffer⟩

/-- `assert(c)`: with `dbg` (no NDEBUG) a false condition aborts (`none`). -/
def passert (dbg : Bool) (c : Prop) [Decidable c] : Option Unit := if dbg = true ∧ ¬ c then none else some ()

/-- MemoryPool.cpp:129, 151: `(sz + align - 1)/align*align` in size_t (`align` positive, converted from int). -/
def Pool.round (M sz align : Nat) : Nat := (sz + align - 1) % M / align * align % M

/-- MemoryPool.cpp:127-147 allocate; the result is the returned address. -/
def Pool.allocate (M : Nat) (dbg : Bool) (p : Pool) (sz align : Nat) : Option (Nat × Pool) :=
  let sz := Pool.round M sz align
  if p.tail ≥ p.head then
    if (p.tail + sz) % M ≥ p.size then do
      passert dbg (sz < p.head)
      some (p.buffer, { p with tail := sz })
    else
      let t := (p.tail + sz) % M
      some (p.buffer + (t + M - sz) % M, { p with tail := t })
  else do
    passert dbg ((p.tail + sz) % M < p.head)
    let t := (p.tail + sz) % M
    some (p.buffer + (t + M - sz) % M, { p with tail := t })

/-- MemoryPool.cpp:149-168 allocateFront. -/
def Pool.allocateFront (M : Nat) (dbg : Bool) (p : Pool) (sz align : Nat) : Option (Nat × Pool) :=
  let sz := Pool.round M sz align
  if p.tail ≥ p.head then
    if p.head < sz then do
      let h := (p.size + M - sz) % M
      passert dbg (h > p.tail)
      some (p.buffer + h, { p with head := h })
    else some (p.buffer + (p.head - sz), { p with head := p.head - sz })
  else do
    passert dbg (p.head > (p.tail + sz) % M)
    let h := (p.head + M - sz) % M
    some (p.buffer + h, { p with head := h })

/-- MemoryPool.cpp:91-102 setHead. -/
def Pool.setHead (dbg : Bool) (p : Pool) (off : Nat) : Option Pool := do
  passert dbg (off < p.size)
  (if p.tail ≥ p.head then passert dbg (off ≥ p.head ∧ off ≤ p.tail) else passert dbg (off ≤ p.tail ∨ off ≥ p.head))
  some { p with head := off }

/-- MemoryPool.cpp:104-115 setTail. -/
def Pool.setTail (dbg : Bool) (p : Pool) (off : Nat) : Option Pool := do
  passert dbg (off < p.size)
  (if p.tail ≥ p.head then passert dbg (off ≥ p.head ∧ off ≤ p.tail) else passert dbg (off ≤ p.tail ∨ off ≥ p.head))
  some { p with tail := off }

/-- MemoryPool.cpp:170-174 deallocateAll. -/
def Pool.deallocateAll (p : Pool) : Pool := { p with head := 0, tail := 0 }

/-- MemoryPool.cpp:176-185 contains; a null pointer is address 0. -/
def Pool.contains (p : Pool) (ptr : Nat) : Bool :=
  if ptr = 0 ∨ p.buffer = 0 ∨ ptr < p.buffer ∨ ptr ≥ p.buffer + p.size then false
  else if p.tail ≥ p.head then decide (ptr ≥ p.buffer + p.head ∧ ptr < p.buffer + p.tail)
  else decide (¬ (ptr ≥ p.buffer + p.tail ∧ ptr < p.buffer + p.head))

/-! ### Histories (specification) -/

/-- An operation of the pool's interface. -/
inductive PoolOp
  | alloc (sz align : Nat)
  | allocFront (sz align : Nat)
  | setHead (off : Nat)
  | setTail (off : Nat)
  | deallocateAll

/-- How far offset `x` is from the head, walking upwards and around the end of the pool. -/
def Pool.dist (p : Pool) (x : Nat) : Nat := if p.head ≤ x then x - p.head else x + p.size - p.head

/-- One call by a user, who keeps the list of blocks (address, requested bytes) they may still use. setHead gives up the blocks
that start before the new head, setTail those that end after the new tail (both in the order from the head around the pool),
deallocateAll all of them. -/
def Pool.step (M : Nat) (dbg : Bool) (s : Pool × List (Nat × Nat)) : PoolOp → Option (Pool × List (Nat × Nat))
  | .alloc sz align => (s.1.allocate M dbg sz align).map fun r => (r.2, (r.1, sz) :: s.2)
  | .allocFront sz align => (s.1.allocateFront M dbg sz align).map fun r => (r.2, (r.1, sz) :: s.2)
  | .setHead off => (s.1.setHead dbg off).map fun p =>
      (p, s.2.filter fun b => s.1.dist off ≤ s.1.dist (b.1 - s.1.buffer))
  | .setTail off => (s.1.setTail dbg off).map fun p =>
      (p, s.2.filter fun b => s.1.dist (b.1 - s.1.buffer) + b.2 ≤ s.1.dist off)
  | .deallocateAll => some (s.1.deallocateAll, [])

/-- A history of calls, all accepted. -/
def Pool.run (M : Nat) (dbg : Bool) (s : Pool × List (Nat × Nat)) : List PoolOp → Option (Pool × List (Nat × Nat))
  | [] => some s
  | op :: ops => (Pool.step M dbg s op).bind fun s' => Pool.run M dbg s' ops

/-- No wrap-around in size_t, positive alignment, and a front request not larger than the pool. -/
def PoolOp.Sane (M size : Nat) : PoolOp → Prop
  | .alloc sz align => 0 < align ∧ size + sz + align ≤ M
  | .allocFront sz align => 0 < align ∧ size + sz + align ≤ M ∧ (sz + align - 1) / align * align ≤ size
  | _ => True

/-- What C06 asks of the blocks a user holds. -/
structure PoolSafe (p : Pool) (live : List (Nat × Nat)) : Prop where
  inside : ∀ b ∈ live, 0 < b.2 → p.buffer ≤ b.1 ∧ b.1 + b.2 ≤ p.buffer + p.size
  contained : ∀ b ∈ live, ∀ x, b.1 ≤ x → x < b.1 + b.2 → p.contains x = true
  disjoint : live.Pairwise fun b c => ∀ x, b.1 ≤ x → x < b.1 + b.2 → ¬ (c.1 ≤ x ∧ x < c.1 + c.2)

/-! ### Proofs -/

/-- Offsets `o .. o+l` are in use. -/
def Pool.InUse (p : Pool) (o l : Nat) : Prop :=
  o + l ≤ p.size ∧ ((p.head ≤ p.tail ∧ p.head ≤ o ∧ o + l ≤ p.tail) ∨ (p.tail < p.head ∧ (o + l ≤ p.tail ∨ p.head ≤ o)))

structure PoolInv (p : Pool) (live : List (Nat × Nat)) : Prop where
  tail_le : p.tail ≤ p.size
  head_le : p.head ≤ p.size
  blocks : ∀ b ∈ live, 0 < b.2 → p.buffer ≤ b.1 ∧ p.InUse (b.1 - p.buffer) b.2
  disjoint : live.Pairwise fun b c => b.2 = 0 ∨ c.2 = 0 ∨ b.1 + b.2 ≤ c.1 ∨ c.1 + c.2 ≤ b.1

theorem PoolInv.safe {p : Pool} {live : List (Nat × Nat)} (hb : 0 < p.buffer) (h : PoolInv p live) : PoolSafe p live := by
  refine ⟨?_, ?_, ?_⟩
  · intro b hbl h0
    obtain ⟨h1, h2, _⟩ := h.blocks b hbl h0
    omega
  · intro b hbl x hx1 hx2
    obtain ⟨h1, h2, h3⟩ := h.blocks b hbl (by omega)
    unfold Pool.contains
    have := h.tail_le
    have := h.head_le
    rw [if_neg (by omega)]
    rcases h3 with h3 | h3
    · rw [if_pos (by omega), decide_eq_true_iff]; omega
    · rw [if_neg (by omega), decide_eq_true_iff]; omega
  · exact h.disjoint.imp (fun {b c} hd x h1 h2 h3 => by omega)

theorem passert_some {c : Prop} [Decidable c] {u : Unit} : passert true c = some u → c := by
  unfold passert
  split_ifs with h
  · intro h'; cases h'
  · intro _; simpa using h

theorem Pool.round_eq {M sz align : Nat} (ha : 0 < align) (h : sz + align ≤ M) :
    sz ≤ Pool.round M sz align ∧ Pool.round M sz align < sz + align ∧ Pool.round M sz align = (sz + align - 1) / align * align := by
  have e := Nat.div_add_mod (sz + align - 1) align
  have l := Nat.mod_lt (sz + align - 1) ha
  rw [Nat.mul_comm] at e
  have : Pool.round M sz align = (sz + align - 1) / align * align := by
    unfold Pool.round
    rw [Nat.mod_eq_of_lt (a := sz + align - 1) (by omega), Nat.mod_eq_of_lt (by omega)]
  rw [this]
  omega

theorem PoolInv.push {p p' : Pool} {live : List (Nat × Nat)} {o r l : Nat} (h : PoolInv p live)
    (hbuf : p'.buffer = p.buffer) (ht : p'.tail ≤ p'.size) (hh : p'.head ≤ p'.size) (hl : l ≤ r)
    (hnew : 0 < r → p'.InUse o r)
    (hold : ∀ o' l', 0 < l' → p.InUse o' l' → p'.InUse o' l' ∧ (0 < r → o + r ≤ o' ∨ o' + l' ≤ o)) :
    PoolInv p' ((p.buffer + o, l) :: live) := by
  refine ⟨ht, hh, ?_, ?_⟩
  · intro b hb h0
    rw [hbuf]
    rcases List.mem_cons.mp hb with rfl | hb
    · refine ⟨Nat.le_add_right _ _, ?_⟩
      rw [show p.buffer + o - p.buffer = o by omega]
      have h0 : 0 < l := h0
      have := hnew (by omega)
      unfold Pool.InUse at this ⊢
      show o + l ≤ _ ∧ ((_ ∧ _ ∧ o + l ≤ _) ∨ (_ ∧ (o + l ≤ _ ∨ _)))
      omega
    · obtain ⟨h1, h2⟩ := h.blocks b hb h0
      exact ⟨h1, (hold _ _ h0 h2).1⟩
  · refine List.Pairwise.cons ?_ h.disjoint
    intro b hb
    by_cases hl0 : l = 0
    · exact Or.inl hl0
    by_cases hb0 : b.2 = 0
    · exact Or.inr (Or.inl hb0)
    obtain ⟨h1, h2⟩ := h.blocks b hb (by omega)
    have := (hold _ _ (by omega) h2).2 (by omega)
    right; right
    show p.buffer + o + l ≤ b.1 ∨ b.1 + b.2 ≤ p.buffer + o
    omega

theorem PoolInv.step {M : Nat} {p p' : Pool} {live live' : List (Nat × Nat)} {op : PoolOp} (h : PoolInv p live)
    (hs : op.Sane M p.size) (he : Pool.step M true (p, live) op = some (p', live')) :
    PoolInv p' live' ∧ p'.size = p.size ∧ p'.buffer = p.buffer := by
  have hH := h.head_le
  have hT := h.tail_le
  cases op with
  | alloc sz align =>
    obtain ⟨ha, hM⟩ := hs
    obtain ⟨r1, r2, -⟩ := Pool.round_eq (sz := sz) ha (by omega : sz + align ≤ M)
    obtain ⟨⟨q, p1⟩, hq, he⟩ := Option.map_eq_some_iff.mp he
    simp only [Prod.mk.injEq] at he
    obtain ⟨rfl, rfl⟩ := he
    unfold Pool.allocate at hq
    generalize Pool.round M sz align = s at *
    have e1 : (p.tail + s) % M = p.tail + s := Nat.mod_eq_of_lt (by omega)
    have e2 : (p.tail + s + M - s) % M = p.tail := by
      rw [show p.tail + s + M - s = p.tail + M by omega, Nat.add_mod_right]; exact Nat.mod_eq_of_lt (by omega)
    simp only [e1, e2] at hq
    split_ifs at hq with h1 h2
    · obtain ⟨u, hu, hq⟩ := Option.bind_eq_some_iff.mp hq
      have hu : s < p.head := passert_some hu
      simp only [Option.some.injEq, Prod.mk.injEq] at hq
      obtain ⟨rfl, rfl⟩ := hq
      refine ⟨?_, rfl, rfl⟩
      have := PoolInv.push (p' := { p with tail := s }) (o := 0) (r := s) (l := sz) h rfl (by show s ≤ p.size; omega) hH r1
        (by intro _; unfold Pool.InUse; show _ ≤ p.size ∧ ((p.head ≤ s ∧ p.head ≤ _ ∧ _ ≤ s) ∨ (s < p.head ∧ (_ ≤ s ∨ _))); omega)
        (by
          intro o' l' hl hu'
          unfold Pool.InUse at hu' ⊢
          show (_ ≤ p.size ∧ ((p.head ≤ s ∧ p.head ≤ _ ∧ _ ≤ s) ∨ (s < p.head ∧ (_ ≤ s ∨ p.head ≤ _)))) ∧ _
          omega)
      exact this
    · simp only [Option.some.injEq, Prod.mk.injEq] at hq
      obtain ⟨rfl, rfl⟩ := hq
      refine ⟨?_, rfl, rfl⟩
      refine PoolInv.push (p' := { p with tail := p.tail + s }) (o := p.tail) (r := s) (l := sz) h rfl (by show p.tail + s ≤ p.size; omega) hH r1 ?_ ?_
      · intro _; unfold Pool.InUse; show _ ≤ p.size ∧ ((p.head ≤ p.tail + s ∧ p.head ≤ _ ∧ _ ≤ p.tail + s) ∨ (p.tail + s < p.head ∧ (_ ≤ p.tail + s ∨ _))); omega
      · intro o' l' hl hu'
        unfold Pool.InUse at hu' ⊢
        show (_ ≤ p.size ∧ ((p.head ≤ p.tail + s ∧ p.head ≤ _ ∧ _ ≤ p.tail + s) ∨ (p.tail + s < p.head ∧ (_ ≤ p.tail + s ∨ p.head ≤ _)))) ∧ _
        omega
    · obtain ⟨u, hu, hq⟩ := Option.bind_eq_some_iff.mp hq
      have hu : p.tail + s < p.head := passert_some hu
      simp only [Option.some.injEq, Prod.mk.injEq] at hq
      obtain ⟨rfl, rfl⟩ := hq
      refine ⟨?_, rfl, rfl⟩
      refine PoolInv.push (p' := { p with tail := p.tail + s }) (o := p.tail) (r := s) (l := sz) h rfl (by show p.tail + s ≤ p.size; omega) hH r1 ?_ ?_
      · intro _; unfold Pool.InUse; show _ ≤ p.size ∧ ((p.head ≤ p.tail + s ∧ p.head ≤ _ ∧ _ ≤ p.tail + s) ∨ (p.tail + s < p.head ∧ (_ ≤ p.tail + s ∨ _))); omega
      · intro o' l' hl hu'
        unfold Pool.InUse at hu' ⊢
        show (_ ≤ p.size ∧ ((p.head ≤ p.tail + s ∧ p.head ≤ _ ∧ _ ≤ p.tail + s) ∨ (p.tail + s < p.head ∧ (_ ≤ p.tail + s ∨ p.head ≤ _)))) ∧ _
        omega
  | allocFront sz align =>
    obtain ⟨ha, hM, hfit⟩ := hs
    obtain ⟨r1, r2, r3⟩ := Pool.round_eq (sz := sz) ha (by omega : sz + align ≤ M)
    rw [← r3] at hfit
    obtain ⟨⟨q, p1⟩, hq, he⟩ := Option.map_eq_some_iff.mp he
    simp only [Prod.mk.injEq] at he
    obtain ⟨rfl, rfl⟩ := he
    unfold Pool.allocateFront at hq
    generalize Pool.round M sz align = s at *
    have e1 : (p.tail + s) % M = p.tail + s := Nat.mod_eq_of_lt (by omega)
    have e2 : (p.size + M - s) % M = p.size - s := by
      rw [show p.size + M - s = p.size - s + M by omega, Nat.add_mod_right]; exact Nat.mod_eq_of_lt (by omega)
    simp only [e1, e2] at hq
    split_ifs at hq with h1 h2
    · obtain ⟨u, hu, hq⟩ := Option.bind_eq_some_iff.mp hq
      have hu : p.size - s > p.tail := passert_some hu
      simp only [Option.some.injEq, Prod.mk.injEq] at hq
      obtain ⟨rfl, rfl⟩ := hq
      refine ⟨?_, rfl, rfl⟩
      refine PoolInv.push (p' := { p with head := p.size - s }) (o := p.size - s) (r := s) (l := sz) h rfl hT (by show p.size - s ≤ p.size; omega) r1 ?_ ?_
      · intro _; unfold Pool.InUse
        show _ ≤ p.size ∧ ((p.size - s ≤ p.tail ∧ p.size - s ≤ _ ∧ _ ≤ p.tail) ∨ (p.tail < p.size - s ∧ (_ ≤ p.tail ∨ p.size - s ≤ _))); omega
      · intro o' l' hl hu'
        unfold Pool.InUse at hu' ⊢
        show (_ ≤ p.size ∧ ((p.size - s ≤ p.tail ∧ p.size - s ≤ _ ∧ _ ≤ p.tail) ∨ (p.tail < p.size - s ∧ (_ ≤ p.tail ∨ p.size - s ≤ _)))) ∧ _
        omega
    · simp only [Option.some.injEq, Prod.mk.injEq] at hq
      obtain ⟨rfl, rfl⟩ := hq
      refine ⟨?_, rfl, rfl⟩
      refine PoolInv.push (p' := { p with head := p.head - s }) (o := p.head - s) (r := s) (l := sz) h rfl hT (by show p.head - s ≤ p.size; omega) r1 ?_ ?_
      · intro _; unfold Pool.InUse
        show _ ≤ p.size ∧ ((p.head - s ≤ p.tail ∧ p.head - s ≤ _ ∧ _ ≤ p.tail) ∨ (p.tail < p.head - s ∧ (_ ≤ p.tail ∨ p.head - s ≤ _))); omega
      · intro o' l' hl hu'
        unfold Pool.InUse at hu' ⊢
        show (_ ≤ p.size ∧ ((p.head - s ≤ p.tail ∧ p.head - s ≤ _ ∧ _ ≤ p.tail) ∨ (p.tail < p.head - s ∧ (_ ≤ p.tail ∨ p.head - s ≤ _)))) ∧ _
        omega
    · obtain ⟨u, hu, hq⟩ := Option.bind_eq_some_iff.mp hq
      have hu : p.head > p.tail + s := passert_some hu
      have e3 : (p.head + M - s) % M = p.head - s := by
        rw [show p.head + M - s = p.head - s + M by omega, Nat.add_mod_right]; exact Nat.mod_eq_of_lt (by omega)
      simp only [e3, Option.some.injEq, Prod.mk.injEq] at hq
      obtain ⟨rfl, rfl⟩ := hq
      refine ⟨?_, rfl, rfl⟩
      refine PoolInv.push (p' := { p with head := p.head - s }) (o := p.head - s) (r := s) (l := sz) h rfl hT (by show p.head - s ≤ p.size; omega) r1 ?_ ?_
      · intro _; unfold Pool.InUse
        show _ ≤ p.size ∧ ((p.head - s ≤ p.tail ∧ p.head - s ≤ _ ∧ _ ≤ p.tail) ∨ (p.tail < p.head - s ∧ (_ ≤ p.tail ∨ p.head - s ≤ _))); omega
      · intro o' l' hl hu'
        unfold Pool.InUse at hu' ⊢
        show (_ ≤ p.size ∧ ((p.head - s ≤ p.tail ∧ p.head - s ≤ _ ∧ _ ≤ p.tail) ∨ (p.tail < p.head - s ∧ (_ ≤ p.tail ∨ p.head - s ≤ _)))) ∧ _
        omega
  | setHead off =>
    obtain ⟨p1, hq, he⟩ := Option.map_eq_some_iff.mp he
    simp only [Prod.mk.injEq] at he
    obtain ⟨rfl, rfl⟩ := he
    replace hq : p.setHead true off = some p1 := hq
    unfold Pool.setHead at hq
    obtain ⟨u, hu, hq⟩ := Option.bind_eq_some_iff.mp hq
    have hu : off < p.size := passert_some hu
    obtain ⟨u', hu', hq⟩ := Option.bind_eq_some_iff.mp hq
    have hu' : (p.tail ≥ p.head ∧ off ≥ p.head ∧ off ≤ p.tail) ∨ (p.tail < p.head ∧ (off ≤ p.tail ∨ off ≥ p.head)) := by
      split_ifs at hu' with h1
      · exact Or.inl ⟨h1, passert_some hu'⟩
      · exact Or.inr ⟨by omega, passert_some hu'⟩
    simp only [Option.some.injEq] at hq
    obtain rfl := hq
    refine ⟨⟨hT, Nat.le_of_lt hu, ?_, h.disjoint.filter _⟩, rfl, rfl⟩
    intro b hb h0
    obtain ⟨hb, hd⟩ := List.mem_filter.mp hb
    obtain ⟨h1, h2⟩ := h.blocks b hb h0
    refine ⟨h1, ?_⟩
    have hd : p.dist off ≤ p.dist (b.1 - p.buffer) := of_decide_eq_true hd
    unfold Pool.dist at hd
    unfold Pool.InUse at h2 ⊢
    generalize b.1 - p.buffer = o at *
    show _ ≤ p.size ∧ ((off ≤ p.tail ∧ off ≤ _ ∧ _ ≤ p.tail) ∨ (p.tail < off ∧ (_ ≤ p.tail ∨ off ≤ _)))
    split_ifs at hd <;> omega
  | setTail off =>
    obtain ⟨p1, hq, he⟩ := Option.map_eq_some_iff.mp he
    simp only [Prod.mk.injEq] at he
    obtain ⟨rfl, rfl⟩ := he
    replace hq : p.setTail true off = some p1 := hq
    unfold Pool.setTail at hq
    obtain ⟨u, hu, hq⟩ := Option.bind_eq_some_iff.mp hq
    have hu : off < p.size := passert_some hu
    obtain ⟨u', hu', hq⟩ := Option.bind_eq_some_iff.mp hq
    have hu' : (p.tail ≥ p.head ∧ off ≥ p.head ∧ off ≤ p.tail) ∨ (p.tail < p.head ∧ (off ≤ p.tail ∨ off ≥ p.head)) := by
      split_ifs at hu' with h1
      · exact Or.inl ⟨h1, passert_some hu'⟩
      · exact Or.inr ⟨by omega, passert_some hu'⟩
    simp only [Option.some.injEq] at hq
    obtain rfl := hq
    refine ⟨⟨Nat.le_of_lt hu, hH, ?_, h.disjoint.filter _⟩, rfl, rfl⟩
    intro b hb h0
    obtain ⟨hb, hd⟩ := List.mem_filter.mp hb
    obtain ⟨h1, h2⟩ := h.blocks b hb h0
    refine ⟨h1, ?_⟩
    have hd : p.dist (b.1 - p.buffer) + b.2 ≤ p.dist off := of_decide_eq_true hd
    unfold Pool.dist at hd
    unfold Pool.InUse at h2 ⊢
    generalize b.1 - p.buffer = o at *
    show _ ≤ p.size ∧ ((p.head ≤ off ∧ p.head ≤ _ ∧ _ ≤ off) ∨ (off < p.head ∧ (_ ≤ off ∨ p.head ≤ _)))
    split_ifs at hd <;> omega
  | deallocateAll =>
    simp only [Pool.step, Option.some.injEq, Prod.mk.injEq] at he
    obtain ⟨rfl, rfl⟩ := he
    exact ⟨⟨Nat.zero_le _, Nat.zero_le _, by simp, List.Pairwise.nil⟩, rfl, rfl⟩

theorem PoolInv.run {M : Nat} {ops : List PoolOp} : ∀ {p p' : Pool} {live live' : List (Nat × Nat)}, PoolInv p live →
    (∀ op ∈ ops, op.Sane M p.size) → Pool.run M true (p, live) ops = some (p', live') →
    PoolInv p' live' ∧ p'.size = p.size ∧ p'.buffer = p.buffer := by
  induction ops with
  | nil =>
    intro p p' live live' h _ he
    simp only [Pool.run, Option.some.injEq, Prod.mk.injEq] at he
    obtain ⟨rfl, rfl⟩ := he
    exact ⟨h, rfl, rfl⟩
  | cons op ops ih =>
    intro p p' live live' h hs he
    obtain ⟨⟨p1, live1⟩, h1, h2⟩ := Option.bind_eq_some_iff.mp he
    obtain ⟨i1, s1, b1⟩ := h.step (hs op List.mem_cons_self) h1
    obtain ⟨i2, s2, b2⟩ := ih i1 (fun o ho => by rw [s1]; exact hs o (List.mem_cons_of_mem _ ho)) h2
    exact ⟨i2, s2.trans s1, b2.trans b1⟩

end SpMP
