import Verif.HugePages
import Verif.Props.Pool
/-
Property theorems C75: the memory behind the pools.
-/

namespace SpMP.Props
open SpMP SpMP.Spec

/-- C75: whatever a program has allocated, written into its blocks and freed in any order, the blocks it holds are memory of the process,
page aligned and apart from each other, and there is no memory in use besides them. -/
theorem C75_blocks_partial {s : Heap} {live : List (Nat × Nat)} (h : Holds s live) :
    (∀ b ∈ live, 0 < b.1 ∧ b.1 % 4096 = 0 ∧ s.Owns b.1 b.2) ∧
    (live.Pairwise fun b c => b.1 + b.2 ≤ c.1 ∨ c.1 + c.2 ≤ b.1) ∧
    s.regions.length = live.length := by
  have hi := h.inv
  refine ⟨?_, ?_, ?_⟩
  · intro b hb
    obtain ⟨r, hr, h1⟩ := hi.block b hb
    have ⟨b1, b2, b3, b4, b5, b6, b7⟩ := h1
    exact ⟨by omega, by omega, r, hr, by omega, by omega⟩
  · refine (List.Pairwise.and_mem.1 hi.dist).imp ?_
    rintro b c ⟨hb, hc, hne⟩
    obtain ⟨r, hr, h1⟩ := hi.block b hb
    obtain ⟨q, hq, h2⟩ := hi.block c hc
    have := h1.addr
    have := h2.addr
    have := h1.room
    have := h2.room
    rcases pairwise_eq_or (fun _ _ => Or.symm) hi.apart hr hq with rfl | h3 <;> omega
  · exact hi.length_eq

/-- C75: every block held can be freed; exactly the memory that contains it is given back, in the way and with the length it was obtained. -/
theorem C75_free_partial {s : Heap} {live : List (Nat × Nat)} (h : Holds s live) {b : Nat × Nat} (hb : b ∈ live) (dbg : Bool) :
    ∃ s' r, freeHuge dbg b.1 s = some s' ∧ r ∈ s.regions ∧ r.addr ≤ b.1 ∧ b.1 + b.2 ≤ r.addr + r.len ∧
      (∀ q, q ∈ s'.regions ↔ q ∈ s.regions ∧ q ≠ r) ∧ s'.word = s.word ∧ Holds s' (live.filter fun c => c.1 ≠ b.1) := by
  obtain ⟨r, hr, h1, h2⟩ := h.inv.free hb dbg
  have := h1.addr
  have := h1.room
  exact ⟨_, r, h2, hr, by omega, by omega, fun q => by simp [List.mem_filter], rfl, h.free hb h2⟩

/-- C75: a request that the operating system or the C library can meet is met. -/
theorem C75_alloc_partial {s : Heap} {live : List (Nat × Nat)} (h : Holds s live) {size : Nat} {mm pm : Option Nat}
    (hs : size + 2 ^ 22 ≤ 2 ^ 64) (ha : Answers s (hugeReal size) mm pm) :
    ∃ p s', mallocHuge size mm pm s = some (p, s') ∧ p ≠ 0 ∧ s'.Owns p size ∧ Holds s' ((p, size) :: live) := by
  obtain ⟨p, s', r, h1, h2, h3, _⟩ := h.inv.malloc hs ha
  have h4 := h.alloc hs ha h1
  exact ⟨p, s', h1, h2, ((C75_blocks_partial h4).1 _ List.mem_cons_self).2.2, h4⟩

/-- C75 for pools: every block of an initialised pool is memory of the process that nobody else holds. -/
theorem C75_pool_partial {s : Heap} {live : List (Nat × Nat)} (h : Holds s live) {sz : Nat} {mm pm : Option Nat} (dbg : Bool)
    (hs : sz + 2 ^ 22 ≤ 2 ^ 64) (ha : Answers s (hugeReal sz) mm pm) :
    ∃ p s', poolInitialize dbg sz mm pm s = some (p, s') ∧ Holds s' ((p.buffer, sz) :: live) ∧
      ∀ ops q blocks, (∀ op ∈ ops, PoolOp.Sane 18446744073709551616 sz op) → Pool.run 18446744073709551616 true (p, []) ops = some (q, blocks) →
        ∀ b ∈ blocks, 0 < b.2 → s'.Owns b.1 b.2 ∧ ∀ c ∈ live, b.1 + b.2 ≤ c.1 ∨ c.1 + c.2 ≤ b.1 := by
  obtain ⟨p, s', h1, h2, h3, h4⟩ := C75_alloc_partial h hs ha
  refine ⟨Pool.init sz p, s', ?_, h4, ?_⟩
  · unfold poolInitialize
    rw [h1]
    simp [passert, h2]
  · intro ops q blocks hop hr b hb hpos
    obtain ⟨g1, g2, g3⟩ := C06_pool_partial (Nat.pos_of_ne_zero h2) hop hr
    have hin := g1.inside b hb hpos
    rw [g2, g3] at hin
    obtain ⟨r, hr, h5, h6⟩ := h3
    refine ⟨⟨r, hr, by omega, by omega⟩, fun c hc => ?_⟩
    have := (List.pairwise_cons.1 (C75_blocks_partial h4).2.1).1 c hc
    simp only at this
    omega

/-- C75 for pools: finalising gives the memory back, and finalising again (as the destructor does) has no effect. -/
theorem C75_finalize_partial {s : Heap} {live : List (Nat × Nat)} (h : Holds s live) {p : Pool} {sz : Nat} (dbg : Bool)
    (hb : (p.buffer, sz) ∈ live) :
    ∃ p' s', poolFinalize dbg p s = some (p', s') ∧ Holds s' (live.filter fun c => c.1 ≠ p.buffer) ∧
      (∀ x, p'.contains x = false) ∧ ∀ s'', poolFinalize dbg p' s'' = some (p', s'') := by
  obtain ⟨s', r, h1, _, _, _, _, _, h2⟩ := C75_free_partial h hb dbg
  have h0 := ((C75_blocks_partial h).1 _ hb).1
  refine ⟨{ p with buffer := 0, head := 0, tail := 0 }, s', ?_, h2, ?_, ?_⟩
  · unfold poolFinalize
    rw [if_pos (by simp only at h0; omega), h1]
    rfl
  · intro x; simp [Pool.contains]
  · intro s''; rfl

/-- C75 is false when no memory is left: instead of returning null the function writes to the address of MAP_FAILED
(posix_memalign does not set its result). -/
theorem C75_out_of_memory_false : ¬ (∀ (s : Heap) (live : List (Nat × Nat)) (size : Nat), Holds s live → size + 2 ^ 22 ≤ 2 ^ 64 →
    ∃ s', mallocHuge size none none s = some (0, s')) := by
  intro h
  obtain ⟨s', h1⟩ := h ⟨[], fun _ => 0⟩ [] 1 .start (by decide)
  revert h1
  unfold mallocHuge hugeHeader
  simp [Heap.Owns]

/-- C75 is false for sizes within 4 MB of 2^64: the size wraps around, and the block returned has no memory at all. -/
theorem C75_overflow_false : ¬ (∀ (s s' : Heap) (live : List (Nat × Nat)) (size p : Nat) (mm pm : Option Nat), Holds s live → size < 2 ^ 64 →
    Answers s (hugeReal size) mm pm → mallocHuge size mm pm s = some (p, s') → p ≠ 0 → s'.Owns p 1) := by
  intro h
  have h1 := h ⟨[], fun _ => 0⟩ _ [] (2 ^ 64 - 1) _ (some 2097152) none .start (by decide)
    ⟨by decide, by decide, by decide, by simp⟩ rfl (by decide)
  exact absurd h1 (by decide)

/-- C75 is false for a pool that is initialised again without having been finalised: its first memory is never given back. -/
theorem C75_reinitialize_false : ¬ (∀ (p p' : Pool) (s s' s'' : Heap) (sz sz' : Nat) (mm mm' : Option Nat),
    Answers ⟨[], fun _ => 0⟩ (hugeReal sz) mm none → poolInitialize true sz mm none ⟨[], fun _ => 0⟩ = some (p, s) →
    Answers s (hugeReal sz') mm' none → poolInitialize true sz' mm' none s = some (p', s') →
    (∃ q, poolFinalize true p' s' = some (q, s'')) → s''.regions = []) := by
  intro h
  have h1 := Holds.start (w := fun _ => 0)
  have h2 := h1.alloc (size := 100) (mm := some 2097152) (pm := none) (by decide) ⟨by decide, by decide, by decide, by simp⟩ rfl
  have h3 := h2.alloc (size := 100) (mm := some 8388608) (pm := none) (by decide) ⟨by decide, by decide, by decide, by decide⟩ rfl
  obtain ⟨q, s'', h4, h5, _⟩ := C75_finalize_partial (p := Pool.init 100 10485760) (sz := 100) h3 true List.mem_cons_self
  have h6 := h _ _ _ _ _ 100 100 (some 2097152) (some 8388608) ⟨by decide, by decide, by decide, by simp⟩ rfl
    ⟨by decide, by decide, by decide, by decide⟩ rfl ⟨q, h4⟩
  have h7 := (C75_blocks_partial h5).2.2
  rw [h6] at h7
  exact absurd h7 (by decide)

/-- C75 is false for a finalised pool: it keeps its size, so that a request is not rejected but answered with null, and the next one with
an address that is no memory. -/
theorem C75_finalised_false : ¬ (∀ (p : Pool) (s s' : Heap), poolFinalize true (Pool.init 1000 4194304) s = some (p, s') →
    p.allocate 18446744073709551616 true 10 64 = none) := by
  intro h
  have h1 := h _ ⟨[⟨true, 2097152, 4194304⟩], fun _ => 4194304⟩ _ rfl
  exact absurd h1 (by decide)

/-! ### Examples -/

/-- Two blocks, the second from posix_memalign; the first is overwritten and freed. -/
example : ∃ s, Holds s [(10489856, 5000000)] := by
  have h1 := Holds.start (w := fun _ => 7)
  have h2 := h1.alloc (size := 100) (mm := some 2097152) (pm := none) (by decide) ⟨by decide, by decide, by decide, by simp⟩ rfl
  have h3 := h2.write (x := 4194304) (l := 100) (fun _ => 99) ⟨_, List.mem_cons_self, by decide, by decide⟩
  have h4 := h3.alloc (size := 5000000) (mm := none) (pm := some 8392704) (by decide) ⟨by decide, by decide, by decide, by decide⟩ rfl
  have h5 := h4.free (dbg := true) (b := (4194304, 100)) (by decide) rfl
  exact ⟨_, h5⟩

end SpMP.Props
