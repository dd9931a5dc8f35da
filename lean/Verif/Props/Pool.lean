import Verif.Pool
/-
Property theorems C06 (memory pool).
-/

namespace SpMP.Props
open SpMP

/-- C06 with assertions enabled, for requests that neither overflow size_t nor, for allocateFront, exceed the pool: after every
accepted history the blocks the user holds lie in the pool, are recognised by `contains` byte by byte and are pairwise disjoint.
In particular an allocation that does not fit is not accepted. -/
theorem C06_pool_partial {M size buffer : Nat} {ops : List PoolOp} {p : Pool} {live : List (Nat × Nat)} (hb : 0 < buffer)
    (hs : ∀ op ∈ ops, op.Sane M size) (hr : Pool.run M true (Pool.init size buffer, []) ops = some (p, live)) :
    PoolSafe p live ∧ p.size = size ∧ p.buffer = buffer := by
  obtain ⟨h1, h2, h3⟩ := PoolInv.run (p := Pool.init size buffer) (live := [])
    ⟨Nat.zero_le _, Nat.zero_le _, by simp, List.Pairwise.nil⟩ hs hr
  exact ⟨h1.safe (by rw [h3]; exact hb), h2, h3⟩

/-- A request larger than the pool is rejected by allocate in every reachable state. -/
theorem C06_too_large {M size buffer sz align : Nat} {ops : List PoolOp} {p : Pool} {live : List (Nat × Nat)} (hb : 0 < buffer)
    (hs : ∀ op ∈ ops, op.Sane M size) (hr : Pool.run M true (Pool.init size buffer, []) ops = some (p, live))
    (ha : 0 < align) (hM : size + sz + align ≤ M) (h : size < sz) : p.allocate M true sz align = none := by
  obtain ⟨h1, h2, h3⟩ := PoolInv.run (p := Pool.init size buffer) (live := [])
    ⟨Nat.zero_le _, Nat.zero_le _, by simp, List.Pairwise.nil⟩ hs hr
  cases hq : p.allocate M true sz align with
  | none => rfl
  | some r =>
    have h2 : p.size = size := h2
    have he : Pool.step M true (p, live) (.alloc sz align) = some (r.2, (r.1, sz) :: live) := by
      show Option.map _ (p.allocate M true sz align) = _
      rw [hq]; rfl
    obtain ⟨i1, i2, i3⟩ := h1.step (op := .alloc sz align) (by rw [h2]; exact ⟨ha, hM⟩) he
    have hb : 0 < r.2.buffer := by rw [i3, h3]; exact hb
    have := (i1.safe hb).inside _ List.mem_cons_self (by show 0 < sz; omega)
    have h4 : r.1 + sz ≤ r.2.buffer + r.2.size := this.2
    have h5 : r.2.buffer ≤ r.1 := this.1
    omega

/-- C06 is false for allocateFront with a request larger than the pool: `size_ - sz` wraps around and the assertion passes
(MemoryPool.cpp:154-156). -/
theorem C06_front_too_large_false :
    ¬ (∀ (size buffer : Nat) (ops : List PoolOp) (p : Pool) (live : List (Nat × Nat)), 0 < buffer → size < 1000 → buffer < 10000 →
      (∀ sz align, .alloc sz align ∈ ops ∨ .allocFront sz align ∈ ops → align = 64 ∧ sz < 1000) →
      Pool.run 18446744073709551616 true (Pool.init size buffer, []) ops = some (p, live) → PoolSafe p live) := by
  intro h
  have h1 := h 128 4096 [.allocFront 192 64] _ _ (by decide) (by decide) (by decide) (by intro sz align; simp; rintro rfl rfl; decide) rfl
  have h2 := (h1.inside _ List.mem_cons_self (by decide)).2
  exact absurd h2 (by decide)

/-- C06 is false when the library is compiled with NDEBUG: an allocation that does not fit overlaps a live block. -/
theorem C06_ndebug_false :
    ¬ (∀ (M size buffer : Nat) (ops : List PoolOp) (p : Pool) (live : List (Nat × Nat)), 0 < buffer →
      (∀ op ∈ ops, op.Sane M size) →
      Pool.run M false (Pool.init size buffer, []) ops = some (p, live) → PoolSafe p live) := by
  intro h
  have h1 := h 100000 128 4096 [.alloc 64 64, .alloc 64 64] _ _ (by decide)
    (by
      intro op hop
      rcases List.mem_cons.mp hop with rfl | hop
      · exact ⟨by decide, by decide⟩
      · rw [List.mem_singleton.mp hop]; exact ⟨by decide, by decide⟩) rfl
  obtain ⟨h2, _⟩ := List.pairwise_cons.mp h1.disjoint
  exact h2 _ List.mem_cons_self 4096 (by decide) (by decide) ⟨by decide, by decide⟩

-- a history that wraps around, frees from the front and allocates at both ends is accepted
example : ((Pool.run 100000 true (Pool.init 300 4096, [])
    [.alloc 100 64, .alloc 60 64, .setHead 128, .alloc 70 8, .alloc 90 8, .setHead 192, .allocFront 60 64]).map Prod.snd) =
    some [(4224, 60), (4096, 90), (4288, 70)] := by decide
example : ∀ op ∈ [PoolOp.alloc 100 64, .alloc 60 64, .setHead 128, .alloc 70 8, .alloc 90 8, .setHead 192, .allocFront 60 64],
    op.Sane 100000 300 := by
  intro op hop
  simp only [List.mem_cons, List.not_mem_nil, or_false] at hop
  rcases hop with rfl | rfl | rfl | rfl | rfl | rfl | rfl <;> simp [PoolOp.Sane]

end SpMP.Props
