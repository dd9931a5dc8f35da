import Verif.Partition
import Verif.Spec.Basic
/-
Model of parMemset and parMemcpy, /repo/Utils.cpp:65-93, with the 32-bit `int` arithmetic of the code.
-/

namespace SpMP

/-- The two byte buffers. -/
inductive BArr where
  | dst | src
deriving DecidableEq

abbrev BTy : BArr → Type := fun _ => Int

/-- Conversion of an integer to 32-bit `int` (implementation-defined modular conversion, as gcc/icc do). -/
def toI32 (x : Int) : Int := (x + 2147483648) % 4294967296 - 2147483648

/-- Does `x` fit in 32-bit `int`? (signed overflow in arithmetic is undefined behaviour) -/
def fitsI32 (x : Int) : Prop := -2147483648 ≤ x ∧ x < 2147483648

instance (x : Int) : Decidable (fitsI32 x) := by unfold fitsI32; infer_instance

/-- Conversion of `nEnd - nBegin` to `size_t`. -/
def toU64 (x : Int) : Nat := (x % 18446744073709551616).toNat

/-- Utils.cpp:69-74 / 84-89: the byte range [nBegin, nBegin + len) of one thread. -/
def parMemRange (T tid n : Int) : Prog BTy (Int × Nat) := do
  let nCacheLines := toI32 (n / 64)
  let b := simpleBegin T tid nCacheLines
  let e := simpleEnd T tid nCacheLines
  Prog.assert (fitsI32 (b * 64))
  let nBegin := b * 64
  let nEnd ← (if tid = T - 1 then pure (toI32 n) else do
    Prog.assert (fitsI32 (e * 64))
    pure (e * 64) : Prog BTy Int)
  Prog.assert (fitsI32 (nEnd - nBegin))
  pure (nBegin, toU64 (nEnd - nBegin))

/-- Utils.cpp:65-78 parMemset(dst, c, n) with a team of `T` threads (T = 1 when called inside a parallel
region); the buffers have exactly `n` bytes. memset is a byte loop. -/
def parMemset (T : Nat) (c : Int) (n : Nat) : Script BTy Unit :=
  .phase (fun _ => (n : Int)) T (fun tid => do
    let r ← parMemRange T tid n
    Prog.loopUp (fun i _ => Prog.write (ty := BTy) .dst i c) r.2 r.1 ()) fun _ => .done ()

/-- Utils.cpp:80-93 parMemcpy(dst, src, n). -/
def parMemcpy (T : Nat) (n : Nat) : Script BTy Unit :=
  .phase (fun _ => (n : Int)) T (fun tid => do
    let r ← parMemRange T tid n
    Prog.loopUp (fun i _ => do
      let v ← Prog.read (ty := BTy) .src i
      Prog.write (ty := BTy) .dst i v) r.2 r.1 ()) fun _ => .done ()

/-- Start of thread `tid`'s bytes when nothing overflows. -/
def memBegin (T tid n : Int) : Int := simpleBegin T tid (n / 64) * 64
set_option linter.unusedSectionVars false
variable [Races BArr]

/-- End of thread `tid`'s bytes when nothing overflows. -/
def memEnd (T tid n : Int) : Int := if tid = T - 1 then n else simpleEnd T tid (n / 64) * 64

theorem memRange_facts {T tid n : Int} (hT : 1 ≤ T) (hn : 0 ≤ n) (ht : 0 ≤ tid) :
    0 ≤ memBegin T tid n ∧ memBegin T tid n ≤ memEnd T tid n ∧ memEnd T tid n ≤ n := by
  have h1 := simpleBegin_nonneg (n := n / 64) hT (by omega) ht
  have h2 := simpleBegin_le_end (tid := tid) (n := n / 64) hT (by omega)
  have h3 := @simpleEnd_le T tid (n / 64)
  have h4 := @simpleBegin_le T tid (n / 64)
  unfold memBegin memEnd
  split <;> omega

theorem mem_order {T t u n : Int} (hT : 1 ≤ T) (hn : 0 ≤ n) (htu : t < u) (hu : u < T) :
    memEnd T t n ≤ memBegin T u n := by
  have := simpleEnd_le_begin (n := n / 64) hT (by omega) htu
  unfold memBegin memEnd
  rw [if_neg (by omega)]; omega

theorem mem_cover {T n i : Int} (hT : 1 ≤ T) (hi : 0 ≤ i) (hin : i < n) :
    ∃ t, 0 ≤ t ∧ t < T ∧ memBegin T t n ≤ i ∧ i < memEnd T t n := by
  by_cases hlast : memBegin T (T - 1) n ≤ i
  · exact ⟨T - 1, by omega, by omega, hlast, by simp [memEnd, hin]⟩
  · have hb : i / 64 < simpleBegin T (T - 1) (n / 64) := by unfold memBegin at hlast; omega
    have hle := @simpleBegin_le T (T - 1) (n / 64)
    obtain ⟨t, h1, h2, h3, h4⟩ := simple_exists (T := T) (n := n / 64) (i := i / 64) hT (by omega) (by omega)
    have htne : t ≠ T - 1 := by rintro rfl; omega
    refine ⟨t, h1, h2, ?_, ?_⟩
    · unfold memBegin; omega
    · unfold memEnd; rw [if_neg htne]; omega

theorem mem_unique {T n i t u : Int} (hT : 1 ≤ T) (hn : 0 ≤ n) (ht : t < T) (hu : u < T)
    (h1 : memBegin T t n ≤ i) (h2 : i < memEnd T t n) (h3 : memBegin T u n ≤ i) (h4 : i < memEnd T u n) :
    t = u := by
  rcases Int.lt_trichotomy t u with h | h | h
  · have := mem_order (n := n) hT hn h hu; omega
  · exact h
  · have := mem_order (n := n) hT hn h ht; omega

section
variable {sz : BArr → Int} {W R : BArr → Int → Prop}

theorem wp_parMemRange {T tid n : Int} {m : Mem BTy} {Q : Int × Nat → Mem BTy → Prop}
    (hT : 1 ≤ T) (hn : 0 ≤ n) (hn2 : n < 2147483648) (ht : 0 ≤ tid)
    (hQ : Q (memBegin T tid n, (memEnd T tid n - memBegin T tid n).toNat) m) :
    wp sz W R (parMemRange T tid n) m Q := by
  have hcl : toI32 (n / 64) = n / 64 := by unfold toI32; omega
  have hf := memRange_facts hT hn ht
  have h3 := @simpleEnd_le T tid (n / 64)
  have h2 := simpleBegin_le_end (tid := tid) (n := n / 64) hT (by omega)
  have h1 := simpleBegin_nonneg (n := n / 64) hT (by omega) ht
  unfold parMemRange
  simp only [hcl, wp_bind, wp_assert, wp_ite, wp_pure]
  unfold memBegin memEnd at *
  refine ⟨by unfold fitsI32; omega, ?_, ?_⟩
  · intro hl
    have hn32 : toI32 n = n := by unfold toI32; omega
    rw [hn32]
    refine ⟨by unfold fitsI32; omega, ?_⟩
    rw [if_pos hl] at hQ hf
    have : toU64 (n - simpleBegin T tid (n / 64) * 64) = (n - simpleBegin T tid (n / 64) * 64).toNat := by
      unfold toU64; omega
    rw [this]; exact hQ
  · intro hl
    rw [if_neg hl] at hQ hf
    refine ⟨by unfold fitsI32; omega, by unfold fitsI32; omega, ?_⟩
    have : toU64 (simpleEnd T tid (n / 64) * 64 - simpleBegin T tid (n / 64) * 64) =
        (simpleEnd T tid (n / 64) * 64 - simpleBegin T tid (n / 64) * 64).toNat := by
      unfold toU64; omega
    rw [this]; exact hQ

end

theorem parMemset_ok (T : Nat) (hT : 1 ≤ T) (c : Int) (n : Nat) (hn : n < 2147483648) (m : Mem BTy) :
    (parMemset T c n).Ok m (fun _ m' =>
      (∀ i : Int, 0 ≤ i → i < n → m' .dst i = some c) ∧
      (∀ i : Int, ¬ (0 ≤ i ∧ i < n) → m' .dst i = m .dst i) ∧ m' .src = m .src) := by
  have hn' : (n : Int) < 2147483648 := by omega
  refine par_rule
    (W := fun t a i => a = .dst ∧ memBegin T t n ≤ i ∧ i < memEnd T t n)
    (R := fun t a i => a = .dst ∧ memBegin T t n ≤ i ∧ i < memEnd T t n)
    (Q := fun t _ m' => ∀ i : Int, memBegin T t n ≤ i → i < memEnd T t n → m' .dst i = some c) ?_ ?_ ?_
  · rintro t u a i ht hu htu ⟨rfl, h1, h2⟩ ⟨_, h3, h4⟩
    have := mem_unique (T := T) (n := n) (by omega) (by omega) (by omega) (by omega) h1 h2 h3 h4
    omega
  · intro t ht
    have hf := memRange_facts (T := T) (tid := t) (n := n) (by omega) (by omega) (by omega)
    rw [wp_bind]
    refine wp_parMemRange (T := T) (tid := t) (n := n) (by omega) (by omega) hn' (by omega) ?_
    refine wp_loopUp (fun i _ m' => ∀ j : Int, memBegin T t n ≤ j → j < i → m' .dst j = some c) _ _ _ _
      ?_ ?_ ?_
    · intro j h1 h2; omega
    · intro i _ m' h1 h2 h3
      simp only [wp_write]
      refine ⟨⟨trivial, h1, by omega⟩, by omega, by omega, ?_⟩
      intro j hj1 hj2; rw [Mem.set_same]; split
      · rfl
      · exact h3 j hj1 (by omega)
    · intro _ m' h i h1 h2; exact h i h1 (by omega)
  · intro _ m' hq hf
    refine ⟨?_, ?_, ?_⟩
    · intro i h0 hi
      obtain ⟨t, ht0, htT, h1, h2⟩ := mem_cover (T := T) (n := n) (by omega) h0 hi
      obtain ⟨t, rfl⟩ := Int.eq_ofNat_of_zero_le ht0
      obtain ⟨mt, g1, g2⟩ := hq t (by omega)
      rw [g2 .dst i ⟨rfl, h1, h2⟩]; exact g1 i h1 h2
    · intro i hi
      refine hf .dst i ?_
      rintro t ht ⟨_, h1, h2⟩
      have hf := memRange_facts (T := T) (tid := t) (n := n) (by omega) (by omega) (by omega)
      omega
    · funext i; exact hf .src i (by rintro t _ ⟨h, _⟩; cases h)

theorem parMemcpy_ok (T : Nat) (hT : 1 ≤ T) (n : Nat) (hn : n < 2147483648) (v : Int → Int) (m : Mem BTy)
    (hv : ∀ i : Int, 0 ≤ i → i < n → m .src i = some (v i)) :
    (parMemcpy T n).Ok m (fun _ m' =>
      (∀ i : Int, 0 ≤ i → i < n → m' .dst i = some (v i)) ∧
      (∀ i : Int, ¬ (0 ≤ i ∧ i < n) → m' .dst i = m .dst i) ∧ m' .src = m .src) := by
  have hn' : (n : Int) < 2147483648 := by omega
  refine par_rule
    (W := fun t a i => a = .dst ∧ memBegin T t n ≤ i ∧ i < memEnd T t n)
    (R := fun t a i => a = .src ∨ (a = .dst ∧ memBegin T t n ≤ i ∧ i < memEnd T t n))
    (Q := fun t _ m' => ∀ i : Int, memBegin T t n ≤ i → i < memEnd T t n → m' .dst i = some (v i)) ?_ ?_ ?_
  · rintro t u a i ht hu htu ⟨rfl, h1, h2⟩ (h | ⟨_, h3, h4⟩)
    · cases h
    have := mem_unique (T := T) (n := n) (by omega) (by omega) (by omega) (by omega) h1 h2 h3 h4
    omega
  · intro t ht
    have hf := memRange_facts (T := T) (tid := t) (n := n) (by omega) (by omega) (by omega)
    rw [wp_bind]
    refine wp_parMemRange (T := T) (tid := t) (n := n) (by omega) (by omega) hn' (by omega) ?_
    refine wp_loopUp (fun i _ m' => m' .src = m .src ∧
      ∀ j : Int, memBegin T t n ≤ j → j < i → m' .dst j = some (v j)) _ _ _ _
      ?_ ?_ ?_
    · exact ⟨rfl, fun j h1 h2 => by omega⟩
    · rintro i _ m' h1 h2 ⟨h3, h4⟩
      simp only [wp_bind, wp_write, wp_read, true_or, true_and, reduceCtorEq]
      refine ⟨v i, by rw [h3]; exact hv i (by omega) (by omega), ⟨h1, by omega⟩, by omega, by omega, ?_, ?_⟩
      · rw [Mem.set_other _ _ _ _ _ (by simp)]; exact h3
      intro j hj1 hj2; rw [Mem.set_same]; split
      · next h => rw [h]
      · exact h4 j hj1 (by omega)
    · rintro _ m' ⟨_, h⟩ i h1 h2; exact h i h1 (by omega)
  · intro _ m' hq hf
    refine ⟨?_, ?_, ?_⟩
    · intro i h0 hi
      obtain ⟨t, ht0, htT, h1, h2⟩ := mem_cover (T := T) (n := n) (by omega) h0 hi
      obtain ⟨t, rfl⟩ := Int.eq_ofNat_of_zero_le ht0
      obtain ⟨mt, g1, g2⟩ := hq t (by omega)
      rw [g2 .dst i (Or.inr ⟨rfl, h1, h2⟩)]; exact g1 i h1 h2
    · intro i hi
      refine hf .dst i ?_
      rintro t ht ⟨_, h1, h2⟩
      have hf := memRange_facts (T := T) (tid := t) (n := n) (by omega) (by omega) (by omega)
      omega
    · funext i; exact hf .src i (by rintro t _ ⟨h, _⟩; cases h)

/-- Writing `k` bytes from `i` when fewer than `k` are left inside the array is undefined behaviour. -/
theorem run_memset_oob {c : Int} {N : Int} : ∀ (k : Nat) (i : Int) (m : Mem BTy), i + k > N → i ≤ N →
    Prog.run (fun _ => N) (Prog.loopUp (fun i _ => Prog.write (ty := BTy) .dst i c) k i ()) m = none
  | 0, i, m, h1, h2 => by omega
  | k + 1, i, m, h1, h2 => by
    simp only [Prog.loopUp, Prog.write, Prog.bind, Prog.run]
    split
    · exact run_memset_oob k (i + 1) _ (by omega) (by omega)
    · rfl

/-- Running `parMemRange` and then the byte loop, when the range leaves the array. -/
theorem run_range_oob {c N b : Int} {k : Nat} {p : Prog BTy (Int × Nat)} {m : Mem BTy}
    (hp : p = Prog.ret (b, k)) (h1 : b + k > N) (h2 : b ≤ N) :
    Prog.run (fun _ => N) (p.bind fun r =>
      Prog.loopUp (fun i _ => Prog.write (ty := BTy) .dst i c) r.2 r.1 ()) m = none := by
  subst hp
  exact run_memset_oob k b m h1 h2

/-- With 2^31 bytes and one thread the `int` conversions make the call undefined. -/
theorem parMemset_overflow (c : Int) (m : Mem BTy) (n : Nat) (hn : n = 2147483648) :
    (parMemset 1 c n).runUB m = true := by
  have hk : ∃ k : Nat, toU64 (-2147483648) = k ∧ (k : Int) > 2147483648 :=
    ⟨_, rfl, by unfold toU64; omega⟩
  obtain ⟨k, hk1, hk2⟩ := hk
  have hn' : (n : Int) = 2147483648 := by omega
  have hr : parMemRange ((1 : Nat) : Int) ((0 : Nat) : Int) (n : Int) = Prog.ret ((0 : Int), k) := by
    have e1 : toI32 ((n : Int) / 64) = 33554432 := by rw [hn']; decide
    have e2 : simpleBegin 1 0 33554432 = 0 := by decide
    have e3 : toI32 (n : Int) = -2147483648 := by rw [hn']; decide
    have e4 : fitsI32 0 := by decide
    have e5 : fitsI32 (-2147483648) := by decide
    unfold parMemRange
    simp [e1, e2, e3, Prog.assert, bind, Prog.bind, pure, if_pos e4, if_pos e5, hk1]
  have key := run_range_oob (c := c) (m := m) (N := n) hr (by omega) (by omega)
  exact runUB_of_run key

end SpMP
