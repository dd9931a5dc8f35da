import Verif.Script
import Mathlib.Tactic.Linarith
import Mathlib.Tactic.Ring
/-
Model of the thread partition helpers in /repo/Utils.cpp.
-/

namespace SpMP

/-- Utils.cpp:42 `n_per_thread = (n + nthreads - 1)/nthreads`. C `/` on non-negative ints. -/
def perThread (T n : Int) : Int := (n + T - 1) / T

/-- Utils.cpp:37-46 getSimpleThreadPartition, `*begin` (line 44). -/
def simpleBegin (T tid n : Int) : Int := min (perThread T n * tid) n

/-- Utils.cpp:37-46 getSimpleThreadPartition, `*end` (line 45). -/
def simpleEnd (T tid n : Int) : Int := min (simpleBegin T tid n + perThread T n) n

theorem perThread_spec {T n : Int} (hT : 1 ≤ T) :
    n ≤ perThread T n * T ∧ perThread T n * T ≤ n + T - 1 := by
  unfold perThread
  have h1 := Int.emod_add_mul_ediv (n + T - 1) T
  have h2 := Int.emod_lt_of_pos (n + T - 1) (by omega : 0 < T)
  have h3 := Int.emod_nonneg (n + T - 1) (by omega : T ≠ 0)
  constructor <;> nlinarith

theorem perThread_nonneg {T n : Int} (hT : 1 ≤ T) (hn : 0 ≤ n) : 0 ≤ perThread T n := by
  unfold perThread; exact Int.ediv_nonneg (by omega) (by omega)

theorem simpleBegin_zero {T n : Int} (hn : 0 ≤ n) : simpleBegin T 0 n = 0 := by
  simp [simpleBegin]; omega

theorem simpleEnd_eq_next {T tid n : Int} (hT : 1 ≤ T) (hn : 0 ≤ n) :
    simpleEnd T tid n = simpleBegin T (tid + 1) n := by
  have := perThread_nonneg hT hn
  unfold simpleEnd simpleBegin
  have e : perThread T n * (tid + 1) = perThread T n * tid + perThread T n := by ring
  rw [e]; omega

theorem simpleBegin_nonneg {T tid n : Int} (hT : 1 ≤ T) (hn : 0 ≤ n) (ht : 0 ≤ tid) :
    0 ≤ simpleBegin T tid n := by
  have := Int.mul_nonneg (perThread_nonneg hT hn) ht
  unfold simpleBegin; omega

theorem simpleBegin_le {T tid n : Int} : simpleBegin T tid n ≤ n := by
  unfold simpleBegin; omega

theorem simpleEnd_le {T tid n : Int} : simpleEnd T tid n ≤ n := by
  unfold simpleEnd; omega

theorem simpleBegin_le_end {T tid n : Int} (hT : 1 ≤ T) (hn : 0 ≤ n) :
    simpleBegin T tid n ≤ simpleEnd T tid n := by
  have := perThread_nonneg hT hn
  have := @simpleBegin_le T tid n
  unfold simpleEnd; omega

theorem simpleBegin_mono {T t u n : Int} (hT : 1 ≤ T) (hn : 0 ≤ n) (h : t ≤ u) :
    simpleBegin T t n ≤ simpleBegin T u n := by
  have := Int.mul_le_mul_of_nonneg_left h (perThread_nonneg hT hn)
  unfold simpleBegin; omega

theorem simpleEnd_le_begin {T t u n : Int} (hT : 1 ≤ T) (hn : 0 ≤ n) (h : t < u) :
    simpleEnd T t n ≤ simpleBegin T u n := by
  rw [simpleEnd_eq_next hT hn]; exact simpleBegin_mono hT hn (by omega)

theorem simpleBegin_last {T n : Int} (hT : 1 ≤ T) : simpleBegin T T n = n := by
  have := (perThread_spec (n := n) hT).1
  unfold simpleBegin; omega

theorem simple_exists {T n i : Int} (hT : 1 ≤ T) (hi : 0 ≤ i) (hin : i < n) :
    ∃ t, 0 ≤ t ∧ t < T ∧ simpleBegin T t n ≤ i ∧ i < simpleEnd T t n := by
  have hq := perThread_spec (n := n) hT
  have hq0 := perThread_nonneg (n := n) hT (by omega)
  have hqpos : 0 < perThread T n := by
    rcases Int.lt_or_eq_of_le hq0 with h | h
    · exact h
    · rw [← h] at hq; omega
  refine ⟨i / perThread T n, Int.ediv_nonneg hi hq0, ?_, ?_, ?_⟩
  · exact Int.ediv_lt_of_lt_mul hqpos (by rw [Int.mul_comm]; nlinarith [hq.1])
  · have := Int.mul_ediv_self_le (x := i) (k := perThread T n) (by omega)
    unfold simpleBegin; omega
  · have h1 := Int.emod_add_mul_ediv i (perThread T n)
    have h2 := Int.emod_lt_of_pos i hqpos
    unfold simpleEnd simpleBegin; omega

/-- Same thread if the same item (used for disjointness). -/
theorem simple_unique {T n i t u : Int} (hT : 1 ≤ T) (hn : 0 ≤ n)
    (h1 : simpleBegin T t n ≤ i) (h2 : i < simpleEnd T t n)
    (h3 : simpleBegin T u n ≤ i) (h4 : i < simpleEnd T u n) : t = u := by
  rcases Int.lt_trichotomy t u with h | h | h
  · have := simpleEnd_le_begin (n := n) hT hn h; omega
  · exact h
  · have := simpleEnd_le_begin (n := n) hT hn h; omega

/-! ### std::lower_bound and the load-balanced partition -/

section
variable {A : Type} [DecidableEq A] {ty : A → Type} {α : Type}

/-- `std::lower_bound(a + first, a + first + len, x) - a` as the standard library implements it (halving).
`get i` reads `a[i]`. `fuel` bounds the number of halvings; `len` is always enough (`lowerBound`). -/
def lowerBoundAux (get : Int → Prog ty Int) (x : Int) : Nat → Int → Nat → Prog ty Int
  | _, first, 0 => pure first
  | 0, _, _ + 1 => .fail
  | fuel + 1, first, len + 1 => do
      let half := (len + 1) / 2
      let v ← get (first + half)
      if v < x then lowerBoundAux get x fuel (first + half + 1) (len + 1 - half - 1)
      else lowerBoundAux get x fuel first half

/-- std::lower_bound over `a[first .. last)`, returned as an index. -/
def lowerBound (get : Int → Prog ty Int) (first last x : Int) : Prog ty Int :=
  lowerBoundAux get x (last - first).toNat first (last - first).toNat

/-- Utils.cpp:48-63 getLoadBalancedPartition (asserts included). `get i` reads `prefixSum[i]`. -/
def loadBalanced (get : Int → Prog ty Int) (T tid n : Int) : Prog ty (Int × Int) := do
  let base ← get 0
  let last ← get n
  let wpt := perThread T (last - base)
  let b ← (if tid = 0 then pure 0 else lowerBound get 0 n (wpt * tid + base) : Prog ty Int)
  let e ← (if tid = T - 1 then pure n else lowerBound get 0 n (wpt * (tid + 1) + base) : Prog ty Int)
  Prog.assert (b ≤ e)
  Prog.assert (0 ≤ b ∧ b ≤ n)
  Prog.assert (0 ≤ e ∧ e ≤ n)
  pure (b, e)

variable {sz : A → Int} {W R : A → Int → Prop}

/-- `get` behaves as a read of the array with contents `f` on `[lo, hi)`. -/
def Reads (sz : A → Int) (W R : A → Int → Prop) (m : Mem ty) (get : Int → Prog ty Int) (f : Int → Int)
    (lo hi : Int) : Prop :=
  ∀ i, lo ≤ i → i < hi → ∀ Q : Int → Mem ty → Prop, Q (f i) m → wp sz W R (get i) m Q

theorem wp_lowerBoundAux {m : Mem ty} {get : Int → Prog ty Int} {f : Int → Int} {x : Int} (lo hi : Int)
    (hget : Reads sz W R m get f lo hi)
    (hmono : ∀ i j, lo ≤ i → i ≤ j → j < hi → f i ≤ f j) :
    ∀ (fuel : Nat) (first : Int) (len : Nat) {Q : Int → Mem ty → Prop},
      len ≤ fuel → lo ≤ first → first + len ≤ hi →
      (∀ i, lo ≤ i → i < first → f i < x) → (∀ i, first + len ≤ i → i < hi → x ≤ f i) →
      (∀ p, lo ≤ p → p ≤ hi → (∀ i, lo ≤ i → i < p → f i < x) → (∀ i, p ≤ i → i < hi → x ≤ f i) → Q p m) →
      wp sz W R (lowerBoundAux get x fuel first len) m Q := by
  intro fuel
  induction fuel with
  | zero =>
    intro first len Q h1 h2 h3 h4 h5 hQ
    have : len = 0 := by omega
    subst this
    simp only [lowerBoundAux, wp_pure]
    exact hQ first h2 (by omega) h4 (by intro i h6 h7; exact h5 i (by omega) h7)
  | succ fuel ih =>
    intro first len Q h1 h2 h3 h4 h5 hQ
    cases len with
    | zero =>
      simp only [lowerBoundAux, wp_pure]
      exact hQ first h2 (by omega) h4 (by intro i h6 h7; exact h5 i (by omega) h7)
    | succ len =>
      unfold lowerBoundAux
      simp only [wp_bind]
      refine hget _ (by omega) (by omega) _ ?_
      rw [wp_ite]
      constructor
      · intro hv
        refine ih _ _ (by omega) (by omega) (by omega) ?_ ?_ hQ
        · intro i h6 h7
          have := hmono i (first + ((len + 1) / 2 : Nat)) h6 (by omega) (by omega)
          omega
        · intro i h6 h7; exact h5 i (by omega) h7
      · intro hv
        refine ih _ _ (by omega) (by omega) (by omega) h4 ?_ hQ
        intro i h6 h7
        have := hmono (first + ((len + 1) / 2 : Nat)) i (by omega) (by omega) h7
        omega

/-- `lower_bound` on a non-decreasing range returns the first position whose element is not less than `x`. -/
theorem wp_lowerBound {m : Mem ty} {get : Int → Prog ty Int} {f : Int → Int} {x lo hi : Int}
    {Q : Int → Mem ty → Prop} (hle : lo ≤ hi)
    (hget : Reads sz W R m get f lo hi)
    (hmono : ∀ i j, lo ≤ i → i ≤ j → j < hi → f i ≤ f j)
    (hQ : ∀ p, lo ≤ p → p ≤ hi → (∀ i, lo ≤ i → i < p → f i < x) →
      (∀ i, p ≤ i → i < hi → x ≤ f i) → Q p m) :
    wp sz W R (lowerBound get lo hi x) m Q := by
  refine wp_lowerBoundAux lo hi hget hmono _ _ _ (by omega) (by omega) (by omega) ?_ ?_ hQ
  · intro i _ _; omega
  · intro i _ _; omega

/-- The positions a load-balanced partition cuts at: `IsCut f T n t p` = "p is where thread `t` starts",
the first row whose prefix sum reaches `t` shares of the work (0 for the first thread, `n` for the end). -/
def IsCut (f : Int → Int) (T n t p : Int) : Prop :=
  0 ≤ p ∧ p ≤ n ∧ (t = 0 → p = 0) ∧ (t = T → p = n) ∧
  (t ≠ 0 → t ≠ T → (∀ i, 0 ≤ i → i < p → f i < perThread T (f n - f 0) * t + f 0) ∧
    (∀ i, p ≤ i → i < n → perThread T (f n - f 0) * t + f 0 ≤ f i))

theorem IsCut.unique {f : Int → Int} {T n t p q : Int} (h : IsCut f T n t p) (h' : IsCut f T n t q) :
    p = q := by
  obtain ⟨h1, h2, h3, h4, h5⟩ := h
  obtain ⟨g1, g2, g3, g4, g5⟩ := h'
  by_cases ht : t = 0
  · rw [h3 ht, g3 ht]
  by_cases hT : t = T
  · rw [h4 hT, g4 hT]
  obtain ⟨a1, a2⟩ := h5 ht hT
  obtain ⟨b1, b2⟩ := g5 ht hT
  rcases Int.lt_trichotomy p q with h | h | h
  · have := b1 p h1 h; have := a2 p (by omega) (by omega); omega
  · exact h
  · have := a1 q g1 h; have := b2 q (by omega) (by omega); omega

theorem IsCut.mono {f : Int → Int} {T n t u p q : Int} (hT : 1 ≤ T) (hn : 0 ≤ n)
    (hf : ∀ i j, 0 ≤ i → i ≤ j → j ≤ n → f i ≤ f j)
    (h : IsCut f T n t p) (h' : IsCut f T n u q) (h0 : 0 ≤ t) (htu : t ≤ u) (huT : u ≤ T) : p ≤ q := by
  have hw : 0 ≤ perThread T (f n - f 0) :=
    perThread_nonneg hT (by have := hf 0 n (by omega) hn (by omega); omega)
  have hm := Int.mul_le_mul_of_nonneg_left htu hw
  obtain ⟨h1, h2, h3, h4, h5⟩ := h
  obtain ⟨g1, g2, g3, g4, g5⟩ := h'
  by_cases e1 : t = 0
  · rw [h3 e1]; omega
  by_cases e2 : u = T
  · rw [g4 e2]; omega
  have ht : t ≠ T := by omega
  have hu : u ≠ 0 := by omega
  obtain ⟨a1, a2⟩ := h5 e1 ht
  obtain ⟨b1, b2⟩ := g5 hu e2
  by_contra hlt
  have := a1 q g1 (by omega)
  have := b2 q (by omega) (by omega)
  omega

theorem wp_loadBalanced {m : Mem ty} {get : Int → Prog ty Int} {f : Int → Int} {T tid n : Int}
    {Q : Int × Int → Mem ty → Prop} (hT : 1 ≤ T) (ht : 0 ≤ tid) (htT : tid < T) (hn : 0 ≤ n)
    (hget : Reads sz W R m get f 0 (n + 1))
    (hmono : ∀ i j, 0 ≤ i → i ≤ j → j ≤ n → f i ≤ f j)
    (hQ : ∀ b e, IsCut f T n tid b → IsCut f T n (tid + 1) e → b ≤ e → Q (b, e) m) :
    wp sz W R (loadBalanced get T tid n) m Q := by
  unfold loadBalanced
  simp only [wp_bind]
  refine hget _ (by omega) (by omega) _ ?_
  refine hget _ (by omega) (by omega) _ ?_
  have hget' : Reads sz W R m get f 0 n := fun i h1 h2 => hget i h1 (by omega)
  have step2 : ∀ b, IsCut f T n tid b → wp sz W R
      (if tid = T - 1 then pure n
        else lowerBound get 0 n (perThread T (f n - f 0) * (tid + 1) + f 0)) m (fun a m' =>
        wp sz W R (Prog.assert (b ≤ a)) m' fun _ m'' =>
          wp sz W R (Prog.assert (0 ≤ b ∧ b ≤ n)) m'' fun _ m''' =>
            wp sz W R (Prog.assert (0 ≤ a ∧ a ≤ n)) m''' fun _ m4 => wp sz W R (pure (b, a)) m4 Q) := by
    intro b hb
    have fin : ∀ e, IsCut f T n (tid + 1) e → b ≤ e ∧ (0 ≤ b ∧ b ≤ n) ∧ (0 ≤ e ∧ e ≤ n) ∧ Q (b, e) m := by
      intro e he
      have hle := IsCut.mono hT hn hmono hb he ht (by omega) (by omega)
      exact ⟨hle, ⟨hb.1, hb.2.1⟩, ⟨he.1, he.2.1⟩, hQ b e hb he hle⟩
    simp only [wp_assert, wp_pure]
    rw [wp_ite]
    constructor
    · intro h
      rw [wp_pure]
      refine fin n ⟨hn, by omega, by omega, fun _ => rfl, ?_⟩
      intro _ h2; omega
    · intro h
      refine wp_lowerBound hn hget' (fun i j h1 h2 h3 => hmono i j h1 h2 (by omega)) ?_
      intro p h1 h2 h3 h4
      exact fin p ⟨h1, h2, by omega, by omega, fun _ _ => ⟨h3, h4⟩⟩
  rw [wp_ite]
  constructor
  · intro h
    rw [wp_pure]
    refine step2 0 ⟨by omega, hn, fun _ => rfl, by omega, fun h' => absurd h h'⟩
  · intro h
    refine wp_lowerBound hn hget' (fun i j h1 h2 h3 => hmono i j h1 h2 (by omega)) ?_
    intro p h1 h2 h3 h4
    exact step2 p ⟨h1, h2, by omega, by omega, fun _ _ => ⟨h3, h4⟩⟩

end

/-- Balance of a load-balanced cut. -/
theorem IsCut.balance {f : Int → Int} {T n t p q : Int} (hT : 1 ≤ T) 
    (hf : ∀ i j, 0 ≤ i → i ≤ j → j ≤ n → f i ≤ f j) (h0 : 0 ≤ t) (htT : t < T)
    (h : IsCut f T n t p) (h' : IsCut f T n (t + 1) q) (hpq : p < q) :
    f q - f p ≤ perThread T (f n - f 0) + (f q - f (q - 1)) := by
  have hw := (perThread_spec (T := T) (n := f n - f 0) hT).1
  obtain ⟨h1, h2, h3, h4, h5⟩ := h
  obtain ⟨g1, g2, g3, g4, g5⟩ := h'
  have lowp : perThread T (f n - f 0) * t + f 0 ≤ f p := by
    by_cases e : t = 0
    · rw [h3 e, e]; omega
    · exact (h5 e (by omega)).2 p (by omega) (by omega)
  have highq : f (q - 1) ≤ perThread T (f n - f 0) * (t + 1) + f 0 := by
    by_cases e : t + 1 = T
    · have := hf (q - 1) n (by omega) (by omega) (by omega)
      rw [e]; omega
    · have := (g5 (by omega) e).1 (q - 1) (by omega) (by omega); omega
  have e : perThread T (f n - f 0) * (t + 1) =
    perThread T (f n - f 0) * t + perThread T (f n - f 0) := by ring
  omega

end SpMP
