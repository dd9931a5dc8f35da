import Verif.PrefixSum1
import Verif.Perm
import Verif.ParMem
/-
Property theorems C01-C05 and C48 (/repo/Utils.cpp, /repo/PrefixSum.cpp).
-/

namespace SpMP.Props
open SpMP SpMP.Spec

/-! ## C01 -/

/-- C01. The ranges getSimpleThreadPartition gives to threads 0..T-1 tile [0,n); every thread gets at most
ceil(n/T) items (`q` with `n ≤ q*T` ranges over the upper bounds of n/T). -/
theorem C01_simple_partition (T : Nat) (hT : 1 ≤ T) (n : Int) (hn : 0 ≤ n) :
    Tiles T n (fun t => simpleBegin T t n) (fun t => simpleEnd T t n) ∧
    ∀ t, t < T → ∀ q : Int, n ≤ q * T → simpleEnd T t n - simpleBegin T t n ≤ q := by
  have hT' : (1 : Int) ≤ T := by omega
  refine ⟨⟨?_, ?_, ?_⟩, ?_⟩
  · intro t _
    exact ⟨simpleBegin_nonneg hT' hn (by omega), simpleBegin_le_end hT' hn, simpleEnd_le⟩
  · intro t u h _; exact simpleEnd_le_begin hT' hn (by omega)
  · intro i h0 h1
    obtain ⟨t, ht0, htT, h2, h3⟩ := simple_exists hT' h0 h1
    obtain ⟨t, rfl⟩ := Int.eq_ofNat_of_zero_le ht0
    refine ⟨t, by omega, ⟨h2, h3⟩, ?_⟩
    intro u hu h4 h5
    have := simple_unique hT' hn h4 h5 h2 h3
    omega
  · intro t _ q hq
    have h1 := perThread_spec (n := n) hT'
    have h2 : perThread T n ≤ q := by
      by_contra hlt
      have : (q + 1) * T ≤ perThread T n * T := Int.mul_le_mul_of_nonneg_right (by omega) (by omega)
      have e : (q + 1) * (T : Int) = q * T + T := by ring
      omega
    have : simpleEnd T t n ≤ simpleBegin T t n + perThread T n := by unfold simpleEnd; omega
    omega

-- 10 items on 4 threads: 3,3,3,1
example : (List.range 4).map (fun t : Nat => (simpleBegin 4 t 10, simpleEnd 4 t 10)) =
    [(0, 3), (3, 6), (6, 9), (9, 10)] := by decide

/-! ## C02 -/

/-- Every thread of a team of `T` calls getLoadBalancedPartition(&b, &e, ws, n) on the shared array `ws`. -/
def loadBalancedTeam (T n : Nat) : Script PTy (Nat → Int × Int) :=
  .phase (fun _ => (n : Int) + 1) T (fun tid => loadBalanced (Prog.read (ty := PTy) .ws) T tid n) .done

/-- C02. For a non-decreasing array `f 0 ≤ ... ≤ f n` of prefix sums (any first value), the ranges computed by
the threads tile [0,n); no assert fails and nothing outside the array is read; the work of a thread with a
non-empty range is at most ceil(total/T) plus the work of its last row. -/
theorem C02_load_balanced_partition (T n : Nat) (hT : 1 ≤ T) (f : Nat → Int)
    (hf : ∀ i j, i ≤ j → j ≤ n → f i ≤ f j) (m : Mem PTy)
    (hm : ∀ i, i ≤ n → m .ws (i : Int) = some (f i)) :
    (loadBalancedTeam T n).Ok m (fun r m' => m' = m ∧
      Tiles T n (fun t => (r t).1) (fun t => (r t).2) ∧
      ∀ t, t < T → ∀ b e : Nat, r t = ((b : Int), (e : Int)) → b < e →
        ∀ q : Int, f n - f 0 ≤ q * T → f e - f b ≤ q + (f e - f (e - 1))) := by
  let g : Int → Int := fun i => f i.toNat
  have hT' : (1 : Int) ≤ T := by omega
  have hmono : ∀ i j : Int, 0 ≤ i → i ≤ j → j ≤ n → g i ≤ g j := by
    intro i j h1 h2 h3; exact hf _ _ (by omega) (by omega)
  refine par_rule (W := fun _ _ _ => False) (R := fun _ _ _ => True)
    (Q := fun t r m' => m' = m ∧ IsCut g T n t r.1 ∧ IsCut g T n (t + 1) r.2 ∧ r.1 ≤ r.2) ?_ ?_ ?_
  · intro _ _ _ _ _ _ _ h; exact h.elim
  · intro t ht
    refine wp_loadBalanced (f := g) hT' (by omega) (by omega) (by omega) ?_ hmono ?_
    · intro i h1 h2 Q hQ
      rw [wp_read]
      refine ⟨trivial, g i, ?_, hQ⟩
      obtain ⟨i, rfl⟩ := Int.eq_ofNat_of_zero_le h1
      exact hm i (by omega)
    · intro b e h1 h2 h3; exact ⟨rfl, h1, h2, h3⟩
  · intro r m' hq hfr
    have hr : ∀ t : Nat, t < T → IsCut g T n t (r t).1 ∧ IsCut g T n (t + 1) (r t).2 ∧ (r t).1 ≤ (r t).2 := by
      intro t ht; obtain ⟨mt, ⟨_, h⟩, _⟩ := hq t ht; exact h
    refine ⟨by funext a i; exact hfr a i (by intro _ _ h; exact h), ⟨?_, ?_, ?_⟩, ?_⟩
    · intro t ht; obtain ⟨h1, h2, h3⟩ := hr t ht; exact ⟨h1.1, h3, h2.2.1⟩
    · intro t u htu hu
      exact IsCut.mono hT' (by omega) hmono (hr t (by omega)).2.1 (hr u hu).1 (by omega) (by omega) (by omega)
    · intro i h0 h1
      -- first thread whose end exceeds i
      have hex : ∃ t, t < T ∧ i < (r t).2 := by
        refine ⟨T - 1, by omega, ?_⟩
        have := (hr (T - 1) (by omega)).2.1.2.2.2.1 (by omega)
        show i < (r (T - 1)).2
        omega
      have hmin : ∃ t, (t < T ∧ i < (r t).2) ∧ ∀ u, u < t → ¬ (u < T ∧ i < (r u).2) := by
        classical
        exact ⟨Nat.find hex, Nat.find_spec hex, fun u hu => Nat.find_min hex hu⟩
      obtain ⟨t, ⟨ht, hi⟩, hlt⟩ := hmin
      have hb : (r t).1 ≤ i := by
        rcases Nat.eq_zero_or_pos t with h | h
        · subst h
          have := (hr 0 ht).1.2.2.1 rfl
          show (r 0).1 ≤ i; omega
        · have h' := hlt (t - 1) (by omega)
          have e := IsCut.unique (hr t ht).1 (by
            have := (hr (t - 1) (by omega)).2.1
            have e : ((t - 1 : Nat) : Int) + 1 = t := by omega
            rw [e] at this; exact this)
          by_contra hlt'
          exact h' ⟨by omega, by omega⟩
      refine ⟨t, ht, ⟨hb, hi⟩, ?_⟩
      intro u hu h2 h3
      have h2 : (r u).1 ≤ i := h2
      have h3 : i < (r u).2 := h3
      rcases Nat.lt_trichotomy t u with h | h | h
      · have := IsCut.mono hT' (by omega) hmono (hr t ht).2.1 (hr u hu).1 (by omega) (by omega) (by omega)
        omega
      · exact h.symm
      · have := IsCut.mono hT' (by omega) hmono (hr u hu).2.1 (hr t ht).1 (by omega) (by omega) (by omega)
        omega
    · intro t ht b e hbe hlt q hq'
      obtain ⟨h1, h2, _⟩ := hr t ht
      rw [hbe] at h1 h2
      have := IsCut.balance hT' hmono (by omega) (by omega) h1 h2 (by omega)
      have hs := perThread_spec (T := T) (n := f n - f 0) hT'
      have hle : perThread T (f n - f 0) ≤ q := by
        by_contra hlt
        have : (q + 1) * T ≤ perThread T (f n - f 0) * T :=
          Int.mul_le_mul_of_nonneg_right (by omega) (by omega)
        have e : (q + 1) * (T : Int) = q * T + T := by ring
        omega
      have e1 : g ((e : Int) - 1) = f (e - 1) := by
        show f _ = _; congr 1; omega
      have e2 : g ((e : Int)) = f e := rfl
      have e3 : g ((b : Int)) = f b := rfl
      have e4 : g ((n : Int)) = f n := rfl
      have e5 : g 0 = f 0 := rfl
      rw [e1, e2, e3, e4, e5] at this
      omega

/-- Memory whose `ws` array holds the given list. -/
def wsMem (l : List Int) : Mem PTy := fun a i => match a with
  | .ws => if 0 ≤ i then l[i.toNat]? else none
  | _ => none

-- four rows with work 5,0,1,4 (base 1) on 3 threads: rows 0 | 1,2 | 3 ... the model's own result
example : ((loadBalancedTeam 3 4).run (wsMem [1, 6, 6, 7, 11])).map
    (fun p => (List.range 3).map p.1) = some [(0, 1), (1, 4), (4, 4)] := by decide
example : ∀ i j, i ≤ j → j ≤ 4 → ([1, 6, 6, 7, 11] : List Int)[i]?.getD 0 ≤ ([1, 6, 6, 7, 11] : List Int)[j]?.getD 0 := by
  intro i j h1 h2
  have : j = 0 ∨ j = 1 ∨ j = 2 ∨ j = 3 ∨ j = 4 := by omega
  have : i = 0 ∨ i = 1 ∨ i = 2 ∨ i = 3 ∨ i = 4 := by omega
  rcases ‹j = 0 ∨ _› with rfl | rfl | rfl | rfl | rfl <;>
    rcases ‹i = 0 ∨ _› with rfl | rfl | rfl | rfl | rfl <;> first | omega | decide

/-! ## C03 -/

/-- C03 (prefixSum). Thread `t` passes `x t`; afterwards it holds `x 0 + ... + x (t-1)`, `*sum` is the total,
for every team size and every interleaving, with no access outside the arrays or to unwritten memory. -/
theorem C03_prefixSum (T : Nat) (hT : 1 ≤ T) (x : Nat → Int) (m : Mem PTy)
    (hio : ∀ t, t < T → m (.io t) 0 = some (x t)) :
    (prefixSum T).Ok m (fun _ m' =>
      (∀ t, t < T → m' (.io t) 0 = some (sumBelow x t)) ∧ m' .sum 0 = some (sumBelow x T)) :=
  prefixSum_ok T hT x m hio

/-- C03 (prefixSumMultiple). The same for vectors of length `n`. -/
theorem C03_prefixSumMultiple (T n : Nat) (hT : 1 ≤ T) (x : Nat → Nat → Int) (m : Mem PTy)
    (hio : ∀ t i, t < T → i < n → m (.io t) i = some (x t i)) :
    (prefixSumMultiple T n).Ok m (fun _ m' =>
      (∀ t i, t < T → i < n → m' (.io t) i = some (sumBelow (fun u => x u i) t)) ∧
      (∀ i, i < n → m' .sum i = some (sumBelow (fun u => x u i) T))) :=
  prefixSumMultiple_ok T n hT x m hio

/-- Memory where thread `t`'s vector is `(x t)`. -/
def ioMem (x : Nat → Nat → Int) : Mem PTy := fun a i => match a with
  | .io t => if 0 ≤ i then some (x t i.toNat) else none
  | _ => none

-- the hypotheses are met and the model computes: 3 threads with vectors (1,10), (2,20), (3,30)
example : ((prefixSumMultiple 3 2).run (ioMem fun t i => (t + 1 : Int) * (if i = 0 then 1 else 10))).map
    (fun p => ((List.range 3).map (fun t => (p.2 (.io t) 0, p.2 (.io t) 1)), p.2 .sum 0, p.2 .sum 1)) =
    some ([(some 0, some 0), (some 1, some 10), (some 3, some 30)], some 6, some 60) := by decide

/-! ## C04 -/

/-- Specification: the list is a permutation of 0 .. length-1. -/
def IsPermutation (l : List Int) : Prop := ∀ k : Int, 0 ≤ k → k < l.length → k ∈ l

/-- C04 as stated is FALSE of the code: isPerm accepts arrays that are not permutations of 0..n-1. -/
theorem C04_isPerm_false : ¬ ∀ l : List Int, isPerm l = true ↔ IsPermutation l := by
  intro h
  have h1 : isPerm [5, 7] = true := by decide
  have := (h [5, 7]).mp h1 0 (by decide) (by decide)
  revert this; decide

/-- C04, the true part: isPerm returns true exactly for duplicate-free arrays; in particular it accepts every
permutation, rejects everything with a duplicate, and is exact for arrays with entries in 0..n-1. Missing with
respect to C04: out-of-range entries are not rejected. -/
theorem C04_isPerm_partial (l : List Int) :
    (isPerm l = true ↔ l.Nodup) ∧
    (IsPermutation l → isPerm l = true) ∧
    ((∀ x ∈ l, 0 ≤ x ∧ x < l.length) → (isPerm l = true ↔ IsPermutation l)) := by
  have key := isPerm_iff_nodup l
  have fwd : IsPermutation l → l.Nodup := by
    intro h
    let r : List Int := (List.range l.length).map (fun i : Nat => (i : Int))
    have hr : r.Nodup := by
      refine List.Nodup.map ?_ List.nodup_range
      intro a b hab; simpa using hab
    have hsub : r ⊆ l := by
      intro x hx
      simp only [r, List.mem_map, List.mem_range] at hx
      obtain ⟨i, hi, rfl⟩ := hx
      exact h i (by omega) (by omega)
    have hsp := List.subperm_of_subset hr hsub
    have hp : r.Perm l := hsp.perm_of_length_le (by simp [r])
    exact hp.nodup_iff.mp hr
  refine ⟨key, fun h => key.mpr (fwd h), fun hrange => ⟨fun h => ?_, fun h => key.mpr (fwd h)⟩⟩
  have hnd := key.mp h
  let r : List Int := (List.range l.length).map (fun i : Nat => (i : Int))
  have hsub : l ⊆ r := by
    intro x hx
    obtain ⟨h1, h2⟩ := hrange x hx
    simp only [r, List.mem_map, List.mem_range]
    exact ⟨x.toNat, by omega, by omega⟩
  have hp : l.Perm r := (List.subperm_of_subset hnd hsub).perm_of_length_le (by simp [r])
  intro k h0 h1
  exact hp.mem_iff.mpr (by
    simp only [r, List.mem_map, List.mem_range]; exact ⟨k.toNat, by omega, by omega⟩)

example : isPerm [2, 0, 3, 1] = true ∧ isPerm [0, 1, 1, 3] = false ∧ isPerm [0, 0, 1] = false := by decide

/-! ## C05 -/

variable {R : Type}

/-- C05 (inverse). For every schedule, getInversePerm writes the inverse: `inv[perm[i]] = i` for all `i`, which
determines all `n` elements (`perm[inv[j]] = j`). -/
theorem C05_getInversePerm (n : Nat) (p : Nat → Nat) (hp : IsPermFn n p) (m : Mem (VTy R))
    (hm : ∀ i : Nat, i < n → m .perm (i : Int) = some (p i : Int)) :
    (getInversePerm (R := R) n).Ok m (fun _ m' =>
      (∀ i : Nat, i < n → m' .inv (p i : Int) = some (i : Int)) ∧
      (∀ j : Nat, j < n → ∃ i : Nat, i < n ∧ m' .inv (j : Int) = some (i : Int) ∧ p i = j) ∧
      ∀ a, a ≠ .inv → m' a = m a) := by
  refine Script.Ok.mono (getInversePerm_ok n p hp m hm) ?_
  rintro _ m' ⟨h1, h2⟩
  refine ⟨h1, ?_, h2⟩
  intro j hj
  obtain ⟨i, hi, rfl⟩ := isPermFn_surj hp j hj
  exact ⟨i, hi, h1 i hi, rfl⟩

/-- C05 (decision). isInversePerm returns true exactly when `q[p[i]] = i` for all `i`. -/
theorem C05_isInversePerm (n : Nat) (p q : Nat → Nat) (hp : ∀ i, i < n → p i < n) (m : Mem (VTy R))
    (hm : ∀ i : Nat, i < n → m .perm (i : Int) = some (p i : Int))
    (hq : ∀ i : Nat, i < n → m .inv (i : Int) = some (q i : Int)) :
    (isInversePerm (R := R) n).Ok m (fun r m' => m' = m ∧ (r = true ↔ ∀ j, j < n → q (p j) = j)) :=
  isInversePerm_ok n p q hp m hm hq

/-- C05 (scatter, out of place). `dst[perm[i]] = src[i]`; nothing but `dst` changes. -/
theorem C05_reorder (dst src : Nat) (hne : dst ≠ src) (n : Nat) (p : Nat → Nat) (hp : IsPermFn n p)
    (v : Nat → R) (m : Mem (VTy R))
    (hm : ∀ i : Nat, i < n → m .perm (i : Int) = some (p i : Int))
    (hv : ∀ i : Nat, i < n → m (.vec src) (i : Int) = some (v i)) :
    (reorderOutOfPlace true dst src n).Ok m (fun _ m' =>
      (∀ i : Nat, i < n → m' (.vec dst) (p i : Int) = some (v i)) ∧ ∀ a, a ≠ .vec dst → m' a = m a) :=
  reorderOutOfPlace_ok dst src hne n p hp v m hm hv

/-- C05 (gather = scatter). With `q` the inverse of `p`, gathering by `q` (…WithInversePerm) gives the same
vector as scattering by `p`. -/
theorem C05_gather_eq_scatter (dst src : Nat) (hne : dst ≠ src) (n : Nat) (p q : Nat → Nat)
    (hp : IsPermFn n p) (hqp : ∀ i, i < n → q (p i) = i) (v : Nat → R) (m : Mem (VTy R))
    (hm : ∀ i : Nat, i < n → m .inv (i : Int) = some (q i : Int))
    (hv : ∀ i : Nat, i < n → m (.vec src) (i : Int) = some (v i)) :
    (reorderOutOfPlaceInv true dst src n).Ok m (fun _ m' =>
      (∀ i : Nat, i < n → m' (.vec dst) (p i : Int) = some (v i)) ∧ ∀ a, a ≠ .vec dst → m' a = m a) := by
  have hqr : ∀ j, j < n → q j < n := by
    intro j hj; obtain ⟨i, hi, rfl⟩ := isPermFn_surj hp j hj; rw [hqp i hi]; exact hi
  refine Script.Ok.mono (reorderOutOfPlaceInv_ok dst src hne n q hqr v m hm hv) ?_
  rintro _ m' ⟨h1, h2⟩
  refine ⟨?_, h2⟩
  intro i hi
  rw [h1 (p i) (hp.1 i hi), hqp i hi]

/-- C05 (round trip). reorderVector(v, perm) followed by reorderVectorWithInversePerm(v, perm) restores `v`
(the second call gathers with the array it is given, so it receives `perm` itself). -/
theorem C05_round_trip (n : Nat) (p : Nat → Nat) (hp : IsPermFn n p) (v : Nat → R) (m : Mem (VTy R))
    (hm : ∀ i : Nat, i < n → m .perm (i : Int) = some (p i : Int))
    (hmi : ∀ i : Nat, i < n → m .inv (i : Int) = some (p i : Int))
    (hv : ∀ i : Nat, i < n → m (.vec 0) (i : Int) = some (v i)) :
    ((reorderVector (R := R) true n).bind fun _ => reorderVectorInv (R := R) true n).Ok m (fun _ m' =>
      ∀ i : Nat, i < n → m' (.vec 0) (i : Int) = some (v i)) := by
  rw [Script.ok_bind]
  refine Script.Ok.mono (reorderVector_ok n p hp v m hm hv) ?_
  rintro _ m1 ⟨h1, h2⟩
  by_cases hn : n = 0
  · subst hn
    refine Script.Ok.mono (reorderVectorInv_ok 0 p (by intro i hi; omega) v m1
      (by intro i hi; omega) (by intro i hi; omega)) ?_
    intro _ m2 _ i hi; omega
  -- contents after the first call
  let w : Nat → R := fun j => (m1 (.vec 0) (j : Int)).getD (v 0)
  have hw : ∀ i, i < n → w (p i) = v i := by
    intro i hi; show (m1 (.vec 0) (p i : Int)).getD (v 0) = _; rw [h1 i hi]; rfl
  refine Script.Ok.mono (reorderVectorInv_ok n p hp.1 w m1 ?_ ?_) ?_
  · intro i hi; rw [h2 .inv (by simp) (by simp)]; exact hmi i hi
  · intro j hj
    obtain ⟨i, hi, rfl⟩ := isPermFn_surj hp j hj
    rw [h1 i hi, hw i hi]
  · rintro _ m2 ⟨h3, _⟩ i hi
    rw [h3 i hi, hw i hi]

/-- C05 (round trip with an explicit inverse): scatter by `perm`, then scatter by its inverse. -/
theorem C05_round_trip_inverse (n : Nat) (p q : Nat → Nat) (hp : IsPermFn n p) (hq : IsPermFn n q)
    (hqp : ∀ i, i < n → q (p i) = i) (v : Nat → R) (m m1 : Mem (VTy R))
    (hm : ∀ i : Nat, i < n → m .perm (i : Int) = some (p i : Int))
    (hv : ∀ i : Nat, i < n → m (.vec 0) (i : Int) = some (v i)) :
    (reorderVector (R := R) true n).Ok m (fun _ m' =>
      -- a later call with the inverse permutation in place of `perm`
      (m1 (.vec 0) = m' (.vec 0) → (∀ i : Nat, i < n → m1 .perm (i : Int) = some (q i : Int)) →
        (reorderVector (R := R) true n).Ok m1 (fun _ m'' =>
          ∀ i : Nat, i < n → m'' (.vec 0) (i : Int) = some (v i)))) := by
  refine Script.Ok.mono (reorderVector_ok n p hp v m hm hv) ?_
  rintro _ m' ⟨h1, _⟩ he hm1
  by_cases hn : n = 0
  · subst hn
    refine Script.Ok.mono (reorderVector_ok 0 q hq v m1 hm1 (by intro i hi; omega)) ?_
    intro _ m2 _ i hi; omega
  let w : Nat → R := fun j => (m' (.vec 0) (j : Int)).getD (v 0)
  have hw : ∀ i, i < n → w (p i) = v i := by
    intro i hi; show (m' (.vec 0) (p i : Int)).getD (v 0) = _; rw [h1 i hi]; rfl
  refine Script.Ok.mono (reorderVector_ok n q hq w m1 hm1 ?_) ?_
  · intro j hj
    obtain ⟨i, hi, rfl⟩ := isPermFn_surj hp j hj
    rw [he, h1 i hi, hw i hi]
  · rintro _ m2 ⟨h3, _⟩ i hi
    have := h3 (p i) (hp.1 i hi)
    rw [hqp i hi, hw i hi] at this; exact this

-- a concrete permutation meets the hypotheses
example : IsPermFn 3 (fun i => (i + 1) % 3) := by
  constructor
  · intro i hi; show (i + 1) % 3 < 3; omega
  · intro i j hi hj h
    have h : (i + 1) % 3 = (j + 1) % 3 := h
    omega
/-- Memory for the example below: `perm` = `p`, vector 0 = 10, 11, 12, ... -/
def exMem (p : Nat → Nat) : Mem (VTy Int) := fun a i => match a with
  | .perm => if 0 ≤ i then some (p i.toNat : Int) else none
  | .vec 0 => if 0 ≤ i then some (10 + i) else none
  | _ => none
example : ((reorderVector (R := Int) true 3).run (exMem fun i => (i + 1) % 3)).map
    (fun p => (p.2 (.vec 0) 0, p.2 (.vec 0) 1, p.2 (.vec 0) 2)) = some (some 12, some 10, some 11) := by decide

/-! ## C48 -/

/-- C48 as stated is FALSE of the code: 2^31 bytes overflow the `int` arithmetic and the call is undefined. -/
theorem C48_parMemset_false :
    ¬ ∀ (T n : Nat) (c : Int) (m : Mem BTy), 1 ≤ T → (parMemset T c n).Ok m (fun _ m' =>
      ∀ i : Int, 0 ≤ i → i < n → m' .dst i = some c) := by
  intro h
  have h1 := (h 1 2147483648 0 (fun _ _ => none) (Nat.le_refl _)).not_runUB
  rw [parMemset_overflow 0 _ 2147483648 rfl] at h1
  cases h1

/-- C48 (memset), the true part: for fewer than 2^31 bytes, exactly bytes 0..n-1 are set, for every team size
and interleaving. Missing: n ≥ 2^31 (see `C48_parMemset_false`). -/
theorem C48_parMemset_partial (T : Nat) (hT : 1 ≤ T) (c : Int) (n : Nat) (hn : n < 2147483648) (m : Mem BTy) :
    (parMemset T c n).Ok m (fun _ m' =>
      (∀ i : Int, 0 ≤ i → i < n → m' .dst i = some c) ∧
      (∀ i : Int, ¬ (0 ≤ i ∧ i < n) → m' .dst i = m .dst i) ∧ m' .src = m .src) :=
  parMemset_ok T hT c n hn m

/-- C48 (memcpy), the true part. -/
theorem C48_parMemcpy_partial (T : Nat) (hT : 1 ≤ T) (n : Nat) (hn : n < 2147483648) (v : Int → Int)
    (m : Mem BTy) (hv : ∀ i : Int, 0 ≤ i → i < n → m .src i = some (v i)) :
    (parMemcpy T n).Ok m (fun _ m' =>
      (∀ i : Int, 0 ≤ i → i < n → m' .dst i = some (v i)) ∧
      (∀ i : Int, ¬ (0 ≤ i ∧ i < n) → m' .dst i = m .dst i) ∧ m' .src = m .src) :=
  parMemcpy_ok T hT n hn v m hv

end SpMP.Props
