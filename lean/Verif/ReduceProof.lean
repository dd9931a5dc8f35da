import Verif.ReduceBarrier
/-
One episode of the reducing barrier: invariant, progress, result.
-/

set_option linter.unusedSectionVars false

namespace SpMP
open Finset

section
variable {V : Type} [AddCommMonoid V] {C P n2 lg k : Nat} {inp : Nat → Nat → V}

/-! ### Stages of a thread in episode `k` -/

/-- The stage in episode `k`: a thread that has returned counts as `ret`. -/
def RedL.st (k : Nat) (l : RedL V) : RedPc := if l.pc = .idle ∧ k < l.calls then .ret else l.pc

/-- The thread has flipped its sense. -/
def RedPc.fl : RedPc → Bool
  | .idle | .flip => false
  | _ => true

/-- The thread has done with gathering. -/
def RedPc.past : RedPc → Bool
  | .idle | .flip | .gather _ | .gread _ => false
  | _ => true

/-- The value of round `i` of the `j`-th handled core has been sent. -/
def RedPc.vs (j i : Nat) : RedPc → Prop
  | .idle | .flip | .gather _ | .gread _ => False
  | .val i0 j0 => i < i0 ∨ (i = i0 ∧ j < j0)
  | .flag i0 _ | .wt i0 _ | .rd i0 _ => i ≤ i0
  | _ => True

/-- The flag of round `i` of the `j`-th handled core has been sent. -/
def RedPc.fs (j i : Nat) : RedPc → Bool
  | .idle | .flip | .gather _ | .gread _ => false
  | .val i0 _ => decide (i < i0)
  | .flag i0 j0 => decide (i < i0 ∨ (i = i0 ∧ j < j0))
  | .wt i0 _ | .rd i0 _ => decide (i ≤ i0)
  | _ => true

/-- The flag of round `i` of the `j`-th handled core has been seen. -/
def RedPc.ws (j i : Nat) : RedPc → Bool
  | .wt i0 j0 => decide (i = i0 ∧ j < j0)
  | .rd i0 _ => decide (i = i0)
  | _ => false

/-- Number of rounds received for the `j`-th handled core. -/
def RedPc.got (lg j : Nat) : RedPc → Nat
  | .idle | .flip | .gather _ | .gread _ => 0
  | .val i0 _ | .flag i0 _ | .wt i0 _ => i0
  | .rd i0 j0 => if j < j0 then i0 + 1 else i0
  | _ => lg

/-- Parity and sense of the `j`-th handled core have been updated. -/
def RedPc.adj (j : Nat) : RedPc → Bool
  | .adjust j0 => decide (j < j0)
  | .pub | .wake | .spin | .ret => true
  | _ => false

/-- Ranges of the indices in the program counter. -/
def redOk (C P n2 lg t : Nat) : RedPc → Prop
  | .gather i => t % P = 0 ∧ 1 ≤ i ∧ i ≤ P
  | .gread i => t % P = 0 ∧ 1 ≤ i ∧ i < P
  | .val i j | .flag i j | .wt i j | .rd i j => i < lg ∧ j < (redHs C P n2 t).length
  | .adjust j => j < (redHs C P n2 t).length
  | .pub | .wake => t % P = 0
  | .spin => t % P ≠ 0
  | _ => True

/-- The thread that handles core `x`. -/
def redHd (C P x : Nat) : Nat := if x < C then x * P else if P = 1 then (x - C) * P else (x - C) * P + 1

/-- The index of `x` among the cores of its handler. -/
def redKx (C P x : Nat) : Nat := if x < C then 0 else if P = 1 then 1 else 0

theorem redH_spec (hP : 0 < P) {t j : Nat} (ht : t < C * P) (hj : j < (redHs C P n2 t).length) (hn : C ≤ n2) :
    redH C P n2 t j < n2 ∧ redHd C P (redH C P n2 t j) = t ∧ redKx C P (redH C P n2 t j) = j := by
  have hc : t / P < C := Nat.div_lt_of_lt_mul (by rw [Nat.mul_comm]; exact ht)
  have hd := Nat.div_add_mod t P
  rw [Nat.mul_comm] at hd
  unfold redH redHs at *
  generalize t / P = c at *
  split at hj
  · next h0 =>
    rw [if_pos h0]
    split at hj
    · next h1 =>
      rw [if_pos h1]
      have hj' : j = 0 ∨ j = 1 := by simp at hj; omega
      rcases hj' with rfl | rfl
      · simp only [List.getD_cons_zero, redHd, redKx, if_pos hc]; exact ⟨by omega, by omega, trivial⟩
      · simp only [List.getD_cons_succ, List.getD_cons_zero, redHd, redKx]
        have h3 : ¬ c + C < C := by omega
        rw [if_neg h3, if_neg h3, if_pos h1.1, if_pos h1.1]
        refine ⟨by omega, ?_, rfl⟩
        rw [Nat.add_sub_cancel]; omega
    · next h1 =>
      rw [if_neg h1]
      have : j = 0 := by simp at hj; omega
      subst this
      simp only [List.getD_cons_zero, redHd, redKx, if_pos hc]; exact ⟨by omega, by omega, trivial⟩
  · next h0 =>
    rw [if_neg h0]
    split at hj
    · next h1 =>
      rw [if_pos h1]
      have : j = 0 := by simp at hj; omega
      subst this
      have hP1 : P ≠ 1 := by rintro rfl; omega
      have h3 : ¬ c + C < C := by omega
      simp only [List.getD_cons_zero, redHd, redKx]
      rw [if_neg h3, if_neg h3, if_neg hP1, if_neg hP1]
      refine ⟨by omega, ?_, rfl⟩
      rw [Nat.add_sub_cancel]; omega
    · simp at hj

theorem redHd_spec (hP : 0 < P) {x : Nat} (hx : x < n2) (hn : n2 ≤ C + C) :
    redHd C P x < C * P ∧ redKx C P x < (redHs C P n2 (redHd C P x)).length ∧
      redH C P n2 (redHd C P x) (redKx C P x) = x := by
  unfold redHd redKx
  by_cases h : x < C
  · simp only [if_pos h]
    have h1 : x * P % P = 0 := Nat.mul_mod_left _ _
    have h2 : x * P / P = x := Nat.mul_div_cancel _ hP
    refine ⟨by have := core_lt h hP; omega, ?_, ?_⟩
    · unfold redHs; rw [if_pos h1]; simp
    · unfold redH redHs; rw [if_pos h1, h2]; simp
  · simp only [if_neg h]
    by_cases hp : P = 1
    · simp only [if_pos hp]
      have h1 : (x - C) * P % P = 0 := Nat.mul_mod_left _ _
      have h2 : (x - C) * P / P = x - C := Nat.mul_div_cancel _ hP
      have h3 : P = 1 ∧ x - C + C < n2 := ⟨hp, by omega⟩
      refine ⟨by have := core_lt (C := C) (c := x - C) (by omega) hP; omega, ?_, ?_⟩
      · unfold redHs; rw [if_pos h1, h2, if_pos h3]; simp
      · unfold redH redHs; rw [if_pos h1, h2, if_pos h3]; simp; omega
    · simp only [if_neg hp]
      have h1 : ((x - C) * P + 1) % P = 1 := mul_add_mod (by omega)
      have h2 : ((x - C) * P + 1) / P = x - C := by
        rw [Nat.mul_comm, Nat.mul_add_div hP, Nat.div_eq_of_lt (by omega)]; rfl
      have h3 : 1 = 1 ∧ x - C + C < n2 := ⟨rfl, by omega⟩
      have h4 : ¬ (1 : Nat) = 0 := by omega
      refine ⟨by have := core_lt (C := C) (c := x - C) (i := 1) (P := P) (by omega) (by omega); omega, ?_, ?_⟩
      · unfold redHs; rw [h1, h2, if_neg h4, if_pos h3]; simp
      · unfold redH redHs; rw [h1, h2, if_neg h4, if_pos h3]; simp; omega

/-! ### What a core knows after `i` rounds -/

/-- Contribution of a core. -/
def redCv (C P : Nat) (w : Nat → V) (x : Nat) : V := if x < C then ∑ j ∈ range P, w (x * P + j) else 0

/-- The core that notifies `x` in round `i`. -/
def redPred (n2 i x : Nat) : Nat := (x + (n2 - 2 ^ i)) % n2

/-- Value collected by core `x` after `i` rounds. -/
def redS (C P n2 : Nat) (w : Nat → V) : Nat → Nat → V
  | 0, x => redCv C P w x
  | i + 1, x => redS C P n2 w i x + redS C P n2 w i (redPred n2 i x)

/-- All cores heard of by `x` after `i` rounds have arrived completely. -/
def redCov (C P n2 : Nat) (F : Nat → Prop) : Nat → Nat → Prop
  | 0, x => x < C → ∀ j, j < P → F (x * P + j)
  | i + 1, x => redCov C P n2 F i x ∧ redCov C P n2 F i (redPred n2 i x)

/-- Both together. -/
def RedKnow (C P n2 : Nat) (w : Nat → V) (F : Nat → Prop) (i x : Nat) (v : V) : Prop :=
  v = redS C P n2 w i x ∧ redCov C P n2 F i x

theorem redCov_mono {F F' : Nat → Prop} (h : ∀ t, F t → F' t) : ∀ i x, redCov C P n2 F i x → redCov C P n2 F' i x := by
  intro i
  induction i with
  | zero => intro x hx hc j hj; exact h _ (hx hc j hj)
  | succ i ih => intro x hx; exact ⟨ih _ hx.1, ih _ hx.2⟩

theorem RedKnow.mono {w : Nat → V} {F F' : Nat → Prop} {i x : Nat} {v : V} (hk : RedKnow C P n2 w F i x v)
    (h : ∀ t, F t → F' t) : RedKnow C P n2 w F' i x v := ⟨hk.1, redCov_mono h _ _ hk.2⟩

theorem redPred_add {i x d : Nat} (h : 2 ^ i + d ≤ n2) :
    (redPred n2 i x + (n2 - d)) % n2 = (x + (n2 - (2 ^ i + d))) % n2 := by
  unfold redPred
  rw [Nat.mod_add_mod]
  have : x + (n2 - 2 ^ i) + (n2 - d) = x + (n2 - (2 ^ i + d)) + n2 := by
    generalize 2 ^ i = p at *; omega
  rw [this, Nat.add_mod_right]

theorem redS_eq {w : Nat → V} (hn : n2 = 2 ^ lg) : ∀ i x, i ≤ lg → x < n2 →
    redS C P n2 w i x = ∑ d ∈ range (2 ^ i), redCv C P w ((x + (n2 - d)) % n2) := by
  intro i
  induction i with
  | zero =>
    intro x _ hx
    simp only [redS, pow_zero, range_one, sum_singleton, Nat.sub_zero, Nat.add_mod_right]
    rw [Nat.mod_eq_of_lt hx]
  | succ i ih =>
    intro x hi hx
    have h2 : 2 ^ (i + 1) ≤ n2 := by rw [hn]; exact Nat.pow_le_pow_right (by omega) hi
    rw [pow_succ] at h2
    have hp : redPred n2 i x < n2 := Nat.mod_lt _ (by omega)
    rw [redS, ih x (by omega) hx, ih _ (by omega) hp, pow_succ, Nat.mul_two, sum_range_add]
    congr 1
    refine sum_congr rfl ?_
    intro d hd
    rw [mem_range] at hd
    rw [redPred_add (by omega)]

theorem redS_total {w : Nat → V} (hP : 0 < P) (hn : n2 = 2 ^ lg) (hC : C ≤ n2) {x : Nat} (hx : x < n2) :
    redS C P n2 w lg x = ∑ t ∈ range (C * P), w t := by
  have h1 : redS C P n2 w lg x = ∑ y ∈ range n2, redCv C P w y := by
    rw [redS_eq hn lg x (Nat.le_refl _) hx, ← hn]
    have hinv : ∀ d, d < n2 → (x + (n2 - (x + (n2 - d)) % n2)) % n2 = d := by
      intro d hd
      by_cases h : x < d
      · rw [Nat.mod_eq_of_lt (show x + (n2 - d) < n2 by omega), show x + (n2 - (x + (n2 - d))) = d by omega,
          Nat.mod_eq_of_lt hd]
      · rw [show x + (n2 - d) = (x - d) + n2 by omega, Nat.add_mod_right,
          Nat.mod_eq_of_lt (show x - d < n2 by omega), show x + (n2 - (x - d)) = d + n2 by omega, Nat.add_mod_right,
          Nat.mod_eq_of_lt hd]
    refine sum_nbij' (fun d => (x + (n2 - d)) % n2) (fun y => (x + (n2 - y)) % n2) ?_ ?_ ?_ ?_ ?_
    · intro d hd; rw [mem_range] at *; exact Nat.mod_lt _ (by omega)
    · intro d hd; rw [mem_range] at *; exact Nat.mod_lt _ (by omega)
    · intro d hd; rw [mem_range] at hd; exact hinv d hd
    · intro d hd; rw [mem_range] at hd; exact hinv d hd
    · intro d _; rfl
  rw [h1, show n2 = C + (n2 - C) by omega, sum_range_add]
  have h2 : ∑ i ∈ range (n2 - C), redCv C P w (C + i) = 0 := by
    refine sum_eq_zero ?_
    intro i _
    unfold redCv; rw [if_neg (by omega)]
  rw [h2, add_zero]
  have h3 : ∀ c, c ≤ C → ∑ y ∈ range c, redCv C P w y = ∑ t ∈ range (c * P), w t := by
    intro c
    induction c with
    | zero => simp
    | succ c ih =>
      intro hc
      rw [sum_range_succ, ih (by omega), Nat.succ_mul, sum_range_add]
      unfold redCv; rw [if_pos (by omega)]
  exact h3 C (Nat.le_refl _)

theorem redCov_iff {F : Nat → Prop} (hn : n2 = 2 ^ lg) : ∀ i x, i ≤ lg → x < n2 → redCov C P n2 F i x →
    ∀ d, d < 2 ^ i → redCov C P n2 F 0 ((x + (n2 - d)) % n2) := by
  intro i
  induction i with
  | zero =>
    intro x _ hx h d hd
    have : d = 0 := by simpa using hd
    subst this
    rw [Nat.sub_zero, Nat.add_mod_right, Nat.mod_eq_of_lt hx]; exact h
  | succ i ih =>
    intro x hi hx h d hd
    have h2 : 2 ^ (i + 1) ≤ n2 := by rw [hn]; exact Nat.pow_le_pow_right (by omega) hi
    rw [pow_succ] at h2 hd
    by_cases h1 : d < 2 ^ i
    · exact ih x (by omega) hx h.1 d h1
    · have hp : redPred n2 i x < n2 := Nat.mod_lt _ (by omega)
      have := ih _ (by omega) hp h.2 (d - 2 ^ i) (by omega)
      rw [redPred_add (by omega), show 2 ^ i + (d - 2 ^ i) = d by omega] at this
      exact this

theorem redCov_total {F : Nat → Prop} (hP : 0 < P) (hn : n2 = 2 ^ lg) (hC : C ≤ n2) {x : Nat} (hx : x < n2)
    (h : redCov C P n2 F lg x) : ∀ t, t < C * P → F t := by
  intro t ht
  have hc : t / P < C := Nat.div_lt_of_lt_mul (by rw [Nat.mul_comm]; exact ht)
  have key := redCov_iff hn lg x (Nat.le_refl _) hx h
  rw [← hn] at key
  have hd := Nat.div_add_mod t P
  rw [Nat.mul_comm] at hd
  generalize t / P = c at *
  have : redCov C P n2 F 0 (c) := by
    by_cases h1 : x < c
    · have := key (x + (n2 - c)) (by omega)
      rw [show x + (n2 - (x + (n2 - c))) = c by omega, Nat.mod_eq_of_lt (by omega)] at this
      exact this
    · have := key (x - c) (by omega)
      rw [show x + (n2 - (x - c)) = c + n2 by omega, Nat.add_mod_right, Nat.mod_eq_of_lt (by omega)] at this
      exact this
  have := this hc (t % P) (Nat.mod_lt _ hP)
  rwa [hd] at this

theorem redPred_succ {i x : Nat} (h : 2 ^ i ≤ n2) (hx : x < n2) : (redPred n2 i x + 2 ^ i) % n2 = x := by
  unfold redPred
  rw [Nat.mod_add_mod, show x + (n2 - 2 ^ i) + 2 ^ i = x + n2 by generalize 2 ^ i = p at *; omega, Nat.add_mod_right, Nat.mod_eq_of_lt hx]

/-- The number of cores is rounded up to `2 ^ lg`; only for a single core there is a round although `n2 = 1`. -/
def RedSize (C n2 lg : Nat) : Prop := (2 ≤ C ∧ n2 = 2 ^ lg) ∨ (C = 1 ∧ n2 = 1 ∧ lg = 1)

theorem RedSize.pow_le (h : RedSize C n2 lg) (i : Nat) (hi : i < lg) : 2 ^ i ≤ n2 := by
  rcases h with ⟨-, rfl⟩ | ⟨-, rfl, rfl⟩
  · exact Nat.pow_le_pow_right (by omega) (by omega)
  · have : i = 0 := by omega
    subst this; exact Nat.le_refl _

/-- What an episode returns: the reduction of all values; a single core combines it with itself. -/
def redTot (C P : Nat) (inp : Nat → Nat → V) (k : Nat) : V :=
  if C = 1 then ∑ u ∈ range (C * P), inp u k + ∑ u ∈ range (C * P), inp u k else ∑ u ∈ range (C * P), inp u k

theorem redS_total' (hP : 0 < P) (hn : RedSize C n2 lg) (hC : C ≤ n2) {x : Nat} (hx : x < n2) :
    redS C P n2 (fun u => inp u k) lg x = redTot C P inp k := by
  unfold redTot
  rcases hn with ⟨h1, hn⟩ | ⟨rfl, rfl, rfl⟩
  · rw [if_neg (by omega)]; exact redS_total hP hn hC hx
  · have hx0 : x = 0 := by omega
    subst hx0
    have hp : redPred 1 0 0 = 0 := rfl
    simp only [redS, redCv, hp, if_pos, Nat.zero_mul, Nat.zero_add, Nat.one_mul, Nat.lt_one_iff]

theorem redCov_total' {F : Nat → Prop} (hP : 0 < P) (hn : RedSize C n2 lg) (hC : C ≤ n2) {x : Nat} (hx : x < n2)
    (h : redCov C P n2 F lg x) : ∀ t, t < C * P → F t := by
  rcases hn with ⟨h1, hn⟩ | ⟨rfl, rfl, rfl⟩
  · exact redCov_total hP hn hC hx h
  · intro t ht
    have hx0 : x = 0 := by omega
    subst hx0
    have := h.1 (by omega) t (by omega)
    rwa [Nat.zero_mul, Nat.zero_add] at this

/-! ### Invariant of episode `k` -/

/-- 0 or 1. -/
def b01 (b : Bool) : Nat := if b then 1 else 0

/-- Invariant of episode `k`; `o0 t` are the results thread `t` had before the episode. -/
structure RedInv (C P n2 lg k : Nat) (inp : Nat → Nat → V) (o0 : Nat → Nat → V) (ls : Nat → RedL V) (g : RedG V) :
    Prop where
  tid : ∀ t, t < C * P → (ls t).tid = t
  calls : ∀ t, t < C * P → (ls t).calls = k + (if (ls t).st k = .idle then 0 else 1)
  rets : ∀ t, t < C * P → (ls t).rets = k + (if (ls t).pc = .idle ∧ (ls t).st k = .ret then 1 else 0)
  out : ∀ t, t < C * P → ∀ j, j ≠ k → (ls t).out j = o0 t j
  res : ∀ t, t < C * P → (ls t).pc = .idle → (ls t).st k = .ret → (ls t).out k = redTot C P inp k
  ok : ∀ t, t < C * P → redOk C P n2 lg t ((ls t).st k)
  senses : ∀ t, t < C * P → g.threadSenses t = decide ((k + b01 ((ls t).st k).fl) % 2 = 0)
  trv : ∀ t, t < C * P → (ls t).st k ≠ .idle → g.threadRvals t = inp t k
  red0 : ∀ t, t < C * P → (ls t).st k = .flip → (ls t).red = inp t k
  red1 : ∀ t i, t < C * P → ((ls t).st k = .gather i ∨ (ls t).st k = .gread i) →
    (ls t).red = ∑ j ∈ range i, inp (t + j) k
  zero : ∀ t, t < C * P → (ls t).st k ≠ .idle → ((ls t).st k).past = false → (ls t).zero = 0
  gath : ∀ t i, t < C * P → (ls t).st k = .gather i → ∀ j, 1 ≤ j → j < i → ((ls (t + j)).st k).fl = true
  gath' : ∀ t i, t < C * P → (ls t).st k = .gread i → ∀ j, 1 ≤ j → j ≤ i → ((ls (t + j)).st k).fl = true
  acc : ∀ x, x < n2 → ((ls (redHd C P x)).st k).past = true →
    RedKnow C P n2 (fun u => inp u k) (fun u => ((ls u).st k).fl = true)
      (((ls (redHd C P x)).st k).got lg (redKx C P x)) x ((ls (redHd C P x)).acc C x)
  cs : ∀ c, c < C → g.coreSense c = decide ((k + b01 (decide ((ls (c * P)).st k = .ret))) % 2 = 0)
  pub : ∀ c, c < C → ((ls (c * P)).st k = .wake ∨ (ls (c * P)).st k = .ret) →
    g.rval c = redTot C P inp k
  all : ∀ c, c < C → ((ls (c * P)).st k = .pub ∨ (ls (c * P)).st k = .wake ∨ (ls (c * P)).st k = .ret) →
    ∀ u, u < C * P → ((ls u).st k).fl = true
  slave : ∀ t, t < C * P → t % P ≠ 0 → (ls t).st k = .ret → (ls (t / P * P)).st k = .ret
  par : ∀ x, x < n2 → g.parity x = (k + b01 (((ls (redHd C P x)).st k).adj (redKx C P x))) % 2
  sen : ∀ x, x < n2 → g.sense x = decide (((k + b01 (((ls (redHd C P x)).st k).adj (redKx C P x))) / 2) % 2 = 0)
  flag : ∀ x p i, x < n2 → p < 2 → i < lg →
    g.flags ((x + 2 ^ i) % n2) p i = flagVal (k + b01 (((ls (redHd C P x)).st k).fs (redKx C P x) i)) p
  slot : ∀ x i, x < n2 → i < lg → ((ls (redHd C P x)).st k).vs (redKx C P x) i →
    RedKnow C P n2 (fun u => inp u k) (fun u => ((ls u).st k).fl = true) i x (g.rvals ((x + 2 ^ i) % n2) i)
  seen : ∀ x i, x < n2 → i < lg → ((ls (redHd C P x)).st k).ws (redKx C P x) i = true →
    ((ls (redHd C P (redPred n2 i x))).st k).fs (redKx C P (redPred n2 i x)) i = true

/-- Stages advance: what a thread has done stays done. -/
structure RedLe (s s' : RedPc) : Prop where
  fl : s.fl = true → s'.fl = true
  ret : s = .ret → s' = .ret
  fs : ∀ j i, s.fs j i = true → s'.fs j i = true

theorem RedInv.upd {o0 : Nat → Nat → V} {ls : Nat → RedL V} {g g' : RedG V} (h : RedInv C P n2 lg k inp o0 ls g)
    (hP : 0 < P) {t : Nat} {l' : RedL V} {s' : RedPc} (hs' : l'.st k = s')
    (hle : RedLe ((ls t).st k) s')
    (htid : l'.tid = t) (hcalls : l'.calls = k + (if s' = .idle then 0 else 1))
    (hrets : l'.rets = k + (if l'.pc = .idle ∧ s' = .ret then 1 else 0))
    (hout : ∀ j, j ≠ k → l'.out j = o0 t j)
    (hres : l'.pc = .idle → s' = .ret → l'.out k = redTot C P inp k)
    (hok : redOk C P n2 lg t s')
    (hsens : g'.threadSenses t = decide ((k + b01 s'.fl) % 2 = 0))
    (hsenso : ∀ u, u ≠ t → g'.threadSenses u = g.threadSenses u)
    (htrv : s' ≠ .idle → g'.threadRvals t = inp t k)
    (htrvo : ∀ u, u ≠ t → g'.threadRvals u = g.threadRvals u)
    (hred0 : s' = .flip → l'.red = inp t k)
    (hred1 : ∀ i, (s' = .gather i ∨ s' = .gread i) → l'.red = ∑ j ∈ range i, inp (t + j) k)
    (hzero : s' ≠ .idle → s'.past = false → l'.zero = 0)
    (hgath : ∀ i, s' = .gather i → ∀ j, 1 ≤ j → j < i → ((ls (t + j)).st k).fl = true)
    (hgath' : ∀ i, s' = .gread i → ∀ j, 1 ≤ j → j ≤ i → ((ls (t + j)).st k).fl = true)
    (hacc : ∀ x, x < n2 → redHd C P x = t → s'.past = true →
      RedKnow C P n2 (fun u => inp u k) (fun u => ((ls u).st k).fl = true) (s'.got lg (redKx C P x)) x (l'.acc C x))
    (hcs : ∀ c, c < C → c * P = t → g'.coreSense c = decide ((k + b01 (decide (s' = .ret))) % 2 = 0))
    (hcso : ∀ c, c < C → c * P ≠ t → g'.coreSense c = g.coreSense c)
    (hpub : ∀ c, c < C → c * P = t → (s' = .wake ∨ s' = .ret) → g'.rval c = redTot C P inp k)
    (hpubo : ∀ c, c < C → c * P ≠ t → g'.rval c = g.rval c)
    (hall : t % P = 0 → (s' = .pub ∨ s' = .wake ∨ s' = .ret) → ∀ u, u < C * P → ((ls u).st k).fl = true)
    (hslave : t % P ≠ 0 → s' = .ret → (ls (t / P * P)).st k = .ret)
    (hpar : ∀ x, x < n2 → redHd C P x = t → g'.parity x = (k + b01 (s'.adj (redKx C P x))) % 2)
    (hsen : ∀ x, x < n2 → redHd C P x = t → g'.sense x = decide (((k + b01 (s'.adj (redKx C P x))) / 2) % 2 = 0))
    (hparo : ∀ x, x < n2 → redHd C P x ≠ t → g'.parity x = g.parity x ∧ g'.sense x = g.sense x)
    (hflag : ∀ x p i, x < n2 → p < 2 → i < lg → redHd C P x = t →
      g'.flags ((x + 2 ^ i) % n2) p i = flagVal (k + b01 (s'.fs (redKx C P x) i)) p)
    (hflago : ∀ x p i, x < n2 → p < 2 → i < lg → redHd C P x ≠ t →
      g'.flags ((x + 2 ^ i) % n2) p i = g.flags ((x + 2 ^ i) % n2) p i)
    (hslot : ∀ x i, x < n2 → i < lg → redHd C P x = t → s'.vs (redKx C P x) i →
      RedKnow C P n2 (fun u => inp u k) (fun u => ((ls u).st k).fl = true) i x (g'.rvals ((x + 2 ^ i) % n2) i))
    (hsloto : ∀ x i, x < n2 → i < lg → redHd C P x ≠ t →
      g'.rvals ((x + 2 ^ i) % n2) i = g.rvals ((x + 2 ^ i) % n2) i)
    (hseen : ∀ x i, x < n2 → i < lg → redHd C P x = t → s'.ws (redKx C P x) i = true →
      ((ls (redHd C P (redPred n2 i x))).st k).fs (redKx C P (redPred n2 i x)) i = true) :
    RedInv C P n2 lg k inp o0 (updT ls t l') g' := by
  have hL : updT ls t l' t = l' := updT_same _ _ _
  have hO : ∀ u, u ≠ t → updT ls t l' u = ls u := fun u hu => updT_other _ _ hu
  have hF : ∀ u, ((ls u).st k).fl = true → ((updT ls t l' u).st k).fl = true := by
    intro u hu
    by_cases e : u = t
    · subst e; rw [hL, hs']; exact hle.fl hu
    · rw [hO u e]; exact hu
  have hFs : ∀ u j i, ((ls u).st k).fs j i = true → ((updT ls t l' u).st k).fs j i = true := by
    intro u j i hu
    by_cases e : u = t
    · subst e; rw [hL, hs']; exact hle.fs j i hu
    · rw [hO u e]; exact hu
  have hR : ∀ u, (ls u).st k = .ret → (updT ls t l' u).st k = .ret := by
    intro u hu
    by_cases e : u = t
    · subst e; rw [hL, hs']; exact hle.ret hu
    · rw [hO u e]; exact hu
  have hmod : ∀ c, c * P = t → t % P = 0 := by rintro c rfl; exact Nat.mul_mod_left _ _
  constructor
  · intro u hu
    by_cases e : u = t
    · subst e; rw [hL]; exact htid
    · rw [hO u e]; exact h.tid u hu
  · intro u hu
    by_cases e : u = t
    · subst e; rw [hL, hs']; exact hcalls
    · rw [hO u e]; exact h.calls u hu
  · intro u hu
    by_cases e : u = t
    · subst e; rw [hL, hs']; exact hrets
    · rw [hO u e]; exact h.rets u hu
  · intro u hu
    by_cases e : u = t
    · subst e; rw [hL]; exact hout
    · rw [hO u e]; exact h.out u hu
  · intro u hu
    by_cases e : u = t
    · subst e; rw [hL, hs']; exact hres
    · rw [hO u e]; exact h.res u hu
  · intro u hu
    by_cases e : u = t
    · subst e; rw [hL, hs']; exact hok
    · rw [hO u e]; exact h.ok u hu
  · intro u hu
    by_cases e : u = t
    · subst e; rw [hL, hs']; exact hsens
    · rw [hO u e, hsenso u e]; exact h.senses u hu
  · intro u hu
    by_cases e : u = t
    · subst e; rw [hL, hs']; exact htrv
    · rw [hO u e, htrvo u e]; exact h.trv u hu
  · intro u hu
    by_cases e : u = t
    · subst e; rw [hL, hs']; exact hred0
    · rw [hO u e]; exact h.red0 u hu
  · intro u i hu
    by_cases e : u = t
    · subst e; rw [hL, hs']; exact hred1 i
    · rw [hO u e]; exact h.red1 u i hu
  · intro u hu
    by_cases e : u = t
    · subst e; rw [hL, hs']; exact hzero
    · rw [hO u e]; exact h.zero u hu
  · intro u i hu
    by_cases e : u = t
    · subst e; rw [hL, hs']; exact fun h1 j h2 h3 => hF _ (hgath i h1 j h2 h3)
    · rw [hO u e]; exact fun h1 j h2 h3 => hF _ (h.gath u i hu h1 j h2 h3)
  · intro u i hu
    by_cases e : u = t
    · subst e; rw [hL, hs']; exact fun h1 j h2 h3 => hF _ (hgath' i h1 j h2 h3)
    · rw [hO u e]; exact fun h1 j h2 h3 => hF _ (h.gath' u i hu h1 j h2 h3)
  · intro x hx
    by_cases e : redHd C P x = t
    · rw [e, hL, hs']; exact fun hp => (hacc x hx e hp).mono hF
    · rw [hO _ e]; exact fun hp => (h.acc x hx hp).mono hF
  · intro c hc
    by_cases e : c * P = t
    · rw [e, hL, hs']; exact hcs c hc e
    · rw [hO _ e, hcso c hc e]; exact h.cs c hc
  · intro c hc
    by_cases e : c * P = t
    · rw [e, hL, hs']; exact hpub c hc e
    · rw [hO _ e, hpubo c hc e]; exact h.pub c hc
  · intro c hc
    by_cases e : c * P = t
    · rw [e, hL, hs']; exact fun h1 u hu => hF u (hall (hmod c e) h1 u hu)
    · rw [hO _ e]; exact fun h1 u hu => hF u (h.all c hc h1 u hu)
  · intro u hu hm
    by_cases e : u = t
    · subst e; rw [hL, hs']; exact fun h1 => hR _ (hslave hm h1)
    · rw [hO u e]; exact fun h1 => hR _ (h.slave u hu hm h1)
  · intro x hx
    by_cases e : redHd C P x = t
    · rw [e, hL, hs']; exact hpar x hx e
    · rw [hO _ e, (hparo x hx e).1]; exact h.par x hx
  · intro x hx
    by_cases e : redHd C P x = t
    · rw [e, hL, hs']; exact hsen x hx e
    · rw [hO _ e, (hparo x hx e).2]; exact h.sen x hx
  · intro x p i hx hp hi
    by_cases e : redHd C P x = t
    · rw [e, hL, hs']; exact hflag x p i hx hp hi e
    · rw [hO _ e, hflago x p i hx hp hi e]; exact h.flag x p i hx hp hi
  · intro x i hx hi
    by_cases e : redHd C P x = t
    · rw [e, hL, hs']; exact fun hv => (hslot x i hx hi e hv).mono hF
    · rw [hO _ e, hsloto x i hx hi e]; exact fun hv => (h.slot x i hx hi hv).mono hF
  · intro x i hx hi
    by_cases e : redHd C P x = t
    · rw [e, hL, hs']; exact fun hv => hFs _ _ _ (hseen x i hx hi e hv)
    · rw [hO _ e]; exact fun hv => hFs _ _ _ (h.seen x i hx hi hv)

end

end SpMP
