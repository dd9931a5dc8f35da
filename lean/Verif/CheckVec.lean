import Verif.Spec.Compare
import Verif.Script
import Verif.RowsMem
import Verif.BinFile
import Verif.Wlp
import Mathlib.Tactic.Linarith
import Mathlib.Tactic.Positivity
/-
correctnessCheck (/repo/Utils.hpp:38-56) and its use by the drivers (/repo/test/test.hpp:34-47). Doubles are rational numbers, the
infinities and NaN; operations on numbers are exact (no rounding, no overflow, no signed zeros).
-/

namespace SpMP
open Spec

namespace Dbl

/-- `fabs`. -/
def abs : Dbl → Dbl
  | .fin q => .fin |q|
  | .inf _ => .inf false
  | .nan => .nan

/-- `a - b` (IEEE 754). -/
def sub : Dbl → Dbl → Dbl
  | .fin a, .fin b => .fin (a - b)
  | .inf s, .fin _ => .inf s
  | .fin _, .inf s => .inf (!s)
  | .inf s, .inf t => if s = t then .nan else .inf s
  | _, _ => .nan

/-- `a/b` (IEEE 754) for a divisor that is not a negative zero. -/
def div : Dbl → Dbl → Dbl
  | .fin a, .fin b => if b = 0 then (if a = 0 then .nan else .inf (decide (a < 0))) else .fin (a / b)
  | .inf s, .fin b => .inf (s != decide (b < 0))
  | .fin _, .inf _ => .fin 0
  | _, _ => .nan

/-- `a >= b`; false when one of them is NaN. -/
def ge : Dbl → Dbl → Bool
  | .fin a, .fin b => decide (b ≤ a)
  | .inf s, .fin _ => !s
  | .fin _, .inf s => s
  | .inf s, .inf t => !s || t
  | _, _ => false

end Dbl

/-- The condition of Utils.hpp:47-49. -/
def ccBad (tol ign e a : Dbl) : Bool :=
  Dbl.ge (Dbl.div (Dbl.abs (Dbl.sub e a)) (Dbl.abs e)) tol && (Dbl.ge (Dbl.abs e) ign || Dbl.ge (Dbl.abs a) ign)

/-- Utils.hpp:41-56 on the arrays `vec e` and `vec a`; `dbg`: compiled with assertions, so that `assert(false)` of line 51 stops the
program. Each element is read once (nobody writes them). The message is not modelled. -/
def correctnessCheck (dbg : Bool) (e a : Nat) (n : Nat) (tol ign : Dbl) : Prog (CTy Dbl) Bool :=
  Prog.forUp (ty := CTy Dbl) 0 (n : Int) true fun i ok =>
    if ok = false then pure false
    else do
      let x ← Prog.read (ty := CTy Dbl) (.vec e) i
      let y ← Prog.read (ty := CTy Dbl) (.vec a) i
      if ccBad tol ign x y then do
        Prog.assert (ty := CTy Dbl) (dbg = false)
        pure false
      else pure true

/-- One call of test.hpp:34-47 with a matrix of `m` rows and the vector `vec y`. `st`: how many elements the static array `yt` has
(`vec yt`), if it has been allocated. -/
def driverCheck (dbg : Bool) (yt : Nat) (st : Option Nat) (m y : Nat) : Prog (CTy Dbl) (Bool × Option Nat) :=
  match st with
  | none => do
    Prog.forUp (ty := CTy Dbl) 0 (m : Int) () fun i _ => do
      let v ← Prog.read (ty := CTy Dbl) (.vec y) i
      Prog.write (ty := CTy Dbl) (.vec yt) i v
    pure (true, some m)
  | some m1 => do
    let b ← correctnessCheck dbg yt y m (.fin (1 / 100000000)) (.fin 0)
    pure (b, some m1)

/-- The array `yt` after `new double[m]`. -/
def ytSize (yt : Nat) (st : Option Nat) : CArr → Int := fun a => if a = .vec yt then (st.getD 0 : Int) else 0

/-- The calls of a program one after the other, with the results. -/
def driverChecks (dbg : Bool) (yt : Nat) : Option Nat → List (Nat × Nat) → Script (CTy Dbl) (List Bool)
  | _, [] => .done []
  | st, (m, y) :: cs =>
    .seq (ytSize yt (some (st.getD m))) (driverCheck dbg yt st m y) fun r =>
    (driverChecks dbg yt r.2 cs).bind fun rs => .done (r.1 :: rs)

/-! ### Proofs -/

theorem ccBad_fin {tol ign e a : Rat} : ccBad (.fin tol) (.fin ign) (.fin e) (.fin a) = false ↔ Agree tol ign e a := by
  unfold ccBad Agree
  simp only [Dbl.sub, Dbl.abs, Dbl.div]
  by_cases he : e = 0
  · subst he
    by_cases ha : a = 0
    · subst ha; simp [Dbl.ge]
    · have h1 : |0 - a| ≠ 0 := by simpa using ha
      have h2 : ¬ |0 - a| < 0 := not_lt.mpr (abs_nonneg _)
      rw [if_pos abs_zero, if_neg h1]
      simp only [Dbl.ge, h2, decide_false, Bool.not_false, Bool.true_and, Bool.or_eq_false_iff, decide_eq_false_iff_not, not_le, abs_zero,
        mul_zero]
      constructor
      · exact fun h => Or.inr (Or.inr h)
      · rintro (⟨h, _⟩ | h | h)
        · exact absurd h.symm ha
        · exact h.elim
        · exact h
  · have h0 : |e| ≠ 0 := by simpa using he
    have hp : 0 < |e| := abs_pos.mpr he
    rw [if_neg h0]
    simp only [Dbl.ge, Bool.and_eq_false_iff, Bool.or_eq_false_iff, decide_eq_false_iff_not, not_le]
    rw [div_lt_iff₀ hp]
    constructor
    · rintro (h | h)
      · exact Or.inr (Or.inl h)
      · exact Or.inr (Or.inr h)
    · rintro (⟨_, h⟩ | h | h)
      · exact absurd h he
      · exact Or.inl h
      · exact Or.inr h

theorem wp_correctnessCheck {sz : CArr → Int} {W Rd : CArr → Int → Prop} {dbg : Bool} {e a n : Nat} {tol ign : Dbl} {m0 : Mem (CTy Dbl)}
    {x y : Nat → Dbl} (hR : ∀ a i, Rd a i) (hx : ∀ i : Nat, i < n → m0 (.vec e) (i : Int) = some (x i))
    (hy : ∀ i : Nat, i < n → m0 (.vec a) (i : Int) = some (y i))
    (hd : dbg = true → ∀ i, i < n → ccBad tol ign (x i) (y i) = false) :
    wp sz W Rd (correctnessCheck dbg e a n tol ign) m0 (fun r m => m = m0 ∧ (r = true ↔ ∀ i, i < n → ccBad tol ign (x i) (y i) = false)) := by
  unfold correctnessCheck
  refine wp_forUp (I := fun i r m => m = m0 ∧ ∃ j : Nat, i = j ∧ j ≤ n ∧ (r = true ↔ ∀ i, i < j → ccBad tol ign (x i) (y i) = false)) ?_ ?_ ?_
  · exact ⟨rfl, 0, rfl, by omega, by simp⟩
  · rintro i r m h1 h2 ⟨rfl, j, rfl, h3, h4⟩
    have hext : ∀ r', (r' = true ↔ (r = true ∧ ccBad tol ign (x j) (y j) = false)) →
        (r' = true ↔ ∀ i, i < j + 1 → ccBad tol ign (x i) (y i) = false) := by
      intro r' hr'
      rw [hr', h4]
      constructor
      · rintro ⟨g1, g2⟩ i hi
        rcases Nat.lt_succ_iff_lt_or_eq.mp hi with h | rfl
        · exact g1 i h
        · exact g2
      · exact fun g => ⟨fun i hi => g i (by omega), g j (by omega)⟩
    split
    · rename_i hr
      exact wp_pure.2 ⟨rfl, j + 1, by push_cast; rfl, by omega, hext _ (by rw [hr]; simp)⟩
    · rename_i hr
      have hr : r = true := by simpa using hr
      simp only [wp_bind, wp_read]
      refine ⟨hR _ _, x j, hx j (by omega), hR _ _, y j, hy j (by omega), ?_⟩
      by_cases hb : ccBad tol ign (x j) (y j) = true
      · rw [if_pos hb]
        have : dbg = false := by
          cases hdb : dbg with
          | false => rfl
          | true => rw [hd hdb j (by omega)] at hb; cases hb
        subst this
        simp only [wp_bind, wp_assert]
        exact ⟨trivial, wp_pure.2 ⟨rfl, j + 1, by push_cast; rfl, by omega, hext false (by simp [hb])⟩⟩
      · rw [if_neg hb]
        have hb : ccBad tol ign (x j) (y j) = false := by simpa using hb
        exact wp_pure.2 ⟨rfl, j + 1, by push_cast; rfl, by omega, hext true (by simp [hr, hb])⟩
  · rintro r m ⟨rfl, j, h1, h2, h3⟩
    obtain rfl : j = n := by omega
    exact ⟨rfl, h3⟩

/-- With assertions, the check only returns when no element is bad. -/
theorem wlp_correctnessCheck_debug {e a n : Nat} {tol ign : Dbl} {m0 : Mem (CTy Dbl)}
    {x y : Nat → Dbl} (hx : ∀ i : Nat, i < n → m0 (.vec e) (i : Int) = some (x i)) (hy : ∀ i : Nat, i < n → m0 (.vec a) (i : Int) = some (y i)) :
    wlp (correctnessCheck true e a n tol ign) m0 (fun _ _ => ∀ i, i < n → ccBad tol ign (x i) (y i) = false) := by
  unfold correctnessCheck
  refine wlp_forUp (I := fun i r m => m = m0 ∧ r = true ∧ ∃ j : Nat, i = j ∧ j ≤ n ∧ ∀ i, i < j → ccBad tol ign (x i) (y i) = false) ?_ ?_ ?_
  · exact ⟨rfl, rfl, 0, rfl, by omega, by simp⟩
  · rintro i r m h1 h2 ⟨rfl, rfl, j, rfl, h3, h4⟩
    rw [if_neg (by simp)]
    refine wlp_bind ?_
    intro v hv
    obtain rfl : v = x j := by rw [hx j (by omega)] at hv; exact (Option.some.inj hv).symm
    refine wlp_bind ?_
    intro v hv
    obtain rfl : v = y j := by rw [hy j (by omega)] at hv; exact (Option.some.inj hv).symm
    show wlp (if ccBad tol ign (x j) (y j) = true then _ else _) m _
    split
    · exact trivial
    · rename_i hb
      refine ⟨rfl, rfl, j + 1, by push_cast; rfl, by omega, ?_⟩
      intro i hi
      rcases Nat.lt_succ_iff_lt_or_eq.mp hi with h | rfl
      · exact h4 i h
      · simpa using hb
  · rintro r m ⟨_, _, j, h, _, h4⟩ i hi
    exact h4 i (by omega)

/-- After the first call every later one with as many rows is compared with the vector of the first. -/
theorem driverChecks_some [Races CArr] {dbg : Bool} {yt n : Nat} {x : Nat → Dbl} {y : Nat → Nat → Dbl} :
    ∀ (vs : List Nat) (m0 : Mem (CTy Dbl)), (∀ i : Nat, i < n → m0 (.vec yt) (i : Int) = some (x i)) →
      (∀ v ∈ vs, ∀ i : Nat, i < n → m0 (.vec v) (i : Int) = some (y v i)) →
      (dbg = true → ∀ v ∈ vs, ∀ i, i < n → ccBad (.fin (1 / 100000000)) (.fin 0) (x i) (y v i) = false) →
      (driverChecks dbg yt (some n) (vs.map fun v => (n, v))).Ok m0 (fun rs m => m = m0 ∧ rs.length = vs.length ∧
        ∀ k (h : k < vs.length), rs[k]? = some true ↔ ∀ i, i < n → ccBad (.fin (1 / 100000000)) (.fin 0) (x i) (y vs[k] i) = false) := by
  intro vs
  induction vs with
  | nil => intro m0 _ _ _; exact Script.ok_done_of ⟨rfl, rfl, fun k h => absurd h (by simp)⟩
  | cons v vs ih =>
    intro m0 hx hy hd
    refine seq_rule ?_
    simp only [driverCheck, wp_bind]
    refine wp_mono (wp_correctnessCheck (fun _ _ => trivial) hx (hy v (by simp)) (fun h => hd h v (by simp))) ?_
    rintro r m ⟨rfl, hr⟩
    refine wp_pure.2 (Script.ok_bind.2 (Script.Ok.mono (ih m hx (fun w hw => hy w (by simp [hw])) (fun h w hw => hd h w (by simp [hw]))) ?_))
    rintro rs m' ⟨rfl, h1, h2⟩
    refine Script.ok_done_of ⟨rfl, by simp [h1], ?_⟩
    intro k hk
    match k, hk with
    | 0, _ => simpa using hr
    | k + 1, hk => simpa using h2 k (by simpa using hk)

/-- The first call copies its vector. -/
theorem wp_driverCheck_first {sz : CArr → Int} {dbg : Bool} {yt n v : Nat} {m0 : Mem (CTy Dbl)} {x : Nat → Dbl} (hv : v ≠ yt)
    (hsz : (n : Int) ≤ sz (.vec yt)) (hx : ∀ i : Nat, i < n → m0 (.vec v) (i : Int) = some (x i)) :
    wp sz (fun _ _ => True) (fun _ _ => True) (driverCheck dbg yt none n v) m0 (fun r m => r = (true, some n) ∧
      (∀ i : Nat, i < n → m (.vec yt) (i : Int) = some (x i)) ∧ ∀ a, a ≠ .vec yt → m a = m0 a) := by
  have hne : (CArr.vec v) ≠ .vec yt := fun h => hv (CArr.vec.inj h)
  simp only [driverCheck, wp_bind]
  refine wp_forUp (I := fun i _ m => ∃ j : Nat, i = j ∧ (∀ i : Nat, i < j → m (.vec yt) (i : Int) = some (x i)) ∧
    ∀ a, a ≠ .vec yt → m a = m0 a) ?_ ?_ ?_
  · exact ⟨0, rfl, fun i h => absurd h (by omega), fun _ _ => rfl⟩
  · rintro i _ m h1 h2 ⟨j, rfl, h3, h4⟩
    simp only [wp_bind, wp_read, wp_write]
    refine ⟨trivial, x j, by rw [h4 _ hne]; exact hx j (by omega), trivial, by omega, by omega, j + 1, by push_cast; rfl, ?_, ?_⟩
    · intro i hi
      rw [Mem.set_same]
      split
      · rename_i he
        rw [show i = j by omega]
      · exact h3 i (by omega)
    · intro a ha
      funext i
      rw [Mem.set_other _ _ _ _ _ ha, h4 a ha]
  · rintro _ m ⟨j, h1, h2, h3⟩
    obtain rfl : j = n := by omega
    exact wp_pure.2 ⟨rfl, h2, h3⟩

end SpMP
