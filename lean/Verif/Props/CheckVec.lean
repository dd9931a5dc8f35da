import Verif.CheckVec
/-
Property theorems C74: comparing vectors with an error margin.
-/

namespace SpMP.Props
open SpMP SpMP.Spec

/-- C74 for vectors of numbers: the result is true exactly when every element agrees. In a debug build the vectors have to agree
(see `C74_stops`). -/
theorem C74_check_partial {sz : CArr → Int} {dbg : Bool} {e a n : Nat} {tol ign : Rat} {m0 : Mem (CTy Dbl)} {x y : Nat → Rat}
    (hx : ∀ i : Nat, i < n → m0 (.vec e) (i : Int) = some (.fin (x i))) (hy : ∀ i : Nat, i < n → m0 (.vec a) (i : Int) = some (.fin (y i)))
    (hd : dbg = true → ∀ i, i < n → Agree tol ign (x i) (y i)) :
    (Script.seq sz (correctnessCheck dbg e a n (.fin tol) (.fin ign)) .done).Ok m0 (fun r m => m = m0 ∧
      (r = true ↔ ∀ i, i < n → Agree tol ign (x i) (y i))) := by
  refine seq_rule (wp_mono (wp_correctnessCheck (x := fun i => .fin (x i)) (y := fun i => .fin (y i)) (fun _ _ => trivial) hx hy
    (fun h i hi => ccBad_fin.2 (hd h i hi))) ?_)
  rintro r m ⟨rfl, h⟩
  refine Script.ok_done_of ⟨rfl, h.trans ?_⟩
  exact forall_congr' fun i => forall_congr' fun _ => ccBad_fin

/-- C74: in a debug build a disagreement stops the program. -/
theorem C74_stops {sz : CArr → Int} {e a n : Nat} {tol ign : Rat} {m0 : Mem (CTy Dbl)} {x y : Nat → Rat} {Q : Bool → Mem (CTy Dbl) → Prop}
    (hx : ∀ i : Nat, i < n → m0 (.vec e) (i : Int) = some (.fin (x i))) (hy : ∀ i : Nat, i < n → m0 (.vec a) (i : Int) = some (.fin (y i)))
    (hd : ∃ i, i < n ∧ ¬ Agree tol ign (x i) (y i)) :
    ¬ (Script.seq sz (correctnessCheck true e a n (.fin tol) (.fin ign)) .done).Ok m0 Q := by
  intro h
  have h := ParOk.wlp h (wlp_correctnessCheck_debug (x := fun i => .fin (x i)) (y := fun i => .fin (y i)) hx hy)
  obtain ⟨rs, m', h1, hl, h2⟩ := ParOk.run h
  obtain ⟨i, hi, hb⟩ := hd
  refine hb (ccBad_fin.1 ((h2 (fun _ => rs[0]) ?_).2 i hi))
  intro t ht
  obtain rfl : t = 0 := by omega
  exact List.getElem?_eq_getElem _

/-- C74 for the drivers: the vector of the first call is taken as the reference, and every later vector, for a matrix with as many rows,
is accepted exactly when it agrees with it to 1e-8. -/
theorem C74_drivers_partial {yt n v0 : Nat} {vs : List Nat} {m0 : Mem (CTy Dbl)} {y : Nat → Nat → Rat} (h0 : v0 ≠ yt) (hvs : ∀ v ∈ vs, v ≠ yt)
    (hy : ∀ v ∈ v0 :: vs, ∀ i : Nat, i < n → m0 (.vec v) (i : Int) = some (.fin (y v i))) :
    (driverChecks false yt none ((n, v0) :: vs.map fun v => (n, v))).Ok m0 (fun rs m => rs[0]? = some true ∧
      (∀ k (h : k < vs.length), rs[k + 1]? = some true ↔ ∀ i, i < n → Agree (1 / 100000000) 0 (y v0 i) (y vs[k] i)) ∧
      ∀ a, a ≠ .vec yt → m a = m0 a) := by
  refine seq_rule (wp_mono (wp_driverCheck_first h0 (by simp [ytSize]) (hy v0 (by simp))) ?_)
  rintro _ m ⟨rfl, h1, h2⟩
  have hne : ∀ v ∈ vs, (CArr.vec v) ≠ .vec yt := fun v hv h => hvs v hv (CArr.vec.inj h)
  refine Script.ok_bind.2 (Script.Ok.mono (driverChecks_some (y := fun v i => .fin (y v i)) vs m h1
    (fun v hv i hi => by rw [h2 _ (hne v hv)]; exact hy v (by simp [hv]) i hi) (fun h => by cases h)) ?_)
  rintro rs m' ⟨rfl, h3, h4⟩
  refine Script.ok_done_of ⟨rfl, ?_, h2⟩
  intro k hk
  rw [List.getElem?_cons_succ, h4 k hk]
  exact forall_congr' fun i => forall_congr' fun _ => ccBad_fin

/-- Memory with two vectors of one element. -/
def twoVecs (x y : Dbl) : Mem (CTy Dbl) := fun a i => match a with
  | .vec 0 => if i = 0 then some x else none
  | .vec 1 => if i = 0 then some y else none
  | _ => none

/-- C74 is false for vectors with NaN, and for an infinite expected value: a result that is not a number passes every check, and a number
passes for infinity. -/
theorem C74_nan_false (x y : Dbl) (h : x = .fin 1 ∧ y = .nan ∨ x = .inf false ∧ y = .fin 1) :
    (Script.seq (fun _ => 1) (correctnessCheck true 0 1 1 (.fin (1 / 100000)) (.fin 0)) .done).Ok (twoVecs x y) (fun r _ => r = true) := by
  refine seq_rule (wp_mono (wp_correctnessCheck (x := fun _ => x) (y := fun _ => y) (fun _ _ => trivial) ?_ ?_ ?_) ?_)
  · intro i hi; obtain rfl : i = 0 := by omega
    rfl
  · intro i hi; obtain rfl : i = 0 := by omega
    rfl
  · intro _ i _
    rcases h with ⟨rfl, rfl⟩ | ⟨rfl, rfl⟩ <;> rfl
  · rintro r m ⟨_, hr⟩
    refine Script.ok_done_of (hr.2 fun i _ => ?_)
    rcases h with ⟨rfl, rfl⟩ | ⟨rfl, rfl⟩ <;> rfl

theorem larger_ub : (driverChecks false 2 none [(1, 0), (2, 1)]).runUB (fun a i => match a with
    | .vec 0 => if 0 ≤ i ∧ i < 1 then some (.fin 1) else none
    | .vec 1 => if 0 ≤ i ∧ i < 2 then some (.fin 1) else none
    | _ => none) = true := by decide +kernel

/-- C74 is false for a program that checks a vector of a larger matrix after one of a smaller: it is compared with elements beyond the
end of the reference. -/
theorem C74_larger_false : ¬ (∀ (n n' : Nat) (m0 : Mem (CTy Dbl)), (∀ i : Nat, i < n → m0 (.vec 0) (i : Int) = some (.fin 1)) →
    (∀ i : Nat, i < n' → m0 (.vec 1) (i : Int) = some (.fin 1)) → (driverChecks false 2 none [(n, 0), (n', 1)]).Ok m0 (fun _ _ => True)) := by
  intro h
  have h1 := (h 1 2 (fun a i => match a with
    | .vec 0 => if 0 ≤ i ∧ i < 1 then some (.fin 1) else none
    | .vec 1 => if 0 ≤ i ∧ i < 2 then some (.fin 1) else none
    | _ => none) (fun i hi => by show (if 0 ≤ (i : Int) ∧ (i : Int) < 1 then _ else _) = _; rw [if_pos (by omega)])
    (fun i hi => by show (if 0 ≤ (i : Int) ∧ (i : Int) < 2 then _ else _) = _; rw [if_pos (by omega)])).not_runUB
  rw [larger_ub] at h1
  cases h1

/-! ### Examples -/

-- 100 and 101 agree to 2 percent but not to 1 percent; 0 agrees with 0; small numbers are ignored on request
example : Agree (2 / 100) 0 100 101 := Or.inr (Or.inl (by norm_num [abs]))
example : ¬ Agree (1 / 100) 0 100 101 := by
  rintro (⟨h, _⟩ | h | ⟨h, _⟩) <;> norm_num [abs] at h
example : Agree (1 / 100) 0 0 0 := Or.inl ⟨rfl, rfl⟩
example : Agree (1 / 100) 1 0 (1 / 2) := Or.inr (Or.inr (by norm_num [abs]))
example : (Script.seq (fun _ => 1) (correctnessCheck true 0 1 1 (.fin (2 / 100)) (.fin 0)) .done).Ok (twoVecs (.fin 100) (.fin 101)) (fun r _ => r = true) :=
  Script.Ok.mono (C74_check_partial (x := fun _ => 100) (y := fun _ => 101) (fun i hi => by obtain rfl : i = 0 := by omega
                                                                                            rfl)
    (fun i hi => by obtain rfl : i = 0 := by omega
                    rfl) (fun _ _ _ => Or.inr (Or.inl (by norm_num [abs]))))
    (by rintro r _ ⟨_, h⟩; exact h.2 fun _ _ => Or.inr (Or.inl (by norm_num [abs])))

-- the hypotheses of C74_stops and of C74_drivers_partial (three calls, the last vector is different)
example : ¬ (Script.seq (fun _ => 1) (correctnessCheck true 0 1 1 (.fin (1 / 100)) (.fin 0)) .done).Ok (twoVecs (.fin 100) (.fin 101)) (fun _ _ => True) :=
  C74_stops (x := fun _ => 100) (y := fun _ => 101) (fun i hi => by obtain rfl : i = 0 := by omega
                                                                    rfl)
    (fun i hi => by obtain rfl : i = 0 := by omega
                    rfl) ⟨0, by omega, by rintro (⟨h, _⟩ | h | ⟨h, _⟩) <;> norm_num [abs] at h⟩
example : (driverChecks false 2 none [(1, 0), (1, 0), (1, 1)]).Ok (twoVecs (.fin 100) (.fin 101)) (fun rs _ => rs[1]? = some true ∧ rs[2]? ≠ some true) :=
  Script.Ok.mono (C74_drivers_partial (n := 1) (v0 := 0) (vs := [0, 1]) (y := fun v _ => if v = 0 then 100 else 101) (by decide) (by decide)
    (fun v hv i hi => by
      obtain rfl : i = 0 := by omega
      simp only [List.mem_cons, List.not_mem_nil, or_false] at hv
      rcases hv with rfl | rfl | rfl <;> rfl))
    (by
      rintro rs _ ⟨_, h, _⟩
      refine ⟨(h 0 (by decide)).2 fun i _ => Or.inr (Or.inl (by norm_num [abs])), fun h2 => ?_⟩
      rcases (h 1 (by decide)).1 h2 0 (by omega) with (⟨h, _⟩ | h | ⟨h, _⟩) <;> norm_num [abs] at h)

end SpMP.Props
