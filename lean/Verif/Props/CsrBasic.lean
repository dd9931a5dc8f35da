import Verif.Base
/-
Property theorems C07 and C08 (/repo/CSR.cpp).
-/

namespace SpMP.Props
open SpMP SpMP.Spec

variable {R : Type}

/-! ## C07 -/

/-- Object `k` holds matrix `A` completely: pattern, values, and (when allocated) diagonal positions `dp` and
external-column boundary positions `ep`, all with index base `base`. -/
structure HoldsAll (mem : Mem (CTy R)) (k base : Nat) (A : Csr R) (o : Opt) (dp ep : Nat → Nat) : Prop where
  pat : HoldsPat mem k base A
  val : o.values → HoldsVal mem k A
  diag : o.diagptr → ∀ i : Nat, i < A.m → mem (.diagptr k) (i : Int) = some ((dp i : Int) + base)
  ext : o.extptr → ∀ i : Nat, i < A.m → mem (.extptr k) (i : Int) = some ((ep i : Int) + base)

/-- C07 for matrices without an external-column boundary: make1BasedIndexing (make0BasedIndexing) on a matrix
of either base yields the same matrix with base 1 (base 0), touches no other array and terminates without
error under every schedule. -/
theorem C07_base_conversion_partial {sz : CArr → Int} {k base : Nat} {A : Csr R} {o : Opt} {dp ep : Nat → Nat}
    {m : Mem (CTy R)} (hwf : A.WF) (hb : base = 0 ∨ base = 1) (hA : HoldsAll m k base A o dp ep)
    (hext : o.extptr = false) (hsz : SizesOk sz k A o) :
    (make1Based sz k A.m o).Ok m (fun _ m' => HoldsAll m' k 1 A o dp ep ∧
      ∀ a, a ≠ .rowptr k → a ≠ .colidx k → a ≠ .diagptr k → m' a = m a) ∧
    (make0Based sz k A.m o).Ok m (fun _ m' => HoldsAll m' k 0 A o dp ep ∧
      ∀ a, a ≠ .rowptr k → a ≠ .colidx k → a ≠ .diagptr k → m' a = m a) := by
  have hdi : o.diagptr → ∀ i : Nat, i < A.m → ∃ v, m (.diagptr k) (i : Int) = some v :=
    fun h i hi => ⟨_, hA.diag h i hi⟩
  have key : ∀ (b' : Nat) (d : Int) m', (base : Int) + d = b' → Shifted m m' k A o d →
      HoldsAll m' k b' A o dp ep ∧
      ∀ a, a ≠ .rowptr k → a ≠ .colidx k → a ≠ .diagptr k → m' a = m a := by
    intro b' d m' hd hs
    refine ⟨⟨hs.holds hA.pat hd, ?_, ?_, ?_⟩, hs.rest⟩
    · intro hv j hj; rw [hs.rest _ (by simp) (by simp) (by simp)]; exact hA.val hv j hj
    · intro hv i hi; rw [hs.diagptr hv i hi, hA.diag hv i hi]; simp only [Option.map_some]; congr 1; omega
    · intro hv; rw [hext] at hv; cases hv
  exact ⟨Script.Ok.mono (make1Based_ok hwf hA.pat hb hdi hsz) (fun _ m' h => key 1 _ m' (by omega) h),
    Script.Ok.mono (make0Based_ok hwf hA.pat hb hdi hsz) (fun _ m' h => key 0 _ m' (by omega) h)⟩

/-- C07, round trip (with or without external boundary): from base 0 to base 1 and back, and from base 1 to
base 0 and back, restores every cell of every array. -/
theorem C07_round_trip {sz : CArr → Int} {k base : Nat} {A : Csr R} {o : Opt} {dp ep : Nat → Nat}
    {m : Mem (CTy R)} (hwf : A.WF) (hb : base = 0 ∨ base = 1) (hA : HoldsAll m k base A o dp ep)
    (hsz : SizesOk sz k A o) :
    (base = 0 → ((make1Based sz k A.m o).bind fun _ => make0Based sz k A.m o).Ok m (fun _ m' => m' = m)) ∧
    (base = 1 → ((make0Based sz k A.m o).bind fun _ => make1Based sz k A.m o).Ok m (fun _ m' => m' = m)) := by
  have hdi : o.diagptr → ∀ i : Nat, i < A.m → ∃ v, m (.diagptr k) (i : Int) = some v :=
    fun h i hi => ⟨_, hA.diag h i hi⟩
  have comp : ∀ (d : Int) (m1 m2 : Mem (CTy R)), Shifted m m1 k A o d → Shifted m1 m2 k A o (-d) → m2 = m := by
    intro d m1 m2 h1 h2
    have hid : ∀ (x : Option Int), (x.map (fun v : Int => v + d)).map (fun v : Int => v + -d) = x := by
      intro x; cases x with
      | none => rfl
      | some v => simp only [Option.map_some]; congr 1; omega
    funext a i
    by_cases e1 : a = .rowptr k
    · subst e1
      by_cases hi : 0 ≤ i ∧ i < (A.m : Int) + 1
      · obtain ⟨j, rfl⟩ := Int.eq_ofNat_of_zero_le hi.1
        rw [h2.rowptr j (by omega), h1.rowptr j (by omega), hid]
      · rw [h2.rest_rowptr i hi, h1.rest_rowptr i hi]
    · by_cases e2 : a = .colidx k
      · subst e2
        by_cases hi : 0 ≤ i ∧ i < A.nnz
        · obtain ⟨j, rfl⟩ := Int.eq_ofNat_of_zero_le hi.1
          rw [h2.colidx j (by omega), h1.colidx j (by omega), hid]
        · rw [h2.rest_colidx i hi, h1.rest_colidx i hi]
      · by_cases e3 : a = .diagptr k
        · subst e3
          by_cases hi : o.diagptr ∧ 0 ≤ i ∧ i < A.m
          · obtain ⟨j, rfl⟩ := Int.eq_ofNat_of_zero_le hi.2.1
            rw [h2.diagptr hi.1 j (by omega), h1.diagptr hi.1 j (by omega), hid]
          · rw [h2.rest_diagptr i hi, h1.rest_diagptr i hi]
        · rw [h2.rest a e1 e2 e3, h1.rest a e1 e2 e3]
  have hdi' : ∀ (d : Int) m1, Shifted m m1 k A o d →
      o.diagptr → ∀ i : Nat, i < A.m → ∃ v, m1 (.diagptr k) (i : Int) = some v := by
    intro d m1 h hd i hi; rw [h.diagptr hd i hi, hA.diag hd i hi]; exact ⟨_, rfl⟩
  constructor
  · rintro rfl
    rw [Script.ok_bind]
    refine Script.Ok.mono (make1Based_ok hwf hA.pat hb hdi hsz) ?_
    intro _ m1 h1
    refine Script.Ok.mono (make0Based_ok hwf (h1.holds hA.pat (base' := 1) (by omega)) (Or.inr rfl)
      (hdi' _ _ h1) hsz) ?_
    intro _ m2 h2; exact comp _ m1 m2 h1 h2
  · rintro rfl
    rw [Script.ok_bind]
    refine Script.Ok.mono (make0Based_ok hwf hA.pat hb hdi hsz) ?_
    intro _ m1 h1
    refine Script.Ok.mono (make1Based_ok hwf (h1.holds hA.pat (base' := 0) (by omega)) (Or.inl rfl)
      (hdi' _ _ h1) hsz) ?_
    intro _ m2 h2; exact comp _ m1 m2 h1 h2

/-- C07, idempotence: converting to the base the matrix already has changes nothing. -/
theorem C07_idempotent {sz : CArr → Int} {k base : Nat} {A : Csr R} {o : Opt} {dp ep : Nat → Nat}
    {m : Mem (CTy R)} (hwf : A.WF) (hA : HoldsAll m k base A o dp ep) (hsz : SizesOk sz k A o) :
    (base = 1 → (make1Based sz k A.m o).Ok m (fun _ m' => m' = m)) ∧
    (base = 0 → (make0Based sz k A.m o).Ok m (fun _ m' => m' = m)) := by
  have hdi : o.diagptr → ∀ i : Nat, i < A.m → ∃ v, m (.diagptr k) (i : Int) = some v :=
    fun h i hi => ⟨_, hA.diag h i hi⟩
  have comp : ∀ (m1 : Mem (CTy R)), Shifted m m1 k A o 0 → m1 = m := by
    intro m1 h1
    have hid : ∀ (x : Option Int), (x.map (fun v : Int => v + 0)) = x := by intro x; cases x <;> simp
    funext a i
    by_cases e1 : a = .rowptr k
    · subst e1
      by_cases hi : 0 ≤ i ∧ i < (A.m : Int) + 1
      · obtain ⟨j, rfl⟩ := Int.eq_ofNat_of_zero_le hi.1
        rw [h1.rowptr j (by omega), hid]
      · rw [h1.rest_rowptr i hi]
    · by_cases e2 : a = .colidx k
      · subst e2
        by_cases hi : 0 ≤ i ∧ i < A.nnz
        · obtain ⟨j, rfl⟩ := Int.eq_ofNat_of_zero_le hi.1
          rw [h1.colidx j (by omega), hid]
        · rw [h1.rest_colidx i hi]
      · by_cases e3 : a = .diagptr k
        · subst e3
          by_cases hi : o.diagptr ∧ 0 ≤ i ∧ i < A.m
          · obtain ⟨j, rfl⟩ := Int.eq_ofNat_of_zero_le hi.2.1
            rw [h1.diagptr hi.1 j (by omega), hid]
          · rw [h1.rest_diagptr i hi]
        · rw [h1.rest a e1 e2 e3]
  constructor
  · rintro rfl
    exact Script.Ok.mono (make1Based_ok hwf hA.pat (Or.inr rfl) hdi hsz) (fun _ m1 h => comp m1 (by simpa using h))
  · rintro rfl
    exact Script.Ok.mono (make0Based_ok hwf hA.pat (Or.inl rfl) hdi hsz) (fun _ m1 h => comp m1 (by simpa using h))

/-- All optional arrays present except idiag/diag. -/
def optExt : Opt := { values := true, diagptr := false, idiag := false, diag := false, extptr := true }

/-- C07 is false with an external-column boundary: make1BasedIndexing leaves extptr at its base-0 values, so the
converted object no longer holds the matrix with its boundary. -/
theorem C07_extptr_false :
    ¬ (∀ (sz : CArr → Int) (A : Csr Int) (o : Opt) (ep : Nat → Nat) (m : Mem (CTy Int)),
      A.WF → SizesOk sz 0 A o → HoldsAll m 0 0 A o (fun _ => 0) ep →
      (make1Based sz 0 A.m o).Ok m (fun _ m' => HoldsAll m' 0 1 A o (fun _ => 0) ep)) := by
  intro h
  have hsz : SizesOk (csrSize 0 3 5 optExt) 0 exampleCsr optExt :=
    ⟨by decide, by decide, by decide, by decide, by decide, by decide, by decide⟩
  let ep : Nat → Nat := fun i => exampleCsr.ptr (i + 1)
  let m := csrMem 0 0 exampleCsr (fun _ => 0) ep
  have hA : HoldsAll m 0 0 exampleCsr optExt (fun _ => 0) ep :=
    ⟨csrMem_pat _ _ _ _ _, fun _ => csrMem_val _ _ _ _ _, by simp [optExt],
      by intro _ i hi; simp [m, csrMem, hi]⟩
  have h1 := (h _ _ _ ep m exampleCsr_wf hsz hA).run
  have hr : ∃ m', (make1Based (csrSize 0 3 5 optExt) 0 3 optExt).run m = some ((), m') ∧
      m' (.extptr 0) 0 = some (2 : Int) := ⟨_, rfl, rfl⟩
  obtain ⟨m', hr1, hr2⟩ := hr
  have h2 := (h1 _ _ hr1).ext rfl 0 (by decide)
  rw [Int.natCast_zero, hr2] at h2
  exact absurd h2 (by decide)

-- a base-0 matrix with all the arrays meets the hypotheses
example : HoldsAll (csrMem 0 0 exampleCsr (fun _ => 4) (fun _ => 0)) 0 0 exampleCsr
    ⟨true, true, false, false, false⟩ (fun _ => 4) (fun _ => 0) :=
  ⟨csrMem_pat _ _ _ _ _, fun _ => csrMem_val _ _ _ _ _, by intro _ i hi; simp [csrMem, hi], by simp⟩
example : SizesOk (csrSize 0 3 5 ⟨true, true, false, false, false⟩) 0 exampleCsr
    ⟨true, true, false, false, false⟩ :=
  ⟨by decide, by decide, by decide, by decide, by decide, by decide, by decide⟩
-- and the conversion does something: rowptr 0 2 2 5 becomes 1 3 3 6
example : ((make1Based (csrSize 0 3 5 ⟨true, true, false, false, false⟩) 0 3
      ⟨true, true, false, false, false⟩).run (csrMem 0 0 exampleCsr (fun _ => 4) (fun _ => 0))).map
    (fun r => ([r.2 (.rowptr 0) 0, r.2 (.rowptr 0) 1, r.2 (.rowptr 0) 3, r.2 (.colidx 0) 0,
      r.2 (.diagptr 0) 2] : List (Option Int))) =
    some [some 1, some 3, some 6, some 3, some 5] := by rfl

/-! ## C08 -/

/-- C08 without the external-column boundary: the copy constructor gives object `k'` the same base, pattern,
values and diagonal data as `k`; it writes only arrays of `k'`; and any later write to an array of one object
leaves every array of the other object as it is. -/
theorem C08_copy_partial {sz : CArr → Int} {k k' : Nat} (hk : k' ≠ k) {A : Csr R} {o : Opt} {base : Nat}
    {m : Mem (CTy R)} (hwf : A.WF) (hA : HoldsPat m k base A) (ho : OptInit m k A o)
    (hsz : SizesOk sz k' A o) :
    (copyCsr sz k k' A.m o).Ok m (fun o' m' =>
      o'.values = o.values ∧ o'.diagptr = o.diagptr ∧ o'.idiag = o.idiag ∧ o'.diag = o.diag ∧
      HoldsPat m' k' base A ∧ SameArrays m m' k k' A o ∧
      (∀ a, ¬ a.ofObj k' → m' a = m a) ∧
      ∀ a b : CArr, a.ofObj k → b.ofObj k' → (∀ i v, (m'.set a i v) b = m' b) ∧ (∀ i v, (m'.set b i v) a = m' a)) := by
  refine Script.Ok.mono (copyCsr_ok hk hwf hA ho hsz) ?_
  rintro o' m' ⟨rfl, hs, hf⟩
  refine ⟨rfl, rfl, rfl, rfl, ⟨?_, ?_⟩, hs, hf, ?_⟩
  · intro i hi; rw [hs.rowptr i hi]; exact hA.rowptr i hi
  · intro i hi; rw [hs.colidx i hi]; exact hA.colidx i hi
  · intro a b ha hb
    have hne : a ≠ b := by
      rintro rfl
      cases a <;> simp only [CArr.ofObj] at ha hb <;> omega
    constructor
    · intro i v; exact Mem.set_other _ _ _ _ _ (fun e => hne e.symm)
    · intro i v; exact Mem.set_other _ _ _ _ _ hne

/-- C08 is false for the external-column boundary: the copy has none although the source has one. -/
theorem C08_extptr_false :
    ¬ (∀ (sz : CArr → Int) (A : Csr Int) (o : Opt) (m : Mem (CTy Int)),
      A.WF → SizesOk sz 0 A o → SizesOk sz 1 A o → HoldsPat m 0 0 A → OptInit m 0 A o →
      (copyCsr sz 0 1 A.m o).Ok m (fun o' _ => o'.extptr = o.extptr)) := by
  intro h
  let sz : CArr → Int := fun _ => 5
  have hsz : ∀ k, SizesOk sz k exampleCsr optExt :=
    fun _ => ⟨by decide, by decide, by decide, by decide, by decide, by decide, by decide⟩
  let m := csrMem 0 0 exampleCsr (fun _ => 0) (fun _ => 0)
  have h1 := (h sz exampleCsr optExt m exampleCsr_wf (hsz 0) (hsz 1) (csrMem_pat _ _ _ _ _)
    ⟨fun _ i hi => ⟨_, csrMem_val _ _ _ _ _ i hi⟩, by simp [optExt], by simp [optExt], by simp [optExt]⟩).run
  have hr : ∃ o' m', (copyCsr sz 0 1 3 optExt).run m = some (o', m') ∧ o'.extptr = false := ⟨_, _, rfl, rfl⟩
  obtain ⟨o', m', hr1, hr2⟩ := hr
  have := h1 _ _ hr1
  rw [hr2] at this; exact absurd this (by decide)

example : OptInit (csrMem 0 1 exampleCsr (fun _ => 0) (fun _ => 0)) 0 exampleCsr
    ⟨true, true, false, false, false⟩ :=
  ⟨fun _ i hi => ⟨_, csrMem_val _ _ _ _ _ i hi⟩, by intro _ i hi; simp [csrMem, hi], by simp, by simp⟩

end SpMP.Props
