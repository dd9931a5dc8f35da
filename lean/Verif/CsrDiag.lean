import Verif.CsrMem
import Verif.RowTeam
import Mathlib.Tactic.Ring
/-
Diagonal pointers and inverse diagonal (/repo/CSR.cpp:441-455, /repo/LevelSchedule.cpp:129-162), CSR::equals
(/repo/CSR.cpp:709-746) and the PCG example's waxpby (/repo/test/pcg.cpp:253-307).
-/

namespace SpMP
open Spec

set_option linter.unusedSectionVars false

variable {R : Type} [Races CArr]

/-! ### constructDiagPtr, computeInverseDiag -/

/-- LevelSchedule.cpp:136-141, iteration `i`: first entry with column >= i. -/
def diagPtrRow (k base : Nat) (i : Int) : Prog (CTy R) Unit := do
  let lo ← Prog.read (ty := CTy R) (.rowptr k) i
  let hi ← Prog.read (ty := CTy R) (.rowptr k) (i + 1)
  let _ ← Prog.forUp (ty := CTy R) ((lo : Int) - base) ((hi : Int) - base) false fun j found =>
    if found then pure true else do
      let c ← Prog.read (ty := CTy R) (.colidx k) j
      if (c : Int) - base ≥ i then do
        Prog.write (ty := CTy R) (.diagptr k) i (j + base)
        pure true
      else pure false
  pure ()

/-- CSR::constructDiagPtr (LevelSchedule.cpp:129-162): nothing if `diagptr` exists (`have`), otherwise a parallel loop
over the rows (the array is uninitialised where the loop finds nothing). -/
def constructDiagPtr (sz : CArr → Int) (k m : Nat) (have_ : Bool) : Script (CTy R) Unit :=
  if have_ then .done ()
  else
    .seq sz (Prog.read (ty := CTy R) (.rowptr k) 0) fun (base : Int) =>
    .phase sz m (fun i => diagPtrRow k base.toNat i) fun _ => .done ()

/-- CSR::computeInverseDiag (CSR.cpp:441-455). `haveI`, `haveD`: `idiag`, `diagptr` already allocated. -/
def computeInverseDiag [One R] [Div R] (sz : CArr → Int) (k m : Nat) (haveI_ haveD : Bool) : Script (CTy R) Unit :=
  if haveI_ then .done ()
  else
    (constructDiagPtr sz k m haveD).bind fun _ =>
    .seq sz (Prog.read (ty := CTy R) (.rowptr k) 0) fun (base : Int) =>
    .phase sz m (fun i => do
      let d ← Prog.read (ty := CTy R) (.diagptr k) i
      let v ← Prog.read (ty := CTy R) (.values k) ((d : Int) - base)
      Prog.write (ty := CTy R) (.idiag k) i (1 / v : R)) fun _ => .done ()

theorem diagPtrRow_ok {sz : CArr → Int} {W Rd : CArr → Int → Prop} {k base : Nat} {A : Csr R} {m0 : Mem (CTy R)} {r d : Nat}
    (hwf : A.WF) (hp : HoldsPat m0 k base A) (hr : r < A.m) (hs : A.RowSorted r) (hd : A.InRow r d) (hcd : A.col d = r)
    (hW : W (.diagptr k) r) (hR : ∀ a i, a ≠ .diagptr k → Rd a i) (hsz : (A.m : Int) ≤ sz (.diagptr k)) :
    wp sz W Rd (diagPtrRow k base r) m0 (fun _ m => ∃ p, A.InRow r p ∧ A.col p = r ∧
      m (.diagptr k) (r : Int) = some ((p : Int) + base)) := by
  have hmono := hwf.ptr_step r hr
  unfold diagPtrRow
  simp only [wp_bind, wp_read]
  refine ⟨hR _ _ (by simp), _, hp.rowptr r (by omega), hR _ _ (by simp), _,
    by have := hp.rowptr (r + 1) (by omega); push_cast at this; exact this, ?_⟩
  refine wp_forUp (I := fun i st mm => ∃ j : Nat, i = j ∧ A.ptr r ≤ j ∧ j ≤ A.ptr (r + 1) ∧
    (∀ a, a ≠ .diagptr k → mm a = m0 a) ∧
    (st = false → ∀ l, A.ptr r ≤ l → l < j → A.col l < r) ∧
    (st = true → ∃ p, A.InRow r p ∧ A.col p = r ∧ mm (.diagptr k) (r : Int) = some ((p : Int) + base))) ?_ ?_ ?_
  · exact ⟨A.ptr r, by omega, Nat.le_refl _, hmono, fun _ _ => rfl, fun _ l _ _ => by omega, by simp⟩
  · rintro i st mm h1 h2 ⟨j, rfl, h3, h4, h5, h6, h7⟩
    have hin : A.InRow r j := ⟨hr, h3, by omega⟩
    cases st with
    | true =>
      simp only [if_true, wp_pure]
      exact ⟨j + 1, by push_cast; rfl, by omega, by omega, h5, by simp, fun _ => h7 rfl⟩
    | false =>
      simp only [Bool.false_eq_true, if_false, wp_bind, wp_read]
      refine ⟨hR _ _ (by simp), _, by rw [h5 _ (by simp)]; exact hp.colidx j (hin.lt_nnz hwf), ?_⟩
      rw [wp_ite]
      refine ⟨?_, ?_⟩
      · intro hc
        have hc : (A.col j : Int) + base - base ≥ r := hc
        simp only [wp_bind, wp_write, wp_pure]
        refine ⟨hW, by omega, by omega, j + 1, by push_cast; rfl, by omega, by omega, ?_, by simp, ?_⟩
        · intro a ha; rw [Mem.set_other _ _ _ _ _ ha]; exact h5 a ha
        · intro _
          refine ⟨j, hin, ?_, by simp⟩
          have hjd : j ≤ d := by
            by_contra hlt
            have := h6 rfl d hd.2.1 (by omega)
            omega
          rcases Nat.lt_or_ge j d with hlt | hge
          · have := hs j d h3 hlt hd.2.2; omega
          · have : j = d := by omega
            rw [this, hcd]
      · intro hc
        have hc : ¬ (A.col j : Int) + base - base ≥ r := hc
        rw [wp_pure]
        refine ⟨j + 1, by push_cast; rfl, by omega, by omega, h5, ?_, by simp⟩
        intro _ l g1 g2
        by_cases hl : l = j
        · subst hl; omega
        · exact h6 rfl l g1 (by omega)
  · rintro st mm ⟨j, h1, h2, h3, h4, h5, h6⟩
    rw [wp_pure]
    cases st with
    | true => exact h6 rfl
    | false =>
      have := h5 rfl d hd.2.1 (by have := hd.2.2; omega)
      omega

/-- Every row is sorted and stores its diagonal. -/
def DiagRows (A : Csr R) : Prop := ∀ i, i < A.m → A.RowSorted i ∧ ∃ d, A.InRow i d ∧ A.col d = i

/-- `diagptr` points at the diagonal entries `dp`. -/
def HoldsDiag (mem : Mem (CTy R)) (k base : Nat) (A : Csr R) (dp : Nat → Nat) : Prop :=
  ∀ i : Nat, i < A.m → A.InRow i (dp i) ∧ A.col (dp i) = i ∧ mem (.diagptr k) (i : Int) = some ((dp i : Int) + base)

theorem constructDiagPtr_ok {sz : CArr → Int} {k base : Nat} {A : Csr R} {m0 : Mem (CTy R)} (hwf : A.WF)
    (hp : HoldsPat m0 k base A) (hd : DiagRows A) (hsz : (A.m : Int) ≤ sz (.diagptr k)) :
    (constructDiagPtr sz k A.m false).Ok m0 (fun _ m' => (∃ dp, HoldsDiag m' k base A dp) ∧
      ∀ a, a ≠ .diagptr k → m' a = m0 a) := by
  have hptr0 := hp.rowptr 0 (by omega)
  rw [hwf.ptr_zero] at hptr0
  unfold constructDiagPtr
  simp only [Bool.false_eq_true, if_false]
  refine seq_rule ?_
  rw [wp_read]
  refine ⟨trivial, ((0 : Nat) : Int) + base, hptr0, ?_⟩
  have e : ((0 : Nat) : Int) + (base : Int) = base := by omega
  rw [e]
  refine par_rule (W := fun t a i => a = .diagptr k ∧ i = (t : Int))
    (R := fun t a i => a ≠ .diagptr k ∨ i = (t : Int))
    (Q := fun t _ m => ∃ p, A.InRow t p ∧ A.col p = t ∧ m (.diagptr k) (t : Int) = some ((p : Int) + base)) ?_ ?_ ?_
  · rintro t u a i _ _ hne ⟨rfl, rfl⟩ h
    rcases h with h | h
    · exact h rfl
    · omega
  · intro t ht
    obtain ⟨hs, d, h1, h2⟩ := hd t ht
    exact diagPtrRow_ok hwf hp ht hs h1 h2 ⟨rfl, rfl⟩ (fun a i h => Or.inl h) hsz
  · intro _ m hq hf
    refine ⟨?_, ?_⟩
    · classical
      have : ∀ t, ∃ p, t < A.m → A.InRow t p ∧ A.col p = t ∧ m (.diagptr k) (t : Int) = some ((p : Int) + base) := by
        intro t
        by_cases ht : t < A.m
        · obtain ⟨mt, ⟨p, h1, h2, h3⟩, h4⟩ := hq t ht
          exact ⟨p, fun _ => ⟨h1, h2, by rw [h4 _ _ (Or.inr rfl)]; exact h3⟩⟩
        · exact ⟨0, fun h => absurd h ht⟩
      choose dp hdp using this
      exact ⟨dp, hdp⟩
    · intro a ha; funext i; exact hf a i (by rintro t _ ⟨h, _⟩; exact ha h)

theorem computeInverseDiag_ok [One R] [Div R] {sz : CArr → Int} {k base : Nat} {A : Csr R} {m0 : Mem (CTy R)}
    {haveD : Bool} (hwf : A.WF) (hp : HoldsPat m0 k base A) (hv : HoldsVal m0 k A)
    (hd : haveD = false → DiagRows A) (hd' : haveD = true → ∃ dp, HoldsDiag m0 k base A dp)
    (hsz : haveD = false → (A.m : Int) ≤ sz (.diagptr k)) (hszi : (A.m : Int) ≤ sz (.idiag k)) :
    (computeInverseDiag sz k A.m false haveD).Ok m0 (fun _ m' =>
      (∃ dp, HoldsDiag m' k base A dp ∧ ∀ i : Nat, i < A.m → m' (.idiag k) (i : Int) = some (1 / A.val (dp i))) ∧
      ∀ a, a ≠ .diagptr k → a ≠ .idiag k → m' a = m0 a) := by
  unfold computeInverseDiag
  simp only [Bool.false_eq_true, if_false]
  rw [Script.ok_bind]
  have h1 : (constructDiagPtr sz k A.m haveD).Ok m0 (fun _ m' => (∃ dp, HoldsDiag m' k base A dp) ∧
      ∀ a, a ≠ .diagptr k → m' a = m0 a) := by
    cases haveD with
    | false => exact constructDiagPtr_ok hwf hp (hd rfl) (hsz rfl)
    | true =>
      unfold constructDiagPtr
      simp only [if_true]
      exact ⟨hd' rfl, fun _ _ => rfl⟩
  refine Script.Ok.mono h1 ?_
  rintro _ m1 ⟨⟨dp, hdp⟩, hoth⟩
  have hptr0 := hp.rowptr 0 (by omega)
  rw [hwf.ptr_zero] at hptr0
  refine seq_rule ?_
  rw [wp_read]
  refine ⟨trivial, ((0 : Nat) : Int) + base, by rw [hoth _ (by simp)]; exact hptr0, ?_⟩
  refine par_rule (W := fun t a i => a = .idiag k ∧ i = (t : Int))
    (R := fun t a i => a ≠ .idiag k ∨ i = (t : Int))
    (Q := fun t _ m => m (.idiag k) (t : Int) = some (1 / A.val (dp t))) ?_ ?_ ?_
  · rintro t u a i _ _ hne ⟨rfl, rfl⟩ h
    rcases h with h | h
    · exact h rfl
    · omega
  · intro t ht
    obtain ⟨d1, d2, d3⟩ := hdp t ht
    simp only [wp_bind, wp_read, wp_write]
    refine ⟨Or.inl (by simp), _, d3, Or.inl (by simp), A.val (dp t), ?_, ⟨trivial, trivial⟩, by omega, by omega, by simp⟩
    have e : (dp t : Int) + base - (((0 : Nat) : Int) + base) = dp t := by omega
    rw [hoth _ (by simp), e]
    exact hv _ (d1.lt_nnz hwf)
  · intro _ m hq hf
    have hoth2 : ∀ a, a ≠ .idiag k → m a = m1 a := by
      intro a ha; funext i; exact hf a i (by rintro t _ ⟨h, _⟩; exact ha h)
    refine ⟨⟨dp, ?_, ?_⟩, ?_⟩
    · intro i hi
      rw [hoth2 _ (by simp)]; exact hdp i hi
    · intro i hi
      obtain ⟨mt, h1, h2⟩ := hq i hi
      rw [h2 _ _ (Or.inr rfl)]; exact h1
    · intro a h1 h2; rw [hoth2 a h2, hoth a h1]

/-! ### equals -/

section
variable [DecidableEq R]

/-- Loop over one row of CSR::equals (CSR.cpp:733-742); `false` = returned false. -/
def equalsRow (k k' : Nat) (base : Int) (i : Int) : Prog (CTy R) Bool := do
  let p ← Prog.read (ty := CTy R) (.rowptr k) i
  let p' ← Prog.read (ty := CTy R) (.rowptr k') i
  if (p : Int) ≠ p' then pure false
  else do
    let hi ← Prog.read (ty := CTy R) (.rowptr k) (i + 1)
    Prog.forUp (ty := CTy R) ((p : Int) - base) ((hi : Int) - base) true fun j ok =>
      if ok then do
        let c ← Prog.read (ty := CTy R) (.colidx k) j
        let c' ← Prog.read (ty := CTy R) (.colidx k') j
        if (c : Int) ≠ c' then pure false
        else do
          let v ← Prog.read (ty := CTy R) (.values k) j
          let v' ← Prog.read (ty := CTy R) (.values k') j
          pure (decide ((v : R) = v'))
      else pure false

/-- CSR::equals (CSR.cpp:709-746) of objects `k` (m x n) and `k'` (m' x n'); printing is not modelled. -/
def csrEquals (k k' m n m' n' : Nat) : Prog (CTy R) Bool := do
  let b ← Prog.read (ty := CTy R) (.rowptr k) 0
  let b' ← Prog.read (ty := CTy R) (.rowptr k') 0
  if (b' : Int) ≠ b then pure false
  else if m ≠ m' then pure false
  else if n ≠ n' then pure false
  else do
    let z ← Prog.read (ty := CTy R) (.rowptr k) m
    let z' ← Prog.read (ty := CTy R) (.rowptr k') m'
    if (z : Int) ≠ z' then pure false
    else
      Prog.forUp (ty := CTy R) 0 m true fun i ok => if ok then equalsRow k k' b i else pure false

theorem wp_csrEquals {sz : CArr → Int} {W Rd : CArr → Int → Prop} {k k' base base' : Nat} {A B : Csr R} {m : Mem (CTy R)}
    (hA : A.WF) (hB : B.WF) (hpA : HoldsPat m k base A) (hpB : HoldsPat m k' base' B) (hvA : HoldsVal m k A)
    (hvB : HoldsVal m k' B) (hR : ∀ a i, Rd a i) :
    wp sz W Rd (csrEquals k k' A.m A.n B.m B.n) m (fun res m' => m' = m ∧
      (res = true ↔ base = base' ∧ A.m = B.m ∧ A.n = B.n ∧ (∀ i, i ≤ A.m → A.ptr i = B.ptr i) ∧
        ∀ j, j < A.nnz → A.col j = B.col j ∧ A.val j = B.val j)) := by
  have h0 := hpA.rowptr 0 (by omega)
  have h0' := hpB.rowptr 0 (by omega)
  rw [hA.ptr_zero] at h0
  rw [hB.ptr_zero] at h0'
  unfold csrEquals
  simp only [wp_bind, wp_read]
  refine ⟨hR _ _, _, h0, hR _ _, _, h0', ?_⟩
  rw [wp_ite]
  refine ⟨fun h => ?_, fun h => ?_⟩
  · have h : ((0 : Nat) : Int) + base' ≠ ((0 : Nat) : Int) + base := h
    rw [wp_pure]; refine ⟨rfl, ?_⟩
    simp only [Bool.false_eq_true, false_iff]; rintro ⟨h1, _⟩; omega
  have h : ¬ ((0 : Nat) : Int) + base' ≠ ((0 : Nat) : Int) + base := h
  have hbb : base = base' := by omega
  subst hbb
  rw [wp_ite]
  refine ⟨fun h => ?_, fun hm => ?_⟩
  · rw [wp_pure]; refine ⟨rfl, ?_⟩
    simp only [Bool.false_eq_true, false_iff]; rintro ⟨_, h1, _⟩; exact h h1
  have hm : A.m = B.m := by omega
  rw [wp_ite]
  refine ⟨fun h => ?_, fun hn => ?_⟩
  · rw [wp_pure]; refine ⟨rfl, ?_⟩
    simp only [Bool.false_eq_true, false_iff]; rintro ⟨_, _, h1, _⟩; exact h h1
  have hn : A.n = B.n := by omega
  simp only [wp_bind, wp_read]
  refine ⟨hR _ _, _, hpA.rowptr A.m (by omega), hR _ _, _, hpB.rowptr B.m (by omega), ?_⟩
  rw [wp_ite]
  refine ⟨fun h => ?_, fun h => ?_⟩
  · have h : (A.ptr A.m : Int) + base ≠ (B.ptr B.m : Int) + base := h
    rw [wp_pure]; refine ⟨rfl, ?_⟩
    simp only [Bool.false_eq_true, false_iff]; rintro ⟨_, h1, _, h2, _⟩
    have := h2 A.m (by omega); rw [← h1, this] at h; exact h rfl
  have h : ¬ (A.ptr A.m : Int) + base ≠ (B.ptr B.m : Int) + base := h
  have hnnz : A.nnz = B.nnz := by unfold Csr.nnz; omega
  have hpm : A.ptr A.m = B.ptr A.m := by rw [hm] at h ⊢; omega
  refine wp_forUp (I := fun p b mm => mm = m ∧ ∃ r : Nat, p = r ∧ r ≤ A.m ∧
    (b = true ↔ (∀ i, i < r → A.ptr i = B.ptr i) ∧ ∀ j, j < A.ptr r → A.col j = B.col j ∧ A.val j = B.val j)) ?_ ?_ ?_
  · refine ⟨rfl, 0, rfl, by omega, ?_⟩
    rw [hA.ptr_zero]; simp
  · rintro p b mm g1 g2 ⟨rfl, r, rfl, g3, g4⟩
    have hr : r < A.m := by omega
    have hst := hA.ptr_step r hr
    cases b with
    | false =>
      simp only [Bool.false_eq_true, if_false, wp_pure]
      refine ⟨trivial, r + 1, by push_cast; rfl, by omega, ?_⟩
      simp only [Bool.false_eq_true, false_iff] at g4 ⊢
      rintro ⟨d1, d2⟩
      exact g4 ⟨fun i hi => d1 i (by omega), fun j hj => d2 j (by omega)⟩
    | true =>
      obtain ⟨g5, g6⟩ := g4.1 rfl
      simp only [if_true]
      unfold equalsRow
      simp only [wp_bind, wp_read]
      refine ⟨hR _ _, _, hpA.rowptr r (by omega), hR _ _, _, hpB.rowptr r (by omega), ?_⟩
      rw [wp_ite]
      refine ⟨fun h => ?_, fun h => ?_⟩
      · have h : (A.ptr r : Int) + base ≠ (B.ptr r : Int) + base := h
        rw [wp_pure]
        refine ⟨rfl, r + 1, by push_cast; rfl, by omega, ?_⟩
        simp only [Bool.false_eq_true, false_iff]
        rintro ⟨d1, _⟩; rw [d1 r (by omega)] at h; exact h rfl
      have h : ¬ (A.ptr r : Int) + base ≠ (B.ptr r : Int) + base := h
      have hpr : A.ptr r = B.ptr r := by omega
      simp only [wp_bind, wp_read]
      refine ⟨hR _ _, _, by have := hpA.rowptr (r + 1) (by omega); push_cast at this; exact this, ?_⟩
      refine wp_forUp (I := fun p b m' => m' = mm ∧ ∃ l : Nat, p = l ∧ A.ptr r ≤ l ∧ l ≤ A.ptr (r + 1) ∧
        (b = true ↔ ∀ j, j < l → A.col j = B.col j ∧ A.val j = B.val j)) ?_ ?_ ?_
      · exact ⟨rfl, A.ptr r, by omega, Nat.le_refl _, hst, by simpa using g6⟩
      · rintro p b m' d1 d2 ⟨rfl, l, rfl, d3, d4, d5⟩
        have hl : A.InRow r l := ⟨hr, d3, by omega⟩
        have hln := hl.lt_nnz hA
        have hlnB : l < B.nnz := by omega
        have hnext : ∀ b', (b' = true ↔ A.col l = B.col l ∧ A.val l = B.val l) → b = true →
            (b' = true ↔ ∀ j, j < l + 1 → A.col j = B.col j ∧ A.val j = B.val j) := by
          intro b' hb' hb
          rw [hb']
          constructor
          · intro hok j hj
            by_cases hjl : j = l
            · subst hjl; exact hok
            · exact (d5.1 hb) j (by omega)
          · intro h; exact h l (by omega)
        cases b with
        | false =>
          simp only [Bool.false_eq_true, if_false, wp_pure]
          refine ⟨trivial, l + 1, by push_cast; rfl, by omega, by omega, ?_⟩
          simp only [Bool.false_eq_true, false_iff] at d5 ⊢
          intro h; exact d5 (fun j hj => h j (by omega))
        | true =>
          simp only [if_true, wp_bind, wp_read]
          refine ⟨hR _ _, _, hpA.colidx l hln, hR _ _, _, hpB.colidx l hlnB, ?_⟩
          rw [wp_ite]
          refine ⟨fun h => ?_, fun h => ?_⟩
          · have h : (A.col l : Int) + base ≠ (B.col l : Int) + base := h
            rw [wp_pure]
            refine ⟨rfl, l + 1, by push_cast; rfl, by omega, by omega, hnext _ ?_ rfl⟩
            simp only [Bool.false_eq_true, false_iff]
            rintro ⟨h1, _⟩; rw [h1] at h; exact h rfl
          · have h : ¬ (A.col l : Int) + base ≠ (B.col l : Int) + base := h
            simp only [wp_bind, wp_read, wp_pure]
            refine ⟨hR _ _, _, hvA l hln, hR _ _, _, hvB l hlnB, trivial, l + 1, by push_cast; rfl, by omega, by omega,
              hnext _ ?_ rfl⟩
            have : A.col l = B.col l := by omega
            simp [this]
      · rintro b m' ⟨rfl, l, d1, d2, d3, d4⟩
        have : l = A.ptr (r + 1) := by omega
        subst this
        refine ⟨rfl, r + 1, by push_cast; rfl, by omega, ?_⟩
        rw [d4]
        constructor
        · intro h
          refine ⟨?_, h⟩
          intro i hi
          by_cases hir : i = r
          · subst hir; exact hpr
          · exact g5 i (by omega)
        · intro h; exact h.2
  · rintro b mm ⟨rfl, r, d1, d2, d3⟩
    have : r = A.m := by omega
    subst this
    refine ⟨rfl, ?_⟩
    rw [d3]
    constructor
    · rintro ⟨e1, e2⟩
      refine ⟨trivial, hm, hn, ?_, e2⟩
      intro i hi
      by_cases hi' : i = A.m
      · subst hi'; exact hpm
      · exact e1 i (by omega)
    · rintro ⟨_, _, _, e1, e2⟩
      exact ⟨fun i hi => e1 i (by omega), e2⟩

end

/-! ### waxpby -/

section
variable [CommRing R] [DecidableEq R]

/-- One iteration of waxpby (test/pcg.cpp:253-307), all eight branches. `w`, `x`, `y` may name the same vector. -/
def waxpbyElem (w x y : Nat) (α β : R) (i : Int) : Prog (CTy R) Unit :=
  if 1 = α then
    (if 1 = β then do
      let a ← Prog.read (ty := CTy R) (.vec x) i
      let b ← Prog.read (ty := CTy R) (.vec y) i
      Prog.write (ty := CTy R) (.vec w) i ((a + b : R))
    else if -1 = β then do
      let a ← Prog.read (ty := CTy R) (.vec x) i
      let b ← Prog.read (ty := CTy R) (.vec y) i
      Prog.write (ty := CTy R) (.vec w) i ((a - b : R))
    else do
      let a ← Prog.read (ty := CTy R) (.vec x) i
      let b ← Prog.read (ty := CTy R) (.vec y) i
      Prog.write (ty := CTy R) (.vec w) i ((a + β * b : R)))
  else if 1 = β then do
    let a ← Prog.read (ty := CTy R) (.vec x) i
    let b ← Prog.read (ty := CTy R) (.vec y) i
    Prog.write (ty := CTy R) (.vec w) i ((α * a + b : R))
  else if -1 = α then
    (if 0 = β then do
      let a ← Prog.read (ty := CTy R) (.vec x) i
      Prog.write (ty := CTy R) (.vec w) i ((-a : R))
    else do
      let b ← Prog.read (ty := CTy R) (.vec y) i
      let a ← Prog.read (ty := CTy R) (.vec x) i
      Prog.write (ty := CTy R) (.vec w) i ((β * b - a : R)))
  else if 0 = β then do
    let a ← Prog.read (ty := CTy R) (.vec x) i
    Prog.write (ty := CTy R) (.vec w) i ((α * a : R))
  else do
    let a ← Prog.read (ty := CTy R) (.vec x) i
    let b ← Prog.read (ty := CTy R) (.vec y) i
    Prog.write (ty := CTy R) (.vec w) i ((α * a + β * b : R))

/-- waxpby (test/pcg.cpp:253-307): each branch is a parallel loop over the elements. -/
def waxpby (sz : CArr → Int) (n : Nat) (w x y : Nat) (α β : R) : Script (CTy R) Unit :=
  .phase sz n (fun i => waxpbyElem w x y α β i) fun _ => .done ()

theorem waxpby_ok {sz : CArr → Int} {n w x y : Nat} {α β : R} {m0 : Mem (CTy R)} {xv yv : Nat → R}
    (hx : ∀ i : Nat, i < n → m0 (.vec x) (i : Int) = some (xv i))
    (hy : ∀ i : Nat, i < n → m0 (.vec y) (i : Int) = some (yv i)) (hsz : (n : Int) ≤ sz (.vec w)) :
    (waxpby sz n w x y α β).Ok m0 (fun _ m' =>
      (∀ i : Nat, i < n → m' (.vec w) (i : Int) = some (α * xv i + β * yv i)) ∧
      (∀ i : Int, ¬ (0 ≤ i ∧ i < n) → m' (.vec w) i = m0 (.vec w) i) ∧ ∀ a, a ≠ .vec w → m' a = m0 a) := by
  unfold waxpby
  refine par_rule (W := fun t a i => a = .vec w ∧ i = (t : Int)) (R := fun t a i => a ≠ .vec w ∨ i = (t : Int))
    (Q := fun t _ m => m (.vec w) (t : Int) = some (α * xv t + β * yv t)) ?_ ?_ ?_
  · rintro t u a i _ _ hne ⟨rfl, rfl⟩ h
    rcases h with h | h
    · exact h rfl
    · omega
  · intro t ht
    have hxt := hx t ht
    have hyt := hy t ht
    have ht' : (t : Int) < sz (.vec w) := by omega
    unfold waxpbyElem
    by_cases h1 : 1 = α
    · subst h1
      by_cases h2 : 1 = β
      · subst h2
        simp only [if_true, wp_bind, wp_read, wp_write]
        refine ⟨Or.inr trivial, _, hxt, Or.inr trivial, _, hyt, ⟨trivial, trivial⟩, by omega, ht', ?_⟩
        simp
      · by_cases h3 : -1 = β
        · subst h3
          simp only [if_true, if_neg h2, wp_bind, wp_read, wp_write]
          refine ⟨Or.inr trivial, _, hxt, Or.inr trivial, _, hyt, ⟨trivial, trivial⟩, by omega, ht', ?_⟩
          simp; ring
        · simp only [if_true, if_neg h2, if_neg h3, wp_bind, wp_read, wp_write]
          refine ⟨Or.inr trivial, _, hxt, Or.inr trivial, _, hyt, ⟨trivial, trivial⟩, by omega, ht', ?_⟩
          simp
    · by_cases h2 : 1 = β
      · subst h2
        simp only [if_true, if_neg h1, wp_bind, wp_read, wp_write]
        refine ⟨Or.inr trivial, _, hxt, Or.inr trivial, _, hyt, ⟨trivial, trivial⟩, by omega, ht', ?_⟩
        simp
      · by_cases h3 : -1 = α
        · subst h3
          by_cases h4 : 0 = β
          · subst h4
            simp only [if_true, if_neg h1, if_neg h2, wp_bind, wp_read, wp_write]
            refine ⟨Or.inr trivial, _, hxt, ⟨trivial, trivial⟩, by omega, ht', ?_⟩
            simp
          · simp only [if_true, if_neg h1, if_neg h2, if_neg h4, wp_bind, wp_read, wp_write]
            refine ⟨Or.inr trivial, _, hyt, Or.inr trivial, _, hxt, ⟨trivial, trivial⟩, by omega, ht', ?_⟩
            simp; ring
        · by_cases h4 : 0 = β
          · subst h4
            simp only [if_true, if_neg h1, if_neg h2, if_neg h3, wp_bind, wp_read, wp_write]
            refine ⟨Or.inr trivial, _, hxt, ⟨trivial, trivial⟩, by omega, ht', ?_⟩
            simp
          · simp only [if_neg h1, if_neg h2, if_neg h3, if_neg h4, wp_bind, wp_read, wp_write]
            refine ⟨Or.inr trivial, _, hxt, Or.inr trivial, _, hyt, ⟨trivial, trivial⟩, by omega, ht', ?_⟩
            simp
  · intro _ m hq hf
    refine ⟨?_, ?_, ?_⟩
    · intro i hi
      obtain ⟨mt, h1, h2⟩ := hq i hi
      rw [h2 _ _ (Or.inr rfl)]; exact h1
    · intro i hi; refine hf _ i ?_; rintro t ht ⟨_, rfl⟩; exact hi ⟨by omega, by omega⟩
    · intro a ha; funext i; exact hf a i (by rintro t _ ⟨h, _⟩; exact ha h)

end

end SpMP
