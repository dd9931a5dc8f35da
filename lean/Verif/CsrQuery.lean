import Verif.RowTeam
import Verif.RelyGuar
/-
Parallel queries with a shared flag: CSR::hasZeroDiag and CSR::isSymmetric (/repo/CSR.cpp:165-274).
The flag is `itmp 0`, index 0 (1 = true).
-/

namespace SpMP
open Spec

set_option linter.unusedSectionVars false

variable {R : Type} [DecidableEq R] [Races CArr]

/-- A shared flag that can only be moved to `fv`, and only if `Bad` holds. -/
def flagRel (fv : Int) (Bad : Prop) : (a : CArr) → Int → CTy R a → CTy R a → Prop
  | .itmp _, _, u, v => (u : Int) = v ∨ ((v : Int) = fv ∧ Bad)
  | _, _, u, v => u = v

omit [DecidableEq R] in
theorem flagRel_refl (fv : Int) (Bad : Prop) (a : CArr) (i : Int) (v : CTy R a) : flagRel fv Bad a i v v := by
  cases a <;> simp [flagRel]

omit [DecidableEq R] in
theorem flagRel_trans (fv : Int) (Bad : Prop) (a : CArr) (i : Int) (u v w : CTy R a)
    (h1 : flagRel fv Bad a i u v) (h2 : flagRel fv Bad a i v w) : flagRel fv Bad a i u w := by
  cases a with
  | itmp k =>
    rcases h2 with h2 | h2
    · rcases h1 with h1 | h1
      · exact Or.inl (h1.trans h2)
      · exact Or.inr ⟨by rw [← h2]; exact h1.1, h1.2⟩
    · exact Or.inr h2
  | _ => exact Eq.trans h1 h2

/-- The shared cell. -/
def IsFlag (a : CArr) (i : Int) : Prop := a = .itmp 0 ∧ i = 0

omit [DecidableEq R] in
/-- Read the flag: its value has not moved, or is `fv`. -/
theorem wps_readFlag {sz : CArr → Int} {W Rd : CArr → Int → Prop} {fv : Int} {Bad : Prop} {m : Mem (CTy R)}
    {Q : Int → Mem (CTy R) → Prop} {u : Int} (hm : m (.itmp 0) 0 = some u)
    (hQ : ∀ v : Int, (u = v ∨ (v = fv ∧ Bad)) → Q v (m.set (.itmp 0) 0 v)) :
    wps sz W Rd IsFlag (flagRel fv Bad) (Prog.read (ty := CTy R) (.itmp 0) 0) m Q :=
  Or.inr ⟨⟨rfl, rfl⟩, u, hm, fun v hv => hQ v hv⟩

omit [DecidableEq R] in
/-- Set the flag. -/
theorem wps_writeFlag {sz : CArr → Int} {W Rd : CArr → Int → Prop} {fv : Int} {Bad : Prop} {m : Mem (CTy R)}
    {Q : Unit → Mem (CTy R) → Prop} {u : Int} (hm : m (.itmp 0) 0 = some u) (hsz : 1 ≤ sz (.itmp 0)) (hb : Bad)
    (hQ : Q () (m.set (.itmp 0) 0 fv)) :
    wps sz W Rd IsFlag (flagRel fv Bad) (Prog.write (ty := CTy R) (.itmp 0) 0 fv) m Q :=
  ⟨by omega, by omega, Or.inr ⟨⟨rfl, rfl⟩, u, hm, fun _ _ => Or.inr ⟨rfl, hb⟩, hQ⟩⟩

/-- A thread that scans rows, sets the flag at a bad row and stops when it sees the flag set. -/
def scanRows (fv : Int) (part : Prog (CTy R) (Int × Int)) (off : Int) (body : Int → Prog (CTy R) Unit) :
    Prog (CTy R) Unit := do
  let be ← part
  let _ ← Prog.forUp (ty := CTy R) (be.1 + off) (be.2 + off) false fun i stop =>
    if stop then pure true else do
      body i
      let f ← Prog.read (ty := CTy R) (.itmp 0) 0
      pure (decide ((f : Int) = fv))
  pure ()

/-- Memory `m` is `m0` except that the flag may have been moved to `fv`. -/
def FlagMem (m0 : Mem (CTy R)) (fv : Int) (m : Mem (CTy R)) : Prop :=
  ∃ u : Int, m (.itmp 0) 0 = some u ∧ (m0 (.itmp 0) 0 = some u ∨ u = fv) ∧
    ∀ a i, ¬ IsFlag a i → m a i = m0 a i

omit [DecidableEq R] in
theorem FlagMem.set {m0 m : Mem (CTy R)} {fv v u : Int} (h : FlagMem m0 fv m) (hu : m (.itmp 0) 0 = some u)
    (hv : u = v ∨ v = fv) : FlagMem m0 fv (m.set (.itmp 0) 0 v) := by
  obtain ⟨w, h1, h2, h3⟩ := h
  rw [hu] at h1; cases h1
  refine ⟨v, by simp, ?_, ?_⟩
  · rcases hv with rfl | rfl
    · exact h2
    · exact Or.inr rfl
  · intro a i ha
    rcases Mem.set_cases m (.itmp 0) 0 v a i with ⟨rfl, rfl⟩ | h
    · exact absurd ⟨rfl, rfl⟩ ha
    · rw [h]; exact h3 a i ha

omit [DecidableEq R] in
/-- Rule for scanning teams: the final flag is `fv` exactly if some row is bad. -/
theorem scan_rule {sz : CArr → Int} {T : Nat} {n off : Int} {Rng : Nat → Int × Int → Prop} (hpr : PartRng T n Rng)
    {part : Nat → Prog (CTy R) (Int × Int)} {body : Int → Prog (CTy R) Unit} {m0 : Mem (CTy R)} {f0 fv : Int}
    {BadRow : Int → Prop} {Post : (Nat → Unit) → Mem (CTy R) → Prop} (htol : Races.tol (CArr.itmp 0) 0) (hf0 : m0 (.itmp 0) 0 = some f0) (hne : f0 ≠ fv)
    (hpart : ∀ t, t < T → wp sz (fun _ _ => False) (fun a i => ¬ IsFlag a i) (part t) m0 (fun x m => Rng t x ∧ m = m0))
    (hbody : ∀ r m, 0 ≤ r → r < n → FlagMem m0 fv m →
      wps sz (fun _ _ => False) (fun a i => ¬ IsFlag a i) IsFlag (flagRel fv (∃ r, 0 ≤ r ∧ r < n ∧ BadRow r))
        (body (r + off)) m (fun _ m' => FlagMem m0 fv m' ∧ (m (.itmp 0) 0 = some fv → m' (.itmp 0) 0 = some fv) ∧
          (BadRow r → m' (.itmp 0) 0 = some fv)))
    (hpost : ∀ u m, (∀ a i, ¬ IsFlag a i → m a i = m0 a i) →
      (∃ v, m (.itmp 0) 0 = some v ∧ (v = fv ↔ ∃ r, 0 ≤ r ∧ r < n ∧ BadRow r) ∧ (v = f0 ∨ v = fv)) → Post u m) :
    ParOk sz T Post (fun t => scanRows fv (part t) off body) m0 := by
  refine shared_rule (W := fun _ _ _ => False) (R := fun _ a i => ¬ IsFlag a i) (S := IsFlag)
    (rel := flagRel fv (∃ r, 0 ≤ r ∧ r < n ∧ BadRow r))
    (Q := fun t _ m => m (.itmp 0) 0 = some fv ∨
      ∃ x, Rng t x ∧ ∀ r, x.1 ≤ r → r < x.2 → ¬ BadRow r)
    (flagRel_refl _ _) (flagRel_trans _ _) ?_ ?_ ?_ ?_ ?_ ?_ (by rintro a i ⟨rfl, rfl⟩; exact htol)
    (fun _ _ _ _ h => h.elim)
  · intro _ _ _ _ _ _ _ h; exact h.elim
  · intro _ _ _ _ h; exact h.elim
  · intro _ _ _ _ h; exact h
  · rintro a i ⟨rfl, rfl⟩; exact ⟨f0, hf0⟩
  · intro t ht
    unfold scanRows
    refine wps_bind (wps_of_wp (wp_mono (hpart t ht) ?_))
    rintro x m ⟨hx, rfl⟩
    have hrg := hpr.range t x ht hx
    refine wps_bind (wps_forUp (I := fun i stop mm => FlagMem m fv mm ∧
      (stop = true → mm (.itmp 0) 0 = some fv) ∧
      (stop = false → ∀ r, x.1 ≤ r → r + off < i → ¬ BadRow r)) ?_ ?_ ?_)
    · exact ⟨⟨f0, hf0, Or.inl hf0, fun _ _ _ => rfl⟩, by simp, fun _ r h1 h2 => by omega⟩
    · rintro i stop mm h1 h2 ⟨i1, i2, i3⟩
      cases stop with
      | true =>
        simp only [if_true]
        exact wps_pure ⟨i1, i2, by simp⟩
      | false =>
        simp only [Bool.false_eq_true, if_false]
        have hb := hbody (i - off) mm (by omega) (by omega) i1
        rw [Int.sub_add_cancel] at hb
        refine wps_bind (wps_mono hb ?_)
        rintro _ m1 ⟨q1, q2, q3⟩
        obtain ⟨u, hu, -, -⟩ := id q1
        refine wps_bind (wps_readFlag hu ?_)
        intro v hv
        have hfm : FlagMem m fv (m1.set (.itmp 0) 0 v) := q1.set hu (by
          rcases hv with h | h; exacts [Or.inl h, Or.inr h.1])
        refine wps_pure ⟨hfm, ?_, ?_⟩
        · intro hd
          simp only [decide_eq_true_eq] at hd
          simp [hd]
        · intro hd r g1 g2
          simp only [decide_eq_false_iff_not] at hd
          by_cases hlt : r + off < i
          · exact i3 rfl r g1 hlt
          · have : r = i - off := by omega
            subst this
            intro hbad
            have := q3 hbad
            rw [hu] at this
            simp only [Option.some.injEq] at this
            subst this
            rcases hv with h | h
            · exact hd h.symm
            · exact hd h.1
    · rintro stop mm ⟨i1, i2, i3⟩
      refine wps_pure ?_
      cases stop with
      | true => exact Or.inl (i2 rfl)
      | false => exact Or.inr ⟨x, hx, fun r h1 h2 => i3 rfl r h1 (by omega)⟩
  · intro u m hq hS hf
    obtain ⟨v0, v, e1, e2, hrel⟩ := hS (.itmp 0) 0 ⟨rfl, rfl⟩
    rw [hf0] at e1; cases e1
    have hrel : f0 = v ∨ (v = fv ∧ ∃ r, 0 ≤ r ∧ r < n ∧ BadRow r) := hrel
    refine hpost u m (fun a i ha => hf a i ha (by intro _ _ h; exact h)) ⟨v, e2, ⟨?_, ?_⟩, ?_⟩
    · intro hv
      rcases hrel with h | h
      · exact absurd (h.trans hv) hne
      · exact h.2
    · rintro ⟨r, h0, h1, hbad⟩
      by_contra hv
      have hsel : ∀ t, t < T → ∃ x, Rng t x ∧ ∀ r, x.1 ≤ r → r < x.2 → ¬ BadRow r := by
        intro t ht
        obtain ⟨mt, h2, h3, h4⟩ := hq t ht
        rcases h2 with h2 | h2
        · obtain ⟨w, w', d1, d2, d3⟩ := h4 (.itmp 0) 0 ⟨rfl, rfl⟩
          rw [h2] at d1; cases d1
          rw [e2] at d2; cases d2
          have d3 : fv = v ∨ (v = fv ∧ _) := d3
          rcases d3 with d3 | d3
          · exact absurd d3.symm hv
          · exact absurd d3.1 hv
        · exact h2
      classical
      have : ∃ sel : Nat → Int × Int, ∀ t, t < T → Rng t (sel t) ∧ ∀ r, (sel t).1 ≤ r → r < (sel t).2 → ¬ BadRow r := by
        refine ⟨fun t => if ht : t < T then (hsel t ht).choose else (0, 0), ?_⟩
        intro t ht
        simp only [ht, dif_pos]
        exact (hsel t ht).choose_spec
      obtain ⟨sel, hs⟩ := this
      obtain ⟨t, ht, g1, g2⟩ := hpr.cover sel (fun t ht => (hs t ht).1) r h0 h1
      exact (hs t ht).2 r g1 g2 hbad
    · rcases hrel with h | h
      · exact Or.inl h.symm
      · exact Or.inr h.1

/-! ### hasZeroDiag -/

section
variable [Zero R]

/-- CSR.cpp:261-270 for one row: search a nonzero diagonal entry, set the flag if there is none. The row pointers are
not shifted by the base in this function. -/
def zeroDiagRow (k : Nat) (i : Int) : Prog (CTy R) Unit := do
  let lo ← Prog.read (ty := CTy R) (.rowptr k) i
  let hi ← Prog.read (ty := CTy R) (.rowptr k) (i + 1)
  let d ← Prog.forUp (ty := CTy R) (lo : Int) (hi : Int) false fun j d =>
    if d then pure true else do
      let c ← Prog.read (ty := CTy R) (.colidx k) j
      if (c : Int) = i then do
        let v ← Prog.read (ty := CTy R) (.values k) j
        pure (decide (v ≠ 0))
      else pure false
  if d then pure () else Prog.write (ty := CTy R) (.itmp 0) 0 (1 : Int)

/-- CSR::hasZeroDiag (CSR.cpp:248-274) by a team of `T`; returns the flag. -/
def hasZeroDiag (sz : CArr → Int) (T k m : Nat) : Script (CTy R) Bool :=
  .seq sz (do
    let base ← Prog.read (ty := CTy R) (.rowptr k) 0
    Prog.write (ty := CTy R) (.itmp 0) 0 (0 : Int)
    pure (base : Int)) fun base =>
  .phase sz T (fun t => scanRows 1
    (loadBalanced (fun i => Prog.read (ty := CTy R) (.rowptr k) (i + base)) T t m) base (zeroDiagRow k)) fun _ =>
  .seq sz (Prog.read (ty := CTy R) (.itmp 0) 0) fun f => .done (decide ((f : Int) = 1))

theorem zeroDiagRow_ok {sz : CArr → Int} {k : Nat} {A : Csr R} {m0 m : Mem (CTy R)} {Bad : Prop} {r : Nat}
    (hwf : A.WF) (hp : HoldsPat m0 k 0 A) (hv : HoldsVal m0 k A) (hr : r < A.m) (hsz : 1 ≤ sz (.itmp 0))
    (hfm : FlagMem m0 1 m) (hbad : (¬ ∃ j, A.InRow r j ∧ A.col j = r ∧ A.val j ≠ 0) → Bad) :
    wps sz (fun _ _ => False) (fun a i => ¬ IsFlag a i) IsFlag (flagRel 1 Bad) (zeroDiagRow k r) m
      (fun _ m' => FlagMem m0 1 m' ∧ (m (.itmp 0) 0 = some 1 → m' (.itmp 0) 0 = some 1) ∧
        ((¬ ∃ j, A.InRow r j ∧ A.col j = r ∧ A.val j ≠ 0) → m' (.itmp 0) 0 = some 1)) := by
  obtain ⟨u, hu, -, hoth⟩ := id hfm
  have hmono := hwf.ptr_step r hr
  have nf : ∀ a i, (∀ k, a ≠ .itmp k) → ¬ IsFlag a i := fun a i h hf => h 0 hf.1
  have hrp : ∀ i : Nat, i ≤ A.m → m (.rowptr k) (i : Int) = some (A.ptr i : Int) := by
    intro i hi
    rw [hoth _ _ (nf _ _ (by simp)), hp.rowptr i hi]; simp
  have hci : ∀ j : Nat, j < A.nnz → m (.colidx k) (j : Int) = some (A.col j : Int) := by
    intro j hj
    rw [hoth _ _ (nf _ _ (by simp)), hp.colidx j hj]; simp
  have hva : ∀ j : Nat, j < A.nnz → m (.values k) (j : Int) = some (A.val j) := by
    intro j hj
    rw [hoth _ _ (nf _ _ (by simp)), hv j hj]
  unfold zeroDiagRow
  refine wps_bind (wps_of_wp ?_)
  rw [wp_read]
  refine ⟨nf _ _ (by simp), _, hrp r (by omega), ?_⟩
  refine wps_bind (wps_of_wp ?_)
  rw [wp_read]
  refine ⟨nf _ _ (by simp), _, by have := hrp (r + 1) (by omega); push_cast at this; exact this, ?_⟩
  refine wps_bind (wps_of_wp ?_)
  refine wp_forUp (I := fun i d mm => mm = m ∧ ∃ j : Nat, i = (j : Int) ∧ A.ptr r ≤ j ∧ j ≤ A.ptr (r + 1) ∧
    (d = true ↔ ∃ l, A.ptr r ≤ l ∧ l < j ∧ A.col l = r ∧ A.val l ≠ 0)) ?_ ?_ ?_
  · exact ⟨rfl, A.ptr r, rfl, Nat.le_refl _, hmono, by simp; intro l h1 h2; omega⟩
  · rintro i d mm h1 h2 ⟨rfl, j, rfl, h3, h4, h5⟩
    have hin : A.InRow r j := ⟨hr, h3, by omega⟩
    have hj := hin.lt_nnz hwf
    cases d with
    | true =>
      simp only [if_true, wp_pure]
      obtain ⟨l, g1, g2, g3⟩ := h5.1 rfl
      exact ⟨trivial, j + 1, by push_cast; rfl, by omega, by omega, by simp; exact ⟨l, g1, by omega, g3⟩⟩
    | false =>
      have hno : ¬ ∃ l, A.ptr r ≤ l ∧ l < j ∧ A.col l = r ∧ A.val l ≠ 0 := fun h => by simpa using h5.2 h
      have hnext : ∀ d : Bool, (d = true ↔ A.col j = r ∧ A.val j ≠ 0) →
          (d = true ↔ ∃ l, A.ptr r ≤ l ∧ l < j + 1 ∧ A.col l = r ∧ A.val l ≠ 0) := by
        intro d hd
        rw [hd]
        constructor
        · rintro ⟨g1, g2⟩; exact ⟨j, h3, by omega, g1, g2⟩
        · rintro ⟨l, g1, g2, g3⟩
          by_cases hl : l = j
          · subst hl; exact g3
          · exact absurd ⟨l, g1, by omega, g3⟩ hno
      simp only [Bool.false_eq_true, if_false, wp_bind, wp_read]
      refine ⟨nf _ _ (by simp), _, hci j hj, ?_⟩
      rw [wp_ite]
      refine ⟨?_, ?_⟩
      · intro hc
        simp only [wp_bind, wp_read, wp_pure]
        refine ⟨nf _ _ (by simp), _, hva j hj, trivial, j + 1, by push_cast; rfl, by omega, by omega, hnext _ ?_⟩
        have hc : (A.col j : Int) = r := hc
        have : A.col j = r := by omega
        simp [this]
      · intro hc
        rw [wp_pure]
        refine ⟨rfl, j + 1, by push_cast; rfl, by omega, by omega, hnext _ ?_⟩
        have hc : ¬ (A.col j : Int) = r := hc
        have : A.col j ≠ r := by omega
        simp [this]
  · rintro d mm ⟨rfl, j, h1, h2, h3, h4⟩
    have : j = A.ptr (r + 1) := by omega
    subst this
    have hiff : d = true ↔ ∃ j, A.InRow r j ∧ A.col j = r ∧ A.val j ≠ 0 := by
      rw [h4]
      constructor
      · rintro ⟨l, g1, g2, g3⟩; exact ⟨l, ⟨hr, g1, g2⟩, g3⟩
      · rintro ⟨l, ⟨_, g1, g2⟩, g3⟩; exact ⟨l, g1, g2, g3⟩
    cases d with
    | true =>
      simp only [if_true]
      exact wps_pure ⟨hfm, id, fun h => absurd (hiff.1 rfl) h⟩
    | false =>
      have hno : ¬ ∃ j, A.InRow r j ∧ A.col j = r ∧ A.val j ≠ 0 := fun h => by simpa using hiff.2 h
      simp only [Bool.false_eq_true, if_false]
      refine wps_writeFlag hu hsz (hbad hno) ⟨hfm.set hu (Or.inr rfl), ?_, ?_⟩ <;> simp

/-- Base 0: `hasZeroDiag` answers whether some row lacks a nonzero diagonal entry. -/
theorem hasZeroDiag_ok {sz : CArr → Int} {T k : Nat} {A : Csr R} {m0 : Mem (CTy R)} (htol : Races.tol (CArr.itmp 0) 0) (hT : 1 ≤ T)
    (hwf : A.WF) (hp : HoldsPat m0 k 0 A) (hv : HoldsVal m0 k A) (hsz : 1 ≤ sz (.itmp 0)) :
    (hasZeroDiag sz T k A.m).Ok m0 (fun res m' =>
      (res = true ↔ ∃ i, i < A.m ∧ ¬ ∃ j, A.InRow i j ∧ A.col j = i ∧ A.val j ≠ 0) ∧
      ∀ a, a ≠ .itmp 0 → m' a = m0 a) := by
  unfold hasZeroDiag
  refine seq_rule ?_
  simp only [wp_bind, wp_read, wp_write, wp_pure]
  refine ⟨trivial, _, hp.rowptr 0 (by omega), trivial, by omega, by omega, ?_⟩
  rw [hwf.ptr_zero]
  have e0 : ((0 : Nat) : Int) + ((0 : Nat) : Int) = 0 := by omega
  rw [e0]
  have h1oth : ∀ a, a ≠ .itmp 0 → (m0.set (.itmp 0) 0 (0 : Int)) a = m0 a := fun a ha => Mem.set_other _ _ _ _ _ ha
  have hp1 : HoldsPat (m0.set (.itmp 0) 0 (0 : Int)) k 0 A :=
    ⟨fun i hi => by rw [h1oth _ (by simp)]; exact hp.rowptr i hi,
     fun i hi => by rw [h1oth _ (by simp)]; exact hp.colidx i hi⟩
  have hv1 : HoldsVal (m0.set (.itmp 0) 0 (0 : Int)) k A := fun j hj => by rw [h1oth _ (by simp)]; exact hv j hj
  have hfl : (m0.set (.itmp 0) 0 (0 : Int)) (.itmp 0) 0 = some (0 : Int) := by simp
  generalize m0.set (.itmp 0) 0 (0 : Int) = m1 at h1oth hp1 hv1 hfl ⊢
  refine scan_rule (n := A.m) (f0 := 0) (Rng := CutRng (A.iptr 0) T A.m) (lbRng hwf 0 T hT)
    (BadRow := fun r => ∃ i : Nat, r = i ∧ ¬ ∃ j, A.InRow i j ∧ A.col j = i ∧ A.val j ≠ 0) htol hfl (by omega) ?_ ?_ ?_
  · intro t ht
    have := wp_lbPart (sz := sz) (t := t) ht hwf hp1.rowptr
    unfold lbPart at this
    simp only [Int.add_zero]
    exact wp_relax this (fun _ _ h => h) (fun a i h hf => by subst h; cases hf.1)
  · intro r m h0 h1 hfm
    obtain ⟨r, rfl⟩ := Int.eq_ofNat_of_zero_le h0
    rw [Int.add_zero]
    refine wps_mono (zeroDiagRow_ok hwf hp1 hv1 (by omega) hsz hfm ?_) ?_
    · intro h; exact ⟨r, by omega, by omega, r, rfl, h⟩
    · rintro _ m' ⟨q1, q2, q3⟩
      refine ⟨q1, q2, ?_⟩
      rintro ⟨i, hi, h⟩
      have : i = r := by omega
      subst this; exact q3 h
  · rintro _ m hoth ⟨v, hv, hiff, -⟩
    refine seq_rule ?_
    rw [wp_read]
    refine ⟨trivial, v, hv, ?_, ?_⟩
    · rw [decide_eq_true_eq, hiff]
      constructor
      · rintro ⟨r, h0, h1, i, rfl, h⟩; exact ⟨i, by omega, h⟩
      · rintro ⟨i, hi, h⟩; exact ⟨i, by omega, by omega, i, rfl, h⟩
    · intro a ha; funext i; rw [hoth a i (fun h => ha h.1), h1oth a ha]

end

/-! ### isSymmetric -/

/-- `extptr[i]` with `extptr = this->extptr ? this->extptr - base : rowptr + 1` (CSR.cpp:177). -/
def extOf (k base : Nat) (ext : Bool) (i : Int) : Prog (CTy R) Int :=
  if ext then Prog.read (ty := CTy R) (.extptr k) (i - base) else Prog.read (ty := CTy R) (.rowptr k) (i + 1 - base)

/-- CSR.cpp:196-206: look for the first entry of row `c` in column `i`; `none` = no pair, `some b` = pair found, `b` =
the value check passed. -/
def symFind (k base : Nat) (ext chk : Bool) (i j c : Int) : Prog (CTy R) (Option Bool) := do
  let lo ← Prog.read (ty := CTy R) (.rowptr k) (c - base)
  let hi ← extOf k base ext c
  Prog.forUp (ty := CTy R) (lo : Int) hi none fun k' st =>
    match st with
    | some b => pure (some b)
    | none => do
      let c' ← Prog.read (ty := CTy R) (.colidx k) (k' - base)
      if (c' : Int) = i then
        (if chk then do
          let v1 ← Prog.read (ty := CTy R) (.values k) (j - base)
          let v2 ← Prog.read (ty := CTy R) (.values k) (k' - base)
          pure (some (decide ((v1 : R) = v2)))
        else pure (some true))
      else pure none

/-- CSR.cpp:192-211, one row of the parallel version: both writes of the flag store `false`. -/
def symRow (k base m : Nat) (ext chk : Bool) (i : Int) : Prog (CTy R) Unit := do
  let lo ← Prog.read (ty := CTy R) (.rowptr k) (i - base)
  let hi ← extOf k base ext i
  Prog.forUp (ty := CTy R) (lo : Int) hi () fun j _ => do
    let c ← Prog.read (ty := CTy R) (.colidx k) (j - base)
    if (c : Int) ≠ i ∧ (0 : Int) ≤ c ∧ (c : Int) < m then do
      let r ← symFind k base ext chk i j c
      if r = some true then pure () else Prog.write (ty := CTy R) (.itmp 0) 0 (0 : Int)
    else pure ()

/-- CSR.cpp:216-243, the printing version: sequential, stops at the first violation (`none` state = returned false).
The printed text is not modelled. -/
def symSeq (k base m : Nat) (ext chk : Bool) : Prog (CTy R) Bool :=
  Prog.forUp (ty := CTy R) base ((m : Int) + base) true fun i ok =>
    if ok then do
      let lo ← Prog.read (ty := CTy R) (.rowptr k) (i - base)
      let hi ← extOf k base ext i
      Prog.forUp (ty := CTy R) (lo : Int) hi true fun j ok =>
        if ok then do
          let c ← Prog.read (ty := CTy R) (.colidx k) (j - base)
          if (c : Int) ≠ i ∧ (0 : Int) ≤ c ∧ (c : Int) < m then do
            let r ← symFind k base ext chk i j c
            pure (decide (r = some true))
          else pure true
        else pure false
    else pure false

/-- CSR::isSymmetric(checkValues, printFirstNonSymmetry) (CSR.cpp:165-246) by a team of `T`. -/
def isSymmetric (sz : CArr → Int) (T k m n : Nat) (ext chk print : Bool) : Script (CTy R) Bool :=
  if m ≠ n ∧ ext = false then .done false
  else
    .seq sz (Prog.read (ty := CTy R) (.rowptr k) 0) fun (base : Int) =>
    if print then
      .seq sz (symSeq k base.toNat m ext chk) fun b => .done b
    else
      .seq sz (Prog.write (ty := CTy R) (.itmp 0) 0 (1 : Int)) fun _ =>
      .phase sz T (fun t => scanRows 0 (pure (simpleBegin T t m, simpleEnd T t m)) base
        (symRow k base.toNat m ext chk)) fun _ =>
      .seq sz (Prog.read (ty := CTy R) (.itmp 0) 0) fun f => .done (decide ((f : Int) ≠ 0))

/-- What the code checks of entry `j` of row `i`: its mirror row has a local entry in column `i`, the first one with
the same value. -/
def PairOk (A : Csr R) (ep : Nat → Nat) (base : Nat) (chk : Bool) (i j : Nat) : Prop :=
  A.col j ≠ i → A.col j + base < A.m → ∃ l, A.ptr (A.col j) ≤ l ∧ l < ep (A.col j) ∧ A.col l = i ∧
    (∀ l', A.ptr (A.col j) ≤ l' → l' < l → A.col l' ≠ i) ∧ (chk = true → A.val j = A.val l)

/-- The stored end of the local part of each row. -/
def HoldsExt (mem : Mem (CTy R)) (k base : Nat) (A : Csr R) (ext : Bool) (ep : Nat → Nat) : Prop :=
  (ext = true → ∀ i : Nat, i < A.m → mem (.extptr k) (i : Int) = some ((ep i : Int) + base)) ∧
  (ext = false → ∀ i, i < A.m → ep i = A.ptr (i + 1)) ∧ ∀ i, i < A.m → A.ptr i ≤ ep i ∧ ep i ≤ A.ptr (i + 1)

section
variable {sz : CArr → Int} {W Rd : CArr → Int → Prop} {k base : Nat} {A : Csr R} {ep : Nat → Nat} {ext chk : Bool}
  {m : Mem (CTy R)}

omit [DecidableEq R] in
theorem wp_extOf (hp : HoldsPat m k base A) (he : HoldsExt m k base A ext ep)
    (hR : ∀ a i, ¬ IsFlag a i → Rd a i) {r : Nat} (hr : r < A.m) {Q : Int → Mem (CTy R) → Prop}
    (hQ : Q ((ep r : Int) + base) m) : wp sz W Rd (extOf k base ext ((r : Int) + base)) m Q := by
  unfold extOf
  cases ext with
  | true =>
    simp only [if_true, wp_read]
    refine ⟨hR _ _ (by simp [IsFlag]), _, ?_, hQ⟩
    rw [← he.1 rfl r hr]; congr 1; omega
  | false =>
    simp only [Bool.false_eq_true, if_false, wp_read]
    refine ⟨hR _ _ (by simp [IsFlag]), _, ?_, hQ⟩
    rw [he.2.1 rfl r hr, ← hp.rowptr (r + 1) (by omega)]; congr 1; push_cast; omega

theorem wp_symFind (hwf : A.WF) (hp : HoldsPat m k base A) (hv : chk = true → HoldsVal m k A)
    (he : HoldsExt m k base A ext ep) (hR : ∀ a i, ¬ IsFlag a i → Rd a i) {i j c : Nat} (hc : c < A.m) (hj : j < A.nnz)
    {Q : Option Bool → Mem (CTy R) → Prop}
    (hQ : ∀ r, (r = some true ↔ ∃ l, A.ptr c ≤ l ∧ l < ep c ∧ A.col l = i ∧
        (∀ l', A.ptr c ≤ l' → l' < l → A.col l' ≠ i) ∧ (chk = true → A.val j = A.val l)) → Q r m) :
    wp sz W Rd (symFind k base ext chk ((i : Int) + base) ((j : Int) + base) ((c : Int) + base)) m Q := by
  unfold symFind
  simp only [wp_bind, wp_read]
  refine ⟨hR _ _ (by simp [IsFlag]), _, by rw [← hp.rowptr c (by omega)]; congr 1; omega, ?_⟩
  refine wp_extOf hp he hR hc ?_
  have hec := he.2.2 c hc
  refine wp_forUp (I := fun p st mm => mm = m ∧ ∃ l : Nat, p = (l : Int) + base ∧ A.ptr c ≤ l ∧ l ≤ ep c ∧
    ((st = none ∧ ∀ l', A.ptr c ≤ l' → l' < l → A.col l' ≠ i) ∨
     ∃ q b, st = some b ∧ A.ptr c ≤ q ∧ q < l ∧ A.col q = i ∧ (∀ l', A.ptr c ≤ l' → l' < q → A.col l' ≠ i) ∧
       (b = true ↔ (chk = true → A.val j = A.val q)))) ?_ ?_ ?_
  · exact ⟨rfl, A.ptr c, rfl, Nat.le_refl _, hec.1, Or.inl ⟨rfl, fun l' _ _ => by omega⟩⟩
  · rintro p st mm h1 h2 ⟨rfl, l, rfl, h3, h4, h5⟩
    have hl : A.InRow c l := ⟨hc, h3, by omega⟩
    have hln := hl.lt_nnz hwf
    rcases h5 with ⟨rfl, h5⟩ | ⟨q, b, rfl, g1, g2, g3, g4, g5⟩
    · have hrd : ∀ q : Nat, (q : Int) + base - base = q := by intro q; omega
      simp only [wp_bind, wp_read]
      refine ⟨hR _ _ (by simp [IsFlag]), _, by rw [hrd]; exact hp.colidx l hln, ?_⟩
      rw [wp_ite]
      refine ⟨?_, ?_⟩
      · intro hcl
        have hcl : (A.col l : Int) + base = (i : Int) + base := hcl
        have hcl : A.col l = i := by omega
        cases chk with
        | true =>
          simp only [if_true, wp_bind, wp_read, wp_pure]
          refine ⟨hR _ _ (by simp [IsFlag]), _, by rw [hrd]; exact hv rfl j hj, hR _ _ (by simp [IsFlag]), _,
            by rw [hrd]; exact hv rfl l hln, trivial, l + 1, by push_cast; omega, by omega, by omega, Or.inr
            ⟨l, _, rfl, h3, by omega, hcl, h5, by simp⟩⟩
        | false =>
          simp only [Bool.false_eq_true, if_false, wp_pure]
          exact ⟨trivial, l + 1, by push_cast; omega, by omega, by omega, Or.inr
            ⟨l, _, rfl, h3, by omega, hcl, h5, by simp⟩⟩
      · intro hcl
        have hcl : ¬ (A.col l : Int) + base = (i : Int) + base := hcl
        rw [wp_pure]
        refine ⟨rfl, l + 1, by push_cast; omega, by omega, by omega, Or.inl ⟨rfl, ?_⟩⟩
        intro l' d1 d2
        by_cases hl' : l' = l
        · subst hl'; omega
        · exact h5 l' d1 (by omega)
    · show wp sz W Rd (pure (some b)) mm _
      rw [wp_pure]
      exact ⟨rfl, l + 1, by push_cast; omega, by omega, by omega, Or.inr ⟨q, b, rfl, g1, by omega, g3, g4, g5⟩⟩
  · rintro st mm ⟨rfl, l, h1, h2, h3, h4⟩
    have : l = ep c := by omega
    subst this
    refine hQ st ?_
    rcases h4 with ⟨rfl, h4⟩ | ⟨q, b, rfl, g1, g2, g3, g4, g5⟩
    · constructor
      · intro h; cases h
      · rintro ⟨l, d1, d2, d3, _⟩; exact absurd d3 (h4 l d1 d2)
    · constructor
      · intro h
        simp only [Option.some.injEq] at h
        exact ⟨q, g1, g2, g3, g4, g5.1 h⟩
      · rintro ⟨l, d1, d2, d3, d4, d5⟩
        have : l = q := by
          rcases Nat.lt_trichotomy l q with h | h | h
          · exact absurd d3 (g4 l d1 h)
          · exact h
          · exact absurd g3 (d4 q g1 h)
        subst this
        rw [g5.2 d5]

theorem symRow_ok {Bad : Prop} {m0 : Mem (CTy R)} (hwf : A.WF) (hp : HoldsPat m0 k base A)
    (hv : chk = true → HoldsVal m0 k A) (he : HoldsExt m0 k base A ext ep) {r : Nat} (hr : r < A.m)
    (hsz : 1 ≤ sz (.itmp 0)) (hfm : FlagMem m0 0 m)
    (hbad : (¬ ∀ j, A.ptr r ≤ j → j < ep r → PairOk A ep base chk r j) → Bad) :
    wps sz (fun _ _ => False) (fun a i => ¬ IsFlag a i) IsFlag (flagRel 0 Bad)
      (symRow k base A.m ext chk ((r : Int) + base)) m
      (fun _ m' => FlagMem m0 0 m' ∧ (m (.itmp 0) 0 = some 0 → m' (.itmp 0) 0 = some 0) ∧
        ((¬ ∀ j, A.ptr r ≤ j → j < ep r → PairOk A ep base chk r j) → m' (.itmp 0) 0 = some 0)) := by
  have hold : ∀ m, FlagMem m0 0 m → HoldsPat m k base A ∧ (chk = true → HoldsVal m k A) ∧ HoldsExt m k base A ext ep := by
    rintro m ⟨u, hu, -, hoth⟩
    refine ⟨⟨?_, ?_⟩, ?_, ?_, he.2⟩
    · intro i hi; rw [hoth _ _ (by simp [IsFlag])]; exact hp.rowptr i hi
    · intro i hi; rw [hoth _ _ (by simp [IsFlag])]; exact hp.colidx i hi
    · intro h i hi; rw [hoth _ _ (by simp [IsFlag])]; exact hv h i hi
    · intro h i hi; rw [hoth _ _ (by simp [IsFlag])]; exact he.1 h i hi
  have her := he.2.2 r hr
  obtain ⟨hp', hv', he'⟩ := hold m hfm
  unfold symRow
  refine wps_bind (wps_of_wp ?_)
  rw [wp_read]
  refine ⟨by simp [IsFlag], _, by rw [← hp'.rowptr r (by omega)]; congr 1; omega, ?_⟩
  refine wps_bind (wps_of_wp (wp_extOf hp' he' (fun _ _ h => h) hr ?_))
  refine wps_forUp (I := fun p _ mm => FlagMem m0 0 mm ∧ (m (.itmp 0) 0 = some 0 → mm (.itmp 0) 0 = some 0) ∧
    ∃ l : Nat, p = (l : Int) + base ∧ A.ptr r ≤ l ∧ l ≤ ep r ∧
    ((¬ ∀ j, A.ptr r ≤ j → j < l → PairOk A ep base chk r j) → mm (.itmp 0) 0 = some 0)) ?_ ?_ ?_
  · refine ⟨hfm, id, A.ptr r, rfl, Nat.le_refl _, her.1, ?_⟩
    intro h; exact absurd (fun j _ _ => by omega) h
  · rintro p _ mm h1 h2 ⟨i1, i2, l, rfl, h3, h4, h5⟩
    obtain ⟨hp1, hv1, he1⟩ := hold mm i1
    obtain ⟨u, hu, -, -⟩ := id i1
    have hl : A.InRow r l := ⟨hr, h3, by omega⟩
    have hln := hl.lt_nnz hwf
    refine wps_bind (wps_of_wp ?_)
    rw [wp_read]
    refine ⟨by simp [IsFlag], _, by rw [← hp1.colidx l hln]; congr 1; omega, ?_⟩
    have hext : PairOk A ep base chk r l → (¬ ∀ j, A.ptr r ≤ j → j < l + 1 → PairOk A ep base chk r j) →
        mm (.itmp 0) 0 = some 0 := by
      intro hok hn
      refine h5 (fun h => hn ?_)
      intro j d1 d2
      by_cases hjl : j = l
      · subst hjl; exact hok
      · exact h j d1 (by omega)
    by_cases hcond : ((A.col l : Int) + base ≠ (r : Int) + base ∧ 0 ≤ (A.col l : Int) + base ∧
        (A.col l : Int) + base < A.m)
    · rw [if_pos hcond]
      refine wps_bind (wps_of_wp (wp_symFind hwf hp1 hv1 he1 (fun _ _ h => h) (by omega) hln ?_))
      intro st hst
      by_cases hs : st = some true
      · rw [if_pos hs]
        refine wps_pure ⟨i1, i2, l + 1, by push_cast; omega, by omega, by omega, hext ?_⟩
        intro _ _; exact hst.1 hs
      · rw [if_neg hs]
        have hnot : ¬ PairOk A ep base chk r l := by
          intro h; exact hs (hst.2 (h (by omega) (by omega)))
        refine wps_writeFlag hu hsz (hbad (fun h => hnot (h l h3 (by omega)))) ?_
        exact ⟨i1.set hu (Or.inr rfl), by simp, l + 1, by push_cast; omega, by omega, by omega, by simp⟩
    · rw [if_neg hcond]
      refine wps_pure ⟨i1, i2, l + 1, by push_cast; omega, by omega, by omega, hext ?_⟩
      intro d1 d2; exact absurd ⟨by omega, by omega, by omega⟩ hcond
  · rintro _ mm ⟨i1, i2, l, h1, h2, h3, h4⟩
    have : l = ep r := by omega
    subst this
    exact ⟨i1, i2, h4⟩

theorem wp_symSeq (hwf : A.WF) (hp : HoldsPat m k base A)
    (hv : chk = true → HoldsVal m k A) (he : HoldsExt m k base A ext ep) (hR : ∀ a i, ¬ IsFlag a i → Rd a i) :
    wp sz W Rd (symSeq k base A.m ext chk) m (fun b m' => m' = m ∧
      (b = true ↔ ∀ i, i < A.m → ∀ j, A.ptr i ≤ j → j < ep i → PairOk A ep base chk i j)) := by
  unfold symSeq
  refine wp_forUp (I := fun p b mm => mm = m ∧ ∃ r : Nat, p = (r : Int) + base ∧ r ≤ A.m ∧
    (b = true ↔ ∀ i, i < r → ∀ j, A.ptr i ≤ j → j < ep i → PairOk A ep base chk i j)) ?_ ?_ ?_
  · exact ⟨rfl, 0, by omega, by omega, by simp⟩
  · rintro p b mm h1 h2 ⟨rfl, r, rfl, h3, h4⟩
    have hr : r < A.m := by omega
    have her := he.2.2 r hr
    cases b with
    | false =>
      simp only [Bool.false_eq_true, if_false, wp_pure]
      refine ⟨trivial, r + 1, by push_cast; omega, by omega, ?_⟩
      simp only [Bool.false_eq_true, false_iff] at h4 ⊢
      intro h; exact h4 (fun i hi => h i (by omega))
    | true =>
      have h4 := h4.1 rfl
      simp only [if_true, wp_bind, wp_read]
      refine ⟨hR _ _ (by simp [IsFlag]), _, by rw [← hp.rowptr r (by omega)]; congr 1; omega, ?_⟩
      refine wp_extOf hp he hR hr ?_
      refine wp_forUp (I := fun p b m' => m' = mm ∧ ∃ l : Nat, p = (l : Int) + base ∧ A.ptr r ≤ l ∧ l ≤ ep r ∧
        (b = true ↔ ∀ j, A.ptr r ≤ j → j < l → PairOk A ep base chk r j)) ?_ ?_ ?_
      · exact ⟨rfl, A.ptr r, rfl, Nat.le_refl _, her.1, by simp; intro j _ _; omega⟩
      · rintro p b m' g1 g2 ⟨rfl, l, rfl, g3, g4, g5⟩
        have hl : A.InRow r l := ⟨hr, g3, by omega⟩
        have hln := hl.lt_nnz hwf
        have hnext : ∀ b', (b' = true ↔ PairOk A ep base chk r l) → b = true →
            (b' = true ↔ ∀ j, A.ptr r ≤ j → j < l + 1 → PairOk A ep base chk r j) := by
          intro b' hb' hb
          rw [hb']
          constructor
          · intro hok j d1 d2
            by_cases hjl : j = l
            · subst hjl; exact hok
            · exact (g5.1 hb) j d1 (by omega)
          · intro h; exact h l g3 (by omega)
        cases b with
        | false =>
          simp only [Bool.false_eq_true, if_false, wp_pure]
          refine ⟨trivial, l + 1, by push_cast; omega, by omega, by omega, ?_⟩
          simp only [Bool.false_eq_true, false_iff] at g5 ⊢
          intro h; exact g5 (fun j d1 d2 => h j d1 (by omega))
        | true =>
          simp only [if_true, wp_bind, wp_read]
          refine ⟨hR _ _ (by simp [IsFlag]), _, by rw [← hp.colidx l hln]; congr 1; omega, ?_⟩
          by_cases hcond : ((A.col l : Int) + base ≠ (r : Int) + base ∧ 0 ≤ (A.col l : Int) + base ∧
              (A.col l : Int) + base < A.m)
          · rw [if_pos hcond, wp_bind]
            refine wp_symFind hwf hp hv he hR (by omega) hln ?_
            intro st hst
            rw [wp_pure]
            refine ⟨rfl, l + 1, by push_cast; omega, by omega, by omega, hnext _ ?_ rfl⟩
            rw [decide_eq_true_eq]
            constructor
            · intro h _ _; exact hst.1 h
            · intro h; exact hst.2 (h (by omega) (by omega))
          · rw [if_neg hcond, wp_pure]
            refine ⟨rfl, l + 1, by push_cast; omega, by omega, by omega, hnext _ ?_ rfl⟩
            simp only [true_iff]
            intro d1 d2; exact absurd ⟨by omega, by omega, by omega⟩ hcond
      · rintro b m' ⟨rfl, l, g1, g2, g3, g4⟩
        have : l = ep r := by omega
        subst this
        refine ⟨rfl, r + 1, by push_cast; omega, by omega, ?_⟩
        rw [g4]
        constructor
        · intro h i hi
          by_cases hir : i = r
          · subst hir; exact h
          · exact h4 i (by omega)
        · intro h; exact h r (by omega)
  · rintro b mm ⟨rfl, r, h1, h2, h3⟩
    have : r = A.m := by omega
    subst this
    exact ⟨rfl, h3⟩

end

/-- What isSymmetric computes, for any base. -/
theorem isSymmetric_ok {sz : CArr → Int} {T k base : Nat} {A : Csr R} {ep : Nat → Nat} {ext chk print : Bool}
    {m0 : Mem (CTy R)} (htol : Races.tol (CArr.itmp 0) 0) (hT : 1 ≤ T) (hwf : A.WF) (hp : HoldsPat m0 k base A)
    (hv : chk = true → HoldsVal m0 k A) (he : HoldsExt m0 k base A ext ep) (hsz : 1 ≤ sz (.itmp 0)) :
    (isSymmetric sz T k A.m A.n ext chk print).Ok m0 (fun res m' =>
      (res = true ↔ (A.m = A.n ∨ ext = true) ∧ ∀ i, i < A.m → ∀ j, A.ptr i ≤ j → j < ep i → PairOk A ep base chk i j) ∧
      ∀ a, a ≠ .itmp 0 → m' a = m0 a) := by
  unfold isSymmetric
  by_cases hsq : A.m ≠ A.n ∧ ext = false
  · rw [if_pos hsq]
    show _ ∧ _
    refine ⟨?_, fun _ _ => rfl⟩
    simp only [Bool.false_eq_true, false_iff]
    rintro ⟨h | h, _⟩
    · exact hsq.1 h
    · rw [hsq.2] at h; cases h
  · rw [if_neg hsq]
    have hsq' : A.m = A.n ∨ ext = true := by
      by_cases h : A.m = A.n
      · exact Or.inl h
      · right; cases ext with
        | true => rfl
        | false => exact absurd ⟨h, rfl⟩ hsq
    have hptr0 := hp.rowptr 0 (by omega)
    rw [hwf.ptr_zero] at hptr0
    refine seq_rule ?_
    rw [wp_read]
    refine ⟨trivial, ((0 : Nat) : Int) + base, hptr0, ?_⟩
    have e : ((0 : Nat) : Int) + (base : Int) = base := by omega
    rw [e]
    cases print with
    | true =>
      simp only [if_true]
      refine seq_rule ?_
      refine wp_mono (wp_symSeq hwf hp hv he (fun _ _ _ => trivial)) ?_
      rintro b m' ⟨rfl, hb⟩
      exact ⟨by rw [hb]; simp [hsq'], fun _ _ => rfl⟩
    | false =>
      simp only [Bool.false_eq_true, if_false]
      refine seq_rule ?_
      rw [wp_write]
      refine ⟨trivial, by omega, by omega, ?_⟩
      have h1oth : ∀ a, a ≠ .itmp 0 → (m0.set (.itmp 0) 0 (1 : Int)) a = m0 a := fun a ha => Mem.set_other _ _ _ _ _ ha
      have hp1 : HoldsPat (m0.set (.itmp 0) 0 (1 : Int)) k base A :=
        ⟨fun i hi => by rw [h1oth _ (by simp)]; exact hp.rowptr i hi,
         fun i hi => by rw [h1oth _ (by simp)]; exact hp.colidx i hi⟩
      have hv1 : chk = true → HoldsVal (m0.set (.itmp 0) 0 (1 : Int)) k A :=
        fun h j hj => by rw [h1oth _ (by simp)]; exact hv h j hj
      have he1 : HoldsExt (m0.set (.itmp 0) 0 (1 : Int)) k base A ext ep :=
        ⟨fun h j hj => by rw [h1oth _ (by simp)]; exact he.1 h j hj, he.2⟩
      have hfl : (m0.set (.itmp 0) 0 (1 : Int)) (.itmp 0) 0 = some (1 : Int) := by simp
      generalize m0.set (.itmp 0) 0 (1 : Int) = m1 at h1oth hp1 hv1 he1 hfl ⊢
      refine scan_rule (n := A.m) (f0 := 1) (Rng := SimpleRng T A.m) (simpleRng T A.m hT (by omega))
        (BadRow := fun r => ∃ i : Nat, r = i ∧ ¬ ∀ j, A.ptr i ≤ j → j < ep i → PairOk A ep base chk i j) htol hfl (by omega)
        ?_ ?_ ?_
      · intro t ht
        rw [wp_pure]
        exact ⟨rfl, rfl⟩
      · intro r m h0 h1 hfm
        obtain ⟨r, rfl⟩ := Int.eq_ofNat_of_zero_le h0
        refine wps_mono (symRow_ok hwf hp1 hv1 he1 (by omega) hsz hfm ?_) ?_
        · intro h; exact ⟨r, by omega, by omega, r, rfl, h⟩
        · rintro _ m' ⟨q1, q2, q3⟩
          refine ⟨q1, q2, ?_⟩
          rintro ⟨i, hi, h⟩
          have : i = r := by omega
          subst this; exact q3 h
      · rintro _ m hoth ⟨v, hv, hiff, hor⟩
        refine seq_rule ?_
        rw [wp_read]
        refine ⟨trivial, v, hv, ?_, ?_⟩
        · rw [decide_eq_true_eq]
          have hv0 : (v ≠ 0) ↔ ¬ ∃ r, 0 ≤ r ∧ r < (A.m : Int) ∧
              ∃ i : Nat, r = i ∧ ¬ ∀ j, A.ptr i ≤ j → j < ep i → PairOk A ep base chk i j := not_congr hiff
          refine hv0.trans ?_
          constructor
          · intro h
            refine ⟨hsq', ?_⟩
            intro i hi
            by_contra hc
            exact h ⟨i, by omega, by omega, i, rfl, hc⟩
          · rintro ⟨_, h⟩ ⟨r, h0, h1, i, rfl, hc⟩
            exact hc (h i (by omega))
        · intro a ha; funext i; rw [hoth a i (fun h => ha h.1), h1oth a ha]

end SpMP
