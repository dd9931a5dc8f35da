import Verif.RowTeam
import Verif.Spec.Linear
import Mathlib.Tactic.Ring
/-
Sparse matrix times vector and times dense matrix, /repo/SpMV.cpp.
-/

namespace SpMP
open Spec Finset

section
set_option linter.unusedSectionVars false

variable {R : Type} [CommRing R] [DecidableEq R] [Races CArr]

/-- Inner loops of SpMV.cpp:70-131: `for (j = rowptr[i]; j < rowptr[i+1]; ++j) sum = step(sum, values[j]*x[colidx[j]])`,
without the factor `values[j]` for a pattern-only matrix (`pat`). All pointers are shifted by `base` (lines 48-55): the
shift is written in the index. -/
def spmvSum (k base : Nat) (pat : Bool) (x : Nat) (step : R → R → R) (i : Int) (s : R) : Prog (CTy R) R := do
  let lo ← Prog.read (ty := CTy R) (.rowptr k) (i - base)
  let hi ← Prog.read (ty := CTy R) (.rowptr k) (i + 1 - base)
  Prog.forUp (ty := CTy R) (lo : Int) (hi : Int) s fun j s => do
    let v ← (if pat then pure 1 else Prog.read (ty := CTy R) (.values k) (j - base) : Prog (CTy R) R)
    let c ← Prog.read (ty := CTy R) (.colidx k) (j - base)
    let xc ← Prog.read (ty := CTy R) (.vec x) ((c : Int) - base)
    pure (step s (v * xc))

/-- One row of SpMV_ (SpMV.cpp:70-131), all six branches. -/
def spmvRow (k base : Nat) (pat : Bool) (w x y : Nat) (α β γ : R) (i : Int) : Prog (CTy R) Unit :=
  if 1 = α ∧ 0 = β ∧ 0 = γ then do
    let s ← spmvSum k base pat x (· + ·) i 0
    Prog.write (ty := CTy R) (.vec w) (i - base) s
  else if -1 = α ∧ 1 = β ∧ 0 = γ then do
    let s0 ← Prog.read (ty := CTy R) (.vec y) (i - base)
    let s ← spmvSum k base pat x (· - ·) i s0
    Prog.write (ty := CTy R) (.vec w) (i - base) s
  else do
    let s ← spmvSum k base pat x (· + ·) i 0
    let yi ← Prog.read (ty := CTy R) (.vec y) (i - base)
    Prog.write (ty := CTy R) (.vec w) (i - base) (α * s + β * yi + γ)

/-- SpMV_ (SpMV.cpp:34-152) by a team of `T`: `base = rowptr[0]`, load-balanced row ranges, then the rows.
`assert(w != x)` is checked by the caller below. -/
def spmvTeam (sz : CArr → Int) (T k m : Nat) (pat : Bool) (w x y : Nat) (α β γ : R) : Script (CTy R) Unit :=
  .seq sz (Prog.read (ty := CTy R) (.rowptr k) 0) fun (base : Int) =>
  .phase sz T (fun t => rowsOf (lbPart k m T t) base (spmvRow k base.toNat pat w x y α β γ)) fun _ => .done ()

/-- CSR::multiplyWithVector (SpMV.cpp:154-176) with `w`, `x`, `y` naming vectors that may coincide. If `w == x` the
first `m` elements of `x` are copied to the temporary vector `tmp` first. -/
def multiplyWithVector (sz : CArr → Int) (T k m : Nat) (pat : Bool) (w x y tmp : Nat) (α β γ : R) :
    Script (CTy R) Unit :=
  if w = x then
    .phase sz m (fun i => do
      let v ← Prog.read (ty := CTy R) (.vec x) i
      Prog.write (ty := CTy R) (.vec tmp) i v) fun _ =>
    spmvTeam sz T k m pat w tmp y α β γ
  else spmvTeam sz T k m pat w x y α β γ

/-- The matrix a pattern-only object stands for. -/
def _root_.SpMP.Spec.Csr.eff (A : Csr R) (pat : Bool) : Csr R := if pat then A.ones else A

theorem wp_spmvSum {sz : CArr → Int} {W Rd : CArr → Int → Prop} {m0 : Mem (CTy R)} {k base : Nat} {A : Csr R}
    {pat : Bool} {x : Nat} {xv : Nat → R} {step : R → R → R} {r : Nat} {s : R} {Q : R → Mem (CTy R) → Prop}
    (hwf : A.WF) (hp : HoldsPat m0 k base A) (hv : pat = false → HoldsVal m0 k A)
    (hx : ∀ c : Nat, c < A.n → m0 (.vec x) (c : Int) = some (xv c)) (hr : r < A.m)
    (hR : ∀ a i, a = .rowptr k ∨ a = .values k ∨ a = .colidx k ∨ a = .vec x → Rd a i)
    (I : Nat → R → Prop) (h0 : I (A.ptr r) s)
    (hstep : ∀ j s, A.InRow r j → I j s → I (j + 1) (step s ((A.eff pat).val j * xv (A.col j))))
    (hQ : ∀ s, I (A.ptr (r + 1)) s → Q s m0) :
    wp sz W Rd (spmvSum k base pat x step ((r : Int) + base) s) m0 Q := by
  have hmono := hwf.ptr_step r hr
  unfold spmvSum
  simp only [wp_bind, wp_read]
  refine ⟨hR _ _ (by simp), (A.ptr r : Int) + base, ?_, hR _ _ (by simp), (A.ptr (r + 1) : Int) + base, ?_, ?_⟩
  · rw [← hp.rowptr r (by omega)]; congr 1; omega
  · rw [← hp.rowptr (r + 1) (by omega)]; congr 1; push_cast; omega
  refine wp_forUp (I := fun i s m => m = m0 ∧ ∃ j : Nat, i = (j : Int) + base ∧ A.ptr r ≤ j ∧
    j ≤ A.ptr (r + 1) ∧ I j s) ?_ ?_ ?_
  · exact ⟨rfl, A.ptr r, rfl, Nat.le_refl _, hmono, h0⟩
  · rintro i s m h1 h2 ⟨rfl, j, rfl, h3, h4, h5⟩
    have hin : A.InRow r j := ⟨hr, h3, by omega⟩
    have hj := hin.lt_nnz hwf
    have e : (j : Int) + base - base = j := by omega
    have e2 : ((A.col j : Nat) : Int) + base - base = (A.col j : Nat) := by omega
    have hnext : ∀ v, v = (A.eff pat).val j →
        wp sz W Rd (do
          let c ← Prog.read (ty := CTy R) (.colidx k) ((j : Int) + base - base)
          let xc ← Prog.read (ty := CTy R) (.vec x) ((c : Int) - base)
          pure (step s (v * xc))) m (fun s' m' => m' = m ∧ ∃ j' : Nat, (j : Int) + base + 1 = (j' : Int) + base ∧
            A.ptr r ≤ j' ∧ j' ≤ A.ptr (r + 1) ∧ I j' s') := by
      rintro v rfl
      simp only [wp_bind, wp_read, wp_pure]
      refine ⟨hR _ _ (by simp), _, by rw [e]; exact hp.colidx j hj, hR _ _ (by simp), xv (A.col j), ?_, trivial, j + 1,
        by push_cast; omega, by omega, by omega, hstep j s hin h5⟩
      rw [e2]; exact hx _ (hwf.col_lt j hj)
    cases pat with
    | true =>
      simp only [if_true, wp_bind, wp_pure]
      have := hnext 1 rfl
      simpa only [wp_bind, wp_pure] using this
    | false =>
      have := hnext (A.val j) rfl
      simp only [Bool.false_eq_true, if_false, wp_bind, wp_read] at this ⊢
      exact ⟨hR _ _ (by simp), A.val j, by rw [e]; exact hv rfl j hj, this⟩
  · rintro s m ⟨rfl, j, h1, h2, h3, h4⟩
    have : j = A.ptr (r + 1) := by omega
    subst this; exact hQ s h4

theorem spmvTeam_ok {sz : CArr → Int} {T k base : Nat} {A : Csr R} {pat : Bool} {w x y : Nat} {α β γ : R}
    {m0 : Mem (CTy R)} {xv yv : Nat → R} (hT : 1 ≤ T) (hwx : w ≠ x)
    (hwf : A.WF) (hp : HoldsPat m0 k base A) (hv : pat = false → HoldsVal m0 k A)
    (hx : ∀ c : Nat, c < A.n → m0 (.vec x) (c : Int) = some (xv c))
    (hy : ¬ (α = 1 ∧ β = 0 ∧ γ = 0) → ∀ i : Nat, i < A.m → m0 (.vec y) (i : Int) = some (yv i))
    (hsz : (A.m : Int) ≤ sz (.vec w)) :
    (spmvTeam sz T k A.m pat w x y α β γ).Ok m0 (fun _ m' =>
      (∀ i : Nat, i < A.m → m' (.vec w) (i : Int) = some (α * (A.eff pat).mulVec xv i + β * yv i + γ)) ∧
      (∀ i : Int, ¬ (0 ≤ i ∧ i < A.m) → m' (.vec w) i = m0 (.vec w) i) ∧ ∀ a, a ≠ .vec w → m' a = m0 a) := by
  have hptr0 := hp.rowptr 0 (by omega)
  rw [hwf.ptr_zero] at hptr0
  unfold spmvTeam
  refine seq_rule ?_
  rw [wp_read]
  refine ⟨trivial, ((0 : Nat) : Int) + base, hptr0, ?_⟩
  have e : ((0 : Nat) : Int) + (base : Int) = base := by omega
  rw [e]
  refine rows_rule (lbRng hwf base T hT) (Rp := fun a _ => a = .rowptr k)
    (Wr := fun r a i => a = .vec w ∧ i = r) (Rr := fun r a i => a ≠ .vec w ∨ i = r)
    (Qr := fun r m => ∀ i : Nat, r = i →
      m (.vec w) r = some (α * (A.eff pat).mulVec xv i + β * yv i + γ)) ?_ ?_ ?_ ?_ ?_
  · intro t ht; exact wp_lbPart ht hwf hp.rowptr
  · rintro r a i _ _ ⟨rfl, _⟩ h; cases h
  · rintro r r' a i _ _ _ _ hne ⟨rfl, rfl⟩ h
    rcases h with h | h
    · exact h rfl
    · exact hne h
  · intro t r ht h0 h1
    obtain ⟨r, rfl⟩ := Int.eq_ofNat_of_zero_le h0
    have hr : r < A.m := by omega
    have hmono := hwf.ptr_step r hr
    have hRall : ∀ a i, a = .rowptr k ∨ a = .values k ∨ a = .colidx k ∨ a = .vec x →
        (a ≠ CArr.vec w ∨ i = (r : Int)) := by
      rintro a i (rfl | rfl | rfl | rfl)
      · left; simp
      · left; simp
      · left; simp
      · left; simp; exact fun h => hwx h.symm
    have ei : (r : Int) + base - base = r := by omega
    have hrd : (CArr.vec y ≠ CArr.vec w ∨ (r : Int) + base - base = (r : Int)) := Or.inr ei
    have hsum : ∀ (Q : R → Mem (CTy R) → Prop), Q ((A.eff pat).mulVec xv r) m0 →
        wp sz (fun a i => a = CArr.vec w ∧ i = (r : Int)) (fun a i => a ≠ CArr.vec w ∨ i = (r : Int))
          (spmvSum k base pat x (· + ·) ((r : Int) + base) 0) m0 Q := by
      intro Q hQ
      refine wp_spmvSum hwf hp hv hx hr hRall
        (I := fun j s => A.ptr r ≤ j ∧ s = ∑ l ∈ Ico (A.ptr r) j, (A.eff pat).val l * xv (A.col l)) ?_ ?_ ?_
      · exact ⟨Nat.le_refl _, by simp⟩
      · rintro j s hin ⟨h1, rfl⟩
        exact ⟨by omega, by rw [Finset.sum_Ico_succ_top h1]⟩
      · rintro s ⟨_, rfl⟩
        have : (A.eff pat).mulVec xv r = ∑ l ∈ Ico (A.ptr r) (A.ptr (r + 1)), (A.eff pat).val l * xv (A.col l) := by
          unfold Csr.eff; cases pat <;> rfl
        rw [← this]; exact hQ
    show wp sz _ _ (spmvRow k base pat w x y α β γ ((r : Int) + base)) m0 _
    unfold spmvRow
    rw [wp_ite]
    refine ⟨?_, ?_⟩
    · rintro ⟨rfl, rfl, rfl⟩
      rw [wp_bind]
      refine hsum _ ?_
      simp only [wp_write, ei]
      refine ⟨by simp, by omega, by omega, ?_⟩
      intro i hi
      have : i = r := by omega
      subst this
      simp
    · intro hne
      have hy' := hy (fun h => hne ⟨h.1.symm, h.2.1.symm, h.2.2.symm⟩)
      rw [wp_ite]
      refine ⟨?_, ?_⟩
      · rintro ⟨rfl, rfl, rfl⟩
        simp only [wp_bind, wp_read]
        refine ⟨hrd, yv r, by rw [ei]; exact hy' r hr, ?_⟩
        refine wp_spmvSum hwf hp hv hx hr hRall
          (I := fun j s => A.ptr r ≤ j ∧ s = yv r - ∑ l ∈ Ico (A.ptr r) j, (A.eff pat).val l * xv (A.col l)) ?_ ?_ ?_
        · exact ⟨Nat.le_refl _, by simp⟩
        · rintro j s hin ⟨h1, rfl⟩
          exact ⟨by omega, by rw [Finset.sum_Ico_succ_top h1]; ring⟩
        · rintro s ⟨_, rfl⟩
          simp only [wp_write, ei]
          refine ⟨by simp, by omega, by omega, ?_⟩
          intro i hi
          have : i = r := by omega
          subst this
          have : (A.eff pat).mulVec xv i = ∑ l ∈ Ico (A.ptr i) (A.ptr (i + 1)), (A.eff pat).val l * xv (A.col l) := by
            unfold Csr.eff; cases pat <;> rfl
          rw [this, Mem.set_same, if_pos rfl]
          congr 1; ring
      · intro _
        rw [wp_bind]
        refine hsum _ ?_
        simp only [wp_bind, wp_read, wp_write]
        refine ⟨hrd, yv r, by rw [ei]; exact hy' r hr, ?_⟩
        rw [ei]
        refine ⟨by simp, by omega, by omega, ?_⟩
        intro i hi
        have : i = r := by omega
        subst this
        simp
  · intro u m hq hf
    refine ⟨?_, ?_, ?_⟩
    · intro i hi
      obtain ⟨mt, h1, h2⟩ := hq i (by omega) (by omega)
      rw [h2 _ _ (Or.inr rfl)]
      exact h1 i rfl
    · intro i hi
      refine hf _ _ ?_
      rintro r h0 h1 ⟨_, rfl⟩; exact hi ⟨h0, h1⟩
    · intro a ha; funext i; exact hf a i (by rintro r _ _ ⟨h, _⟩; exact ha h)

/-- CSR::multiplyWithVector, including the aliased calls. -/
theorem multiplyWithVector_ok {sz : CArr → Int} {T k base : Nat} {A : Csr R} {pat : Bool} {w x y tmp : Nat} {α β γ : R}
    {m0 : Mem (CTy R)} {xv yv : Nat → R} (hT : 1 ≤ T) (htmp : tmp ≠ w ∧ tmp ≠ x ∧ tmp ≠ y)
    (halias : w = x → A.n ≤ A.m)
    (hwf : A.WF) (hp : HoldsPat m0 k base A) (hv : pat = false → HoldsVal m0 k A)
    (hx : ∀ c : Nat, c < max A.n (if w = x then A.m else 0) → m0 (.vec x) (c : Int) = some (xv c))
    (hy : ¬ (α = 1 ∧ β = 0 ∧ γ = 0) → ∀ i : Nat, i < A.m → m0 (.vec y) (i : Int) = some (yv i))
    (hsz : (A.m : Int) ≤ sz (.vec w)) (hszt : w = x → (A.m : Int) ≤ sz (.vec tmp)) :
    (multiplyWithVector sz T k A.m pat w x y tmp α β γ).Ok m0 (fun _ m' =>
      (∀ i : Nat, i < A.m → m' (.vec w) (i : Int) = some (α * (A.eff pat).mulVec xv i + β * yv i + γ)) ∧
      (∀ i : Int, ¬ (0 ≤ i ∧ i < A.m) → m' (.vec w) i = m0 (.vec w) i) ∧
      ∀ a, a ≠ .vec w → a ≠ .vec tmp → m' a = m0 a) := by
  unfold multiplyWithVector
  by_cases hwx : w = x
  · subst hwx
    rw [if_pos rfl]
    have hmn := halias rfl
    rw [if_pos rfl] at hx
    refine par_rule
      (W := fun t b i => b = .vec tmp ∧ i = (t : Int))
      (R := fun t b i => (b = .vec tmp ∧ i = (t : Int)) ∨ b = .vec w)
      (Q := fun t _ m' => m' (.vec tmp) (t : Int) = some (xv t)) ?_ ?_ ?_
    · rintro t u b i ht hu htu ⟨rfl, rfl⟩ h
      rcases h with ⟨_, h⟩ | h
      · omega
      · simp at h; exact htmp.1 h
    · intro t ht
      simp only [wp_bind, wp_read, wp_write]
      refine ⟨by simp, xv t, hx t (by omega), by simp, by omega, ?_, ?_⟩
      · have := hszt rfl; omega
      · simp
    · intro _ m1 hq hf
      have hother : ∀ a, a ≠ .vec tmp → m1 a = m0 a := by
        intro a ha; funext i; exact hf a i (by rintro t _ ⟨h, _⟩; exact ha h)
      have hpat : HoldsPat m1 k base A :=
        ⟨fun i hi => by rw [hother _ (by simp)]; exact hp.rowptr i hi,
         fun j hj => by rw [hother _ (by simp)]; exact hp.colidx j hj⟩
      refine Script.Ok.mono (spmvTeam_ok (m0 := m1) (xv := xv) (yv := yv) hT (fun h => htmp.1 h.symm) hwf hpat ?_ ?_ ?_
        hsz) ?_
      · intro h j hj; rw [hother _ (by simp)]; exact hv h j hj
      · intro c hc
        obtain ⟨mt, h1, h2⟩ := hq c (by omega)
        rw [h2 _ _ (Or.inl ⟨rfl, rfl⟩)]; exact h1
      · intro h i hi
        rw [hother _ (by simp; exact fun h => htmp.2.2 h.symm)]; exact hy h i hi
      · rintro _ m2 ⟨h1, h2, h3⟩
        refine ⟨h1, ?_, ?_⟩
        · intro i hi; rw [h2 i hi, hother _ (by simp; exact fun h => htmp.1 h.symm)]
        · intro a ha hb; rw [h3 a ha, hother a hb]
  · rw [if_neg hwx]
    refine Script.Ok.mono (spmvTeam_ok (xv := xv) (yv := yv) hT hwx hwf hp hv (fun c hc => hx c (by omega)) hy hsz) ?_
    rintro _ m2 ⟨h1, h2, h3⟩
    exact ⟨h1, h2, fun a ha _ => h3 a ha⟩

end

end SpMP
