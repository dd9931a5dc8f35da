import Verif.SpMV
/-
Sparse matrix times dense matrix, /repo/SpMV.cpp:184-296.
-/

namespace SpMP
open Spec Finset

section
set_option linter.unusedSectionVars false

variable {R : Type} [CommRing R] [DecidableEq R] [Races CArr]

/-- A dense operand: vector number, row stride, column stride. Element (i,c) is at `i*rs + c*cs`. -/
structure DenseOp where
  id : Nat
  rs : Int
  cs : Int

/-- Update one element of a local array. -/
def updI (s : Int → R) (i : Int) (v : R) : Int → R := fun j => if j = i then v else s j

/-- One row of SpMDM_ (SpMV.cpp:220-250). `sum[k]` is a local array. The pointers are shifted by `base` (lines 196-204):
element index `e` of the shifted `W` is element `e - base` of the array. -/
def spmdmRow (k base : Nat) (kk : Nat) (w x y : DenseOp) (α β γ : R) (i1 : Int) : Prog (CTy R) Unit :=
  if 1 = α ∧ 0 = β ∧ 0 = γ ∧ 1 = w.rs ∧ 1 = x.rs ∧ 1 = y.rs then do
    let lo ← Prog.read (ty := CTy R) (.rowptr k) (i1 - base)
    let hi ← Prog.read (ty := CTy R) (.rowptr k) (i1 + 1 - base)
    let s ← Prog.forUp (ty := CTy R) (lo : Int) (hi : Int) (fun _ : Int => (0 : R)) fun i2 s =>
      Prog.forUp (ty := CTy R) 0 kk s fun i3 s => do
        let v ← Prog.read (ty := CTy R) (.values k) (i2 - base)
        let c ← Prog.read (ty := CTy R) (.colidx k) (i2 - base)
        let xx ← Prog.read (ty := CTy R) (.vec x.id) ((c : Int) + i3 * x.cs - base)
        pure (updI s i3 (s i3 + v * xx))
    Prog.forUp (ty := CTy R) 0 kk () fun i3 _ =>
      Prog.write (ty := CTy R) (.vec w.id) (i1 + i3 * w.cs - base) (s i3)
  else do
    let lo ← Prog.read (ty := CTy R) (.rowptr k) (i1 - base)
    let hi ← Prog.read (ty := CTy R) (.rowptr k) (i1 + 1 - base)
    let s ← Prog.forUp (ty := CTy R) (lo : Int) (hi : Int) (fun _ : Int => (0 : R)) fun i2 s =>
      Prog.forUp (ty := CTy R) 0 kk s fun i3 s => do
        let v ← Prog.read (ty := CTy R) (.values k) (i2 - base)
        let c ← Prog.read (ty := CTy R) (.colidx k) (i2 - base)
        let xx ← Prog.read (ty := CTy R) (.vec x.id) ((c : Int) * x.rs + i3 * x.cs - base)
        pure (updI s i3 (s i3 + v * xx))
    Prog.forUp (ty := CTy R) 0 kk () fun i3 _ => do
      let yy ← Prog.read (ty := CTy R) (.vec y.id) (i1 * y.rs + i3 * y.cs - base)
      Prog.write (ty := CTy R) (.vec w.id) (i1 * w.rs + i3 * w.cs - base) (α * s i3 + β * yy + γ)

/-- SpMDM_ / CSR::multiplyWithDenseMatrix (SpMV.cpp:184-296), values present. -/
def multiplyWithDenseMatrix (sz : CArr → Int) (T k m : Nat) (kk : Nat) (w x y : DenseOp) (α β γ : R) :
    Script (CTy R) Unit :=
  .seq sz (Prog.read (ty := CTy R) (.rowptr k) 0) fun (base : Int) =>
  .phase sz T (fun t => rowsOf (lbPart k m T t) base (spmdmRow k base.toNat kk w x y α β γ)) fun _ => .done ()

/-- Position of element (i,c). -/
def DenseOp.at (d : DenseOp) (i c : Nat) : Int := (i : Int) * d.rs + (c : Int) * d.cs

/-- Both product loops. -/
theorem wp_spmdmSum {sz : CArr → Int} {W Rd : CArr → Int → Prop} {m0 : Mem (CTy R)} {k base kk : Nat} {A : Csr R}
    {x : DenseOp} {xv : Nat → Nat → R} {r : Nat} {Q : (Int → R) → Mem (CTy R) → Prop} (xaddr : Int → Int → Int)
    (hwf : A.WF) (hp : HoldsPat m0 k base A) (hv : HoldsVal m0 k A)
    (hx : ∀ c i3 : Nat, c < A.n → i3 < kk → m0 (.vec x.id) (xaddr ((c : Int) + base) i3) = some (xv c i3))
    (hr : r < A.m)
    (hR : ∀ a i, a = .rowptr k ∨ a = .values k ∨ a = .colidx k ∨ a = .vec x.id → Rd a i)
    (hQ : ∀ s : Int → R, (∀ c : Nat, c < kk → s c = A.mulVec (fun j => xv j c) r) → Q s m0) :
    wp sz W Rd (Prog.forUp (ty := CTy R) ((A.ptr r : Int) + base) ((A.ptr (r + 1) : Int) + base) (fun _ : Int => (0 : R))
      fun i2 s => Prog.forUp (ty := CTy R) 0 kk s fun i3 s => do
        let v ← Prog.read (ty := CTy R) (.values k) (i2 - base)
        let c ← Prog.read (ty := CTy R) (.colidx k) (i2 - base)
        let xx ← Prog.read (ty := CTy R) (.vec x.id) (xaddr (c : Int) i3)
        pure (updI s i3 (s i3 + v * xx))) m0 Q := by
  have hmono := hwf.ptr_step r hr
  refine wp_forUp (I := fun i s m => m = m0 ∧ ∃ j : Nat, i = (j : Int) + base ∧ A.ptr r ≤ j ∧
    j ≤ A.ptr (r + 1) ∧ ∀ c : Nat, c < kk → s c = ∑ l ∈ Ico (A.ptr r) j, A.val l * xv (A.col l) c) ?_ ?_ ?_
  · exact ⟨rfl, A.ptr r, rfl, Nat.le_refl _, hmono, fun c _ => by simp⟩
  · rintro i s m h1 h2 ⟨rfl, j, rfl, h3, h4, h5⟩
    have hin : A.InRow r j := ⟨hr, h3, by omega⟩
    have hj := hin.lt_nnz hwf
    have e : (j : Int) + base - base = j := by omega
    refine wp_forUp (I := fun i3 s' m' => m' = m ∧ ∃ q : Nat, i3 = q ∧ q ≤ kk ∧
      (∀ c : Nat, c < kk → s' c = s c + if c < q then A.val j * xv (A.col j) c else 0)) ?_ ?_ ?_
    · exact ⟨rfl, 0, rfl, by omega, fun c _ => by simp⟩
    · rintro i3 s' m' g1 g2 ⟨rfl, q, rfl, g3, g4⟩
      have hq : q < kk := by omega
      simp only [wp_bind, wp_read, wp_pure]
      refine ⟨hR _ _ (by simp), _, by rw [e]; exact hv j hj, hR _ _ (by simp), _,
        by rw [e]; exact hp.colidx j hj, hR _ _ (by simp), _, hx (A.col j) q (hwf.col_lt j hj) hq, trivial, q + 1,
        by push_cast; rfl, by omega, ?_⟩
      intro c hc
      unfold updI
      by_cases hcq : c = q
      · subst hcq; rw [if_pos rfl, if_pos (by omega), g4 c hc, if_neg (by omega), add_zero]
      · rw [if_neg (by omega), g4 c hc]
        by_cases hlt : c < q
        · rw [if_pos hlt, if_pos (by omega)]
        · rw [if_neg hlt, if_neg (by omega)]
    · rintro s' m' ⟨rfl, q, g1, g2, g3⟩
      have : q = kk := by omega
      subst this
      refine ⟨rfl, j + 1, by push_cast; omega, by omega, by omega, ?_⟩
      intro c hc
      rw [g3 c hc, if_pos hc, h5 c hc, Finset.sum_Ico_succ_top h3]
  · rintro s m ⟨rfl, j, h1, h2, h3, h4⟩
    have : j = A.ptr (r + 1) := by omega
    subst this
    exact hQ s h4

/-- Correctness when every row stride is compatible with the base. -/
theorem multiplyWithDenseMatrix_ok {sz : CArr → Int} {T k base kk : Nat} {A : Csr R} {w x y : DenseOp} {α β γ : R}
    {m0 : Mem (CTy R)} {xv yv : Nat → Nat → R} (hT : 1 ≤ T) (hwx : w.id ≠ x.id)
    (hwy : w.id = y.id → w = y)
    (hbase : base = 0 ∨ (w.rs = 1 ∧ x.rs = 1 ∧ y.rs = 1))
    (hwf : A.WF) (hp : HoldsPat m0 k base A) (hv : HoldsVal m0 k A)
    (hx : ∀ c i3 : Nat, c < A.n → i3 < kk → m0 (.vec x.id) (x.at c i3) = some (xv c i3))
    (hy : ∀ i i3 : Nat, i < A.m → i3 < kk → m0 (.vec y.id) (y.at i i3) = some (yv i i3))
    (hinj : ∀ i c i' c' : Nat, i < A.m → c < kk → i' < A.m → c' < kk → w.at i c = w.at i' c' → i = i' ∧ c = c')
    (hsz : ∀ i c : Nat, i < A.m → c < kk → 0 ≤ w.at i c ∧ w.at i c < sz (.vec w.id)) :
    (multiplyWithDenseMatrix sz T k A.m kk w x y α β γ).Ok m0 (fun _ m' =>
      (∀ i c : Nat, i < A.m → c < kk → m' (.vec w.id) (w.at i c) =
        some (α * A.mulVec (fun j => xv j c) i + β * yv i c + γ)) ∧
      (∀ p : Int, (∀ i c : Nat, i < A.m → c < kk → p ≠ w.at i c) → m' (.vec w.id) p = m0 (.vec w.id) p) ∧
      ∀ a, a ≠ .vec w.id → m' a = m0 a) := by
  have hptr0 := hp.rowptr 0 (by omega)
  rw [hwf.ptr_zero] at hptr0
  unfold multiplyWithDenseMatrix
  refine seq_rule ?_
  rw [wp_read]
  refine ⟨trivial, ((0 : Nat) : Int) + base, hptr0, ?_⟩
  have e : ((0 : Nat) : Int) + (base : Int) = base := by omega
  rw [e]
  have hmul : ∀ d : DenseOp, (base = 0 ∨ d.rs = 1) → ∀ i c : Nat,
      ((i : Int) + base) * d.rs + (c : Int) * d.cs - base = d.at i c := by
    rintro d (h | h) i c
    · subst h; simp [DenseOp.at]
    · rw [h]; unfold DenseOp.at; rw [h]; omega
  have hbw : base = 0 ∨ w.rs = 1 := by rcases hbase with h | h; exacts [Or.inl h, Or.inr h.1]
  have hbx : base = 0 ∨ x.rs = 1 := by rcases hbase with h | h; exacts [Or.inl h, Or.inr h.2.1]
  have hby : base = 0 ∨ y.rs = 1 := by rcases hbase with h | h; exacts [Or.inl h, Or.inr h.2.2]
  refine rows_rule (lbRng hwf base T hT) (Rp := fun a _ => a = .rowptr k)
    (Wr := fun r a i => a = .vec w.id ∧ ∃ r' c : Nat, r = r' ∧ c < kk ∧ i = w.at r' c)
    (Rr := fun r a i => a ≠ .vec w.id ∨ ∃ r' c : Nat, r = r' ∧ c < kk ∧ i = w.at r' c)
    (Qr := fun r m => ∀ i c : Nat, r = i → c < kk →
      m (.vec w.id) (w.at i c) = some (α * A.mulVec (fun j => xv j c) i + β * yv i c + γ)) ?_ ?_ ?_ ?_ ?_
  · intro t ht; exact wp_lbPart ht hwf hp.rowptr
  · rintro r a i _ _ ⟨rfl, _⟩ h; cases h
  · rintro r r' a i _ h1 _ h2 hne ⟨rfl, r1, c1, rfl, hc1, rfl⟩ h
    rcases h with h | ⟨r2, c2, rfl, hc2, h⟩
    · exact h rfl
    · have := hinj r1 c1 r2 c2 (by omega) hc1 (by omega) hc2 h; omega
  · intro t r ht h0 h1
    obtain ⟨r, rfl⟩ := Int.eq_ofNat_of_zero_le h0
    have hr : r < A.m := by omega
    have hRall : ∀ a i, a = .rowptr k ∨ a = .values k ∨ a = .colidx k ∨ a = .vec x.id →
        (a ≠ CArr.vec w.id ∨ ∃ r' c : Nat, (r : Int) = r' ∧ c < kk ∧ i = w.at r' c) := by
      rintro a i (rfl | rfl | rfl | rfl)
      · left; simp
      · left; simp
      · left; simp
      · left; simp; exact fun h => hwx h.symm
    have ei : (r : Int) + base - base = r := by omega
    have ei1 : (r : Int) + base + 1 - base = ((r + 1 : Nat) : Int) := by push_cast; omega
    show wp sz _ _ (spmdmRow k base kk w x y α β γ ((r : Int) + base)) m0 _
    unfold spmdmRow
    rw [wp_ite]
    refine ⟨?_, ?_⟩
    · rintro ⟨rfl, rfl, rfl, hw1, hx1, hy1⟩
      simp only [wp_bind, wp_read]
      refine ⟨hRall _ _ (by simp), (A.ptr r : Int) + base, by rw [ei]; exact hp.rowptr r (by omega),
        hRall _ _ (by simp), (A.ptr (r + 1) : Int) + base, by rw [ei1]; exact hp.rowptr (r + 1) (by omega), ?_⟩
      refine wp_spmdmSum (xv := xv) (fun c i3 => c + i3 * x.cs - base) hwf hp hv ?_ hr hRall ?_
      · intro c i3 hc h3
        rw [← hx c i3 hc h3, ← hmul x hbx c i3, ← hx1]; congr 1; omega
      · intro s hs
        refine wp_forUp (I := fun i3 _ m => ∃ q : Nat, i3 = q ∧ q ≤ kk ∧ ∀ c : Nat, c < q →
          m (.vec w.id) (w.at r c) = some (s c)) ?_ ?_ ?_
        · exact ⟨0, rfl, by omega, fun c hc => by omega⟩
        · rintro i3 _ m g1 g2 ⟨q, rfl, g3, g4⟩
          have hq : q < kk := by omega
          have ea : (r : Int) + base + q * w.cs - base = w.at r q := by
            rw [← hmul w hbw r q, ← hw1]; omega
          rw [wp_write, ea]
          refine ⟨⟨rfl, r, q, rfl, hq, rfl⟩, (hsz r q hr hq).1, (hsz r q hr hq).2, q + 1, by push_cast; rfl,
            by omega, ?_⟩
          intro c hc
          rw [Mem.set_same]
          by_cases hcq : c = q
          · subst hcq; rw [if_pos rfl]
          · rw [if_neg ?_]
            · exact g4 c (by omega)
            · intro he; exact hcq (hinj r c r q hr (by omega) hr hq he).2
        · rintro _ m ⟨q, g1, g2, g3⟩
          have : q = kk := by omega
          subst this
          intro i c hi hc
          have : i = r := by omega
          subst this
          rw [g3 c hc, hs c hc]; congr 1; ring
    · intro _
      simp only [wp_bind, wp_read]
      refine ⟨hRall _ _ (by simp), (A.ptr r : Int) + base, by rw [ei]; exact hp.rowptr r (by omega),
        hRall _ _ (by simp), (A.ptr (r + 1) : Int) + base, by rw [ei1]; exact hp.rowptr (r + 1) (by omega), ?_⟩
      refine wp_spmdmSum (xv := xv) (fun c i3 => c * x.rs + i3 * x.cs - base) hwf hp hv ?_ hr hRall ?_
      · intro c i3 hc h3
        rw [← hx c i3 hc h3, ← hmul x hbx c i3]
      · intro s hs
        refine wp_forUp (I := fun i3 _ m => ∃ q : Nat, i3 = q ∧ q ≤ kk ∧ (∀ c : Nat, c < q →
          m (.vec w.id) (w.at r c) = some (α * s c + β * yv r c + γ)) ∧
          ∀ a i, (a = .vec w.id → ∀ c : Nat, c < q → i ≠ w.at r c) → m a i = m0 a i) ?_ ?_ ?_
        · exact ⟨0, rfl, by omega, fun c hc => by omega, fun _ _ _ => rfl⟩
        · rintro i3 _ m g1 g2 ⟨q, rfl, g3, g4, g5⟩
          have hq : q < kk := by omega
          rw [hmul y hby r q, hmul w hbw r q]
          simp only [wp_bind, wp_read, wp_write]
          refine ⟨?_, yv r q, ?_, ⟨trivial, r, q, rfl, hq, rfl⟩, (hsz r q hr hq).1, (hsz r q hr hq).2, q + 1,
            by push_cast; rfl, by omega, ?_, ?_⟩
          · by_cases hyw : w.id = y.id
            · have := hwy hyw; subst this; exact Or.inr ⟨r, q, rfl, hq, rfl⟩
            · left; simp; exact fun h => hyw h.symm
          · rw [← hy r q hr hq]
            refine g5 _ _ ?_
            intro hyw c hc he
            have hyw : w.id = y.id := by simp at hyw; exact hyw.symm
            have := hwy hyw; subst this
            have := (hinj r q r c hr hq hr (by omega) he).2; omega
          · intro c hc
            rw [Mem.set_same]
            by_cases hcq : c = q
            · subst hcq; rw [if_pos rfl]
            · rw [if_neg ?_]
              · exact g4 c (by omega)
              · intro he; exact hcq (hinj r c r q hr (by omega) hr hq he).2
          · intro a i hne
            rcases Mem.set_cases m (.vec w.id) (w.at r q) (α * s q + β * yv r q + γ) a i with ⟨rfl, rfl⟩ | h
            · exact absurd rfl (hne rfl q (by omega))
            · rw [h]; exact g5 a i (fun ha c hc => hne ha c (by omega))
        · rintro _ m ⟨q, g1, g2, g3, _⟩
          have : q = kk := by omega
          subst this
          intro i c hi hc
          have : i = r := by omega
          subst this
          rw [g3 c hc, hs c hc]
  · intro u m hq hf
    refine ⟨?_, ?_, ?_⟩
    · intro i c hi hc
      obtain ⟨mt, h1, h2⟩ := hq i (by omega) (by omega)
      rw [h2 _ _ (Or.inr ⟨i, c, rfl, hc, rfl⟩)]
      exact h1 i c rfl hc
    · intro p hp'
      refine hf _ _ ?_
      rintro r h0 h1 ⟨_, r', c, rfl, hc, rfl⟩
      exact hp' r' c (by omega) hc rfl
    · intro a ha; funext i; exact hf a i (by rintro r _ _ ⟨h, _⟩; exact ha h)

end

end SpMP
