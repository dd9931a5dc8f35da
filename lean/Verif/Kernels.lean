import Verif.SchedLists
/-
Row kernels of the triangular solvers and Gauss-Seidel smoothers (/repo/test/trsv_test.cpp:96-437,
/repo/test/gs_test.cpp:92-430). Matrix = CSR object 0, b = vec 0, y = vec 1.
The macro ADJUST_FOR_BASE (test.hpp:90-97) shifts all pointers by the base; here the shift is written in the index.
-/

namespace SpMP
open Spec

set_option linter.unusedSectionVars false

variable {R : Type} [Sub R] [Mul R] [Add R] [Races CArr]

/-- trsv_test.cpp:224-227: `sum = b[row]; for (j = rowptr[row]; j < rowptr[row+1]; ++j) sum -= values[j]*y[colidx[j]]`,
and 273-276: the same loop downwards. The row bounds are read once (they are never written). -/
def rowResidual (base r : Nat) (rev : Bool) : Prog (CTy R) R := do
  let s ← Prog.read (ty := CTy R) (.vec 0) r
  let lo ← Prog.read (ty := CTy R) (.rowptr 0) r
  let hi ← Prog.read (ty := CTy R) (.rowptr 0) (r + 1)
  let step : Int → R → Prog (CTy R) R := fun j s => do
    let v ← Prog.read (ty := CTy R) (.values 0) (j - base)
    let c ← Prog.read (ty := CTy R) (.colidx 0) (j - base)
    let yc ← Prog.read (ty := CTy R) (.vec 1) ((c : Int) - base)
    pure (s - v * yc)
  if rev then Prog.forDown (ty := CTy R) (hi : Int) (lo : Int) s step
  else Prog.forUp (ty := CTy R) (lo : Int) (hi : Int) s step

/-- The assignment that ends a row: trsv_test.cpp:228 `y[row] = sum*idiag[row]`, 277 `y[row] = sum`,
gs_test.cpp:227 `y[row] += sum*idiag[row]`. -/
def rowFinish (u : Update) (r : Nat) (s : R) : Prog (CTy R) Unit :=
  match u with
  | .solve => do
    let d ← Prog.read (ty := CTy R) (.idiag 0) r
    Prog.write (ty := CTy R) (.vec 1) r (s * d)
  | .solveUnit => Prog.write (ty := CTy R) (.vec 1) r s
  | .gs => do
    let d ← Prog.read (ty := CTy R) (.idiag 0) r
    let o ← Prog.read (ty := CTy R) (.vec 1) r
    Prog.write (ty := CTy R) (.vec 1) r (o + s * d)

/-- One row of a solver. -/
def rowKernel (base : Nat) (u : Update) (rev : Bool) (r : Nat) : Prog (CTy R) Unit := do
  let s ← rowResidual base r rev
  rowFinish u r s

/-- The matrix, right-hand side and inverse diagonal are in memory. -/
structure SolverMem (m0 : Mem (CTy R)) (base : Nat) (A : Csr R) (b idg : Nat → R) : Prop where
  pat : HoldsPat m0 0 base A
  val : HoldsVal m0 0 A
  rhs : ∀ i : Nat, i < A.m → m0 (.vec 0) (i : Int) = some (b i)
  idiag : ∀ i : Nat, i < A.m → m0 (.idiag 0) (i : Int) = some (idg i)

/-- Row `r` stores an entry in column `c`. -/
def _root_.SpMP.Spec.Csr.Nbr {R : Type} (A : Csr R) (r c : Nat) : Prop := ∃ j, A.InRow r j ∧ A.col j = c

theorem rowKernel_isKernel {sz : CArr → Int} {m0 : Mem (CTy R)} {base : Nat} {A : Csr R} {b idg : Nat → R}
    (hwf : A.WF) (hmn : A.m ≤ A.n) (hm : SolverMem m0 base A b idg) (hsz : (A.m : Int) ≤ sz (.vec 1))
    (u : Update) (rev : Bool) :
    IsKernel sz m0 A.m A.n A.Nbr (rowKernel base u rev) (rowUpdate A b idg u rev) := by
  intro r hr y
  unfold rowKernel
  rw [wp_bind]
  have hro : ∀ (a : CArr), a ≠ .vec 1 → withY m0 A.n y a = m0 a := fun a ha => withY_other _ _ _ ha
  have hnn := hwf.ptr_le_nnz (i := r + 1) (by omega)
  have hst := hwf.ptr_step r hr
  -- one iteration
  have hiter : ∀ (j : Nat) (s : R) (Q : R → Mem (CTy R) → Prop), A.InRow r j →
      Q (s - A.val j * y (A.col j)) (withY m0 A.n y) →
      wp sz (rowW r) (rowR A.Nbr r) (do
        let v ← Prog.read (ty := CTy R) (.values 0) (((j : Int) + base) - base)
        let c ← Prog.read (ty := CTy R) (.colidx 0) (((j : Int) + base) - base)
        let yc ← Prog.read (ty := CTy R) (.vec 1) ((c : Int) - base)
        pure (s - v * yc)) (withY m0 A.n y) Q := by
    intro j s Q hj hQ
    have hjn := hj.lt_nnz hwf
    have e : ((j : Int) + base) - base = (j : Int) := by omega
    simp only [wp_bind, wp_read, wp_pure, e]
    refine ⟨Or.inl ⟨by simp, by simp⟩, A.val j, ?_, Or.inl ⟨by simp, by simp⟩, (A.col j : Int) + base, ?_, ?_⟩
    · rw [hro _ (by simp)]; exact hm.val j hjn
    · rw [hro _ (by simp)]; exact hm.pat.colidx j hjn
    · have e2 : ((A.col j : Int) + base) - base = (A.col j : Int) := by omega
      rw [e2]
      refine ⟨Or.inr ⟨rfl, A.col j, rfl, Or.inr ⟨j, hj, rfl⟩⟩, y (A.col j), ?_, hQ⟩
      exact withY_vec _ _ _ (hwf.col_lt j hjn)
  have hres : ∀ (Q : R → Mem (CTy R) → Prop),
      Q (residual A b y r (if rev then (rowPos A r).reverse else rowPos A r)) (withY m0 A.n y) →
      wp sz (rowW r) (rowR A.Nbr r) (rowResidual base r rev) (withY m0 A.n y) Q := by
    intro Q hQ
    unfold rowResidual
    simp only [wp_bind, wp_read]
    refine ⟨Or.inl ⟨by simp, by simp⟩, b r, ?_, Or.inl ⟨by simp, by simp⟩, (A.ptr r : Int) + base, ?_,
      Or.inl ⟨by simp, by simp⟩, (A.ptr (r + 1) : Int) + base, ?_, ?_⟩
    · rw [hro _ (by simp)]; exact hm.rhs r hr
    · rw [hro _ (by simp)]; exact hm.pat.rowptr r (by omega)
    · rw [hro _ (by simp)]
      have := hm.pat.rowptr (r + 1) (by omega)
      push_cast at this; exact this
    cases rev with
    | false =>
      simp only [Bool.false_eq_true, if_false] at hQ ⊢
      refine wp_forUp (I := fun i s mm => mm = withY m0 A.n y ∧
        ∃ k : Nat, i = (k : Int) + base ∧ A.ptr r ≤ k ∧
          s = (List.range' (A.ptr r) (k - A.ptr r)).foldl (fun s j => s - A.val j * y (A.col j)) (b r)) ?_ ?_ ?_
      · exact ⟨rfl, A.ptr r, rfl, Nat.le_refl _, by simp⟩
      · rintro i s mm h1 h2 ⟨rfl, k, rfl, hk, rfl⟩
        refine hiter k _ _ ⟨hr, hk, by omega⟩ ⟨rfl, k + 1, by push_cast; omega, by omega, ?_⟩
        have e : k + 1 - A.ptr r = (k - A.ptr r) + 1 := by omega
        rw [e, List.range'_concat, List.foldl_append]
        simp only [List.foldl_cons, List.foldl_nil]
        have : A.ptr r + 1 * (k - A.ptr r) = k := by omega
        rw [this]
      · rintro s mm ⟨rfl, k, hk1, hk2, rfl⟩
        have : k = A.ptr (r + 1) := by omega
        subst this
        exact hQ
    | true =>
      simp only [if_true] at hQ ⊢
      refine wp_forDown (I := fun i s mm => mm = withY m0 A.n y ∧
        ∃ k : Nat, i = (k : Int) + base ∧ A.ptr r ≤ k ∧ k ≤ A.ptr (r + 1) ∧
          s = (List.range' k (A.ptr (r + 1) - k)).reverse.foldl (fun s j => s - A.val j * y (A.col j)) (b r)) ?_ ?_ ?_
      · exact ⟨rfl, A.ptr (r + 1), rfl, by omega, Nat.le_refl _, by simp⟩
      · rintro i s mm h1 h2 ⟨rfl, k, hik, hk, hk2, rfl⟩
        have ei : i = ((k - 1 : Nat) : Int) + base := by omega
        subst ei
        refine hiter (k - 1) _ _ ⟨hr, by omega, by omega⟩ ⟨rfl, k - 1, rfl, by omega, by omega, ?_⟩
        have e : A.ptr (r + 1) - (k - 1) = (A.ptr (r + 1) - k) + 1 := by omega
        have e2 : k - 1 + 1 = k := by omega
        rw [e, List.range'_succ, List.reverse_cons, List.foldl_append, e2]
        simp only [List.foldl_cons, List.foldl_nil]
      · rintro s mm ⟨rfl, k, hk1, hk2, hk3, rfl⟩
        have : k = A.ptr r := by omega
        subst this
        exact hQ
  refine hres _ ?_
  have hset : ∀ v, (withY m0 A.n y).set (.vec 1) (r : Int) v = withY m0 A.n (updV y r v) :=
    fun v => withY_set _ _ _ (by omega) v
  unfold rowUpdate
  cases u with
  | solve =>
    simp only [rowFinish, wp_bind, wp_read, wp_write, Update.apply]
    refine ⟨Or.inl ⟨by simp, by simp⟩, idg r, ?_, ⟨rfl, rfl⟩, by omega, by omega, hset _⟩
    rw [hro _ (by simp)]; exact hm.idiag r hr
  | solveUnit =>
    simp only [rowFinish, wp_write, Update.apply]
    exact ⟨⟨rfl, rfl⟩, by omega, by omega, hset _⟩
  | gs =>
    simp only [rowFinish, wp_bind, wp_read, wp_write, Update.apply]
    refine ⟨Or.inl ⟨by simp, by simp⟩, idg r, ?_, Or.inr ⟨rfl, r, rfl, Or.inl rfl⟩, y r, ?_, ⟨rfl, rfl⟩, by omega,
      by omega, hset _⟩
    · rw [hro _ (by simp)]; exact hm.idiag r hr
    · exact withY_vec _ _ _ (by omega)

/-- trsv_test.cpp:191-217 (and the other p2p functions): each thread clears its slice of taskFinished, then all
threads meet at a barrier. -/
def clearFlags (sz : CArr → Int) (T ntasks : Nat) : Script (CTy R) Unit :=
  .phase sz T (fun tid => Prog.forUp (ty := CTy R) (simpleBegin T tid ntasks) (simpleEnd T tid ntasks) ()
    (fun i _ => Prog.write (ty := CTy R) (.itmp 0) i (0 : Int))) fun _ => .done ()

omit [Sub R] [Mul R] [Add R] in
theorem clearFlags_ok {sz : CArr → Int} {T ntasks : Nat} (hT : 1 ≤ T) (hsz : (ntasks : Int) ≤ sz (.itmp 0))
    {m : Mem (CTy R)} :
    (clearFlags sz T ntasks).Ok m (fun _ m' => (∀ b : Nat, b < ntasks → m' (.itmp 0) (b : Int) = some (0 : Int)) ∧
      ∀ a, a ≠ .itmp 0 → m' a = m a) := by
  have hT' : (1 : Int) ≤ T := by omega
  have hn : (0 : Int) ≤ ntasks := by omega
  refine par_rule
    (W := fun t a i => a = .itmp 0 ∧ simpleBegin T t ntasks ≤ i ∧ i < simpleEnd T t ntasks)
    (R := fun t a i => a = .itmp 0 ∧ simpleBegin T t ntasks ≤ i ∧ i < simpleEnd T t ntasks)
    (Q := fun t _ m' => ∀ i, simpleBegin T t ntasks ≤ i → i < simpleEnd T t ntasks →
      m' (.itmp 0) i = some (0 : Int)) ?_ ?_ ?_
  · rintro t u a i ht hu htu ⟨_, h1, h2⟩ ⟨_, h3, h4⟩
    have := simple_unique hT' hn h1 h2 h3 h4
    omega
  · intro t ht
    refine wp_forUp (I := fun i _ m' => ∀ j, simpleBegin T t ntasks ≤ j → j < i →
      m' (.itmp 0) j = some (0 : Int)) ?_ ?_ ?_
    · intro j h1 h2; omega
    · intro i _ m' h1 h2 hI
      rw [wp_write]
      have := simpleBegin_nonneg (T := T) (tid := t) hT' hn (by omega)
      have := simpleEnd_le (T := T) (tid := t) (n := ntasks)
      refine ⟨⟨rfl, h1, h2⟩, by omega, by omega, ?_⟩
      intro j h3 h4
      rw [Mem.set_same]
      split
      · rfl
      · exact hI j h3 (by omega)
    · intro _ m' hI j h1 h2; exact hI j h1 (by omega)
  · intro _ m' hq hf
    refine ⟨?_, ?_⟩
    · intro b hb
      obtain ⟨t, ht0, htT, h2, h3⟩ := simple_exists (T := T) (i := (b : Int)) (n := ntasks) hT' (by omega) (by omega)
      obtain ⟨t, rfl⟩ := Int.eq_ofNat_of_zero_le ht0
      obtain ⟨mt, h4, h5⟩ := hq t (by omega)
      rw [h5 _ _ ⟨rfl, h2, h3⟩]; exact h4 _ h2 h3
    · intro a ha; funext i; exact hf a i (by rintro t _ ⟨h, _⟩; exact ha h)

/-- A sequential reference loop (trsv_test.cpp:96-120, gs_test.cpp:92-108): rows in the order `ord`. -/
def seqLoop (m : Nat) (ord : Nat → Nat) (body : Nat → Prog (CTy R) Unit) : Prog (CTy R) Unit :=
  Prog.forUp (ty := CTy R) 0 m () (fun i _ => body (ord i.toNat))

omit [Sub R] [Mul R] [Add R] in
theorem wp_relax {A : Type} [DecidableEq A] {ty : A → Type} {α : Type} {sz : A → Int} {W Rd W' Rd' : A → Int → Prop}
    {p : Prog ty α} {m : Mem ty} {Q : α → Mem ty → Prop} (h : wp sz W Rd p m Q)
    (hW : ∀ a i, W a i → W' a i) (hR : ∀ a i, Rd a i → Rd' a i) : wp sz W' Rd' p m Q := by
  induction p generalizing m with
  | ret a => exact wp_ret.2 (wp_ret.1 h)
  | rd a i k ih =>
    unfold wp at h ⊢; obtain ⟨h1, v, h2, h3⟩ := h; exact ⟨hR _ _ h1, v, h2, ih v h3⟩
  | wr a i v k ih =>
    unfold wp at h ⊢; obtain ⟨h1, h2, h3, h4⟩ := h; exact ⟨hW _ _ h1, h2, h3, ih h4⟩
  | rmw a i f k ih =>
    unfold wp at h ⊢; obtain ⟨h1, h2, h3, h4, v, h5, h6⟩ := h
    exact ⟨hW _ _ h1, h2, h3, hR _ _ h4, v, h5, ih v h6⟩
  | fail => exact (wp_fail.1 h).elim

omit [Sub R] [Mul R] [Add R] in
theorem seqLoop_ok {sz : CArr → Int} {m0 : Mem (CTy R)} {m n : Nat} {nbr : Nat → Nat → Prop}
    {body : Nat → Prog (CTy R) Unit} {f : Nat → (Nat → R) → R} {ord : Nat → Nat} {y0 : Nat → R}
    (hk : IsKernel sz m0 m n nbr body f) (hord : ∀ k, k < m → ord k < m)
    (hy : ∀ i : Nat, i < n → m0 (.vec 1) (i : Int) = some (y0 i)) :
    (Script.seq sz (seqLoop m ord body) .done).Ok m0 (fun _ m' => m' = withY m0 n (sweep f ord m y0)) := by
  refine seq_rule ?_
  unfold seqLoop
  refine wp_forUp (I := fun i _ mm => ∃ k : Nat, i = k ∧ mm = withY m0 n (sweep f ord k y0)) ?_ ?_ ?_
  · refine ⟨0, rfl, ?_⟩
    funext a i
    by_cases hv1 : a = .vec 1
    · subst hv1
      simp only [withY, sweep]
      split
      · next h =>
        obtain ⟨j, rfl⟩ := Int.eq_ofNat_of_zero_le h.1
        rw [hy j (by omega)]; simp
      · rfl
    · rw [withY_other _ _ _ hv1]
  · rintro i _ mm h1 h2 ⟨k, rfl, rfl⟩
    have := hk (ord k) (hord k (by omega)) (sweep f ord k y0)
    refine wp_mono (wp_relax this (fun _ _ _ => trivial) (fun _ _ _ => trivial)) ?_
    rintro _ m' rfl
    exact ⟨k + 1, by push_cast; rfl, rfl⟩
  · rintro _ mm ⟨k, hk1, rfl⟩
    have : k = m := by omega
    subst this; rfl

end SpMP
