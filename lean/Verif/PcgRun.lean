import Verif.PcgProof
/-
The proof that pcg_symgs follows the textbook method. Models no function.
-/
namespace SpMP
open Spec

set_option linter.unusedSectionVars false

variable {R : Type} [Races CArr]

section precond
variable [Field R]

theorem HoldsPat.of_eq {m m' : Mem (CTy R)} {k base : Nat} {A : Csr R} (h : HoldsPat m k base A)
    (e1 : m' (.rowptr k) = m (.rowptr k)) (e2 : m' (.colidx k) = m (.colidx k)) : HoldsPat m' k base A :=
  ⟨fun i hi => by rw [e1]; exact h.rowptr i hi, fun i hi => by rw [e2]; exact h.colidx i hi⟩

theorem HoldsVal.of_eq {m m' : Mem (CTy R)} {k : Nat} {A : Csr R} (h : HoldsVal m k A)
    (e1 : m' (.values k) = m (.values k)) : HoldsVal m' k A := fun i hi => by rw [e1]; exact h i hi

/-- The triangles used by the two solves, held in objects `kl` and `ku` with the factors `el`, `eu` in the arrays idiag. -/
structure TriObj (m : Mem (CTy R)) (kl ku n : Nat) (L U : Csr R) (el eu : Nat → R) : Prop where
  wfL : L.WF
  wfU : U.WF
  mL : L.m = n
  mU : U.m = n
  nL : L.n = n
  nU : U.n = n
  patL : HoldsPat m kl 0 L
  valL : HoldsVal m kl L
  patU : HoldsPat m ku 0 U
  valU : HoldsVal m ku U
  idL : ∀ i : Nat, i < n → m (.idiag kl) (i : Int) = some (el i)
  idU : ∀ i : Nat, i < n → m (.idiag ku) (i : Int) = some (eu i)

theorem TriObj.frame {m m' : Mem (CTy R)} {kl ku n : Nat} {L U : Csr R} {el eu : Nat → R} (h : TriObj m kl ku n L U el eu)
    (hf : ∀ a, (∀ j, a ≠ .vec j) → (∀ j, a ≠ .itmp j) → m' a = m a) : TriObj m' kl ku n L U el eu where
  wfL := h.wfL
  wfU := h.wfU
  mL := h.mL
  mU := h.mU
  nL := h.nL
  nU := h.nU
  patL := h.patL.of_eq (hf _ (by simp) (by simp)) (hf _ (by simp) (by simp))
  valL := h.valL.of_eq (hf _ (by simp) (by simp))
  patU := h.patU.of_eq (hf _ (by simp) (by simp)) (hf _ (by simp) (by simp))
  valU := h.valU.of_eq (hf _ (by simp) (by simp))
  idL := fun i hi => by rw [hf _ (by simp) (by simp)]; exact h.idL i hi
  idU := fun i hi => by rw [hf _ (by simp) (by simp)]; exact h.idU i hi

/-- What the two solves compute. -/
def TriSolve (n : Nat) (L U : Csr R) (el eu z r : Nat → R) : Prop :=
  ∃ y : Nat → R, (∀ i, i < n → y i = (r i - L.mulVec y i) * el i) ∧ ∀ i, i < n → z i = (y i - U.mulVec z i) * eu i

/-- The two serial solves. -/
theorem refSolve_ok {sz : CArr → Int} {n kl ku : Nat} {m : Mem (CTy R)} {L U : Csr R} {el eu rv : Nat → R}
    {Q : Unit → Mem (CTy R) → Prop} (ho : TriObj m kl ku n L U el eu)
    (hlow : ∀ i j, i < n → L.ptr i ≤ j → j < L.ptr (i + 1) → L.col j < i)
    (hup : ∀ i j, i < n → U.ptr i ≤ j → j < U.ptr (i + 1) → i < U.col j)
    (hr : VecIs m 2 n rv) (hs3 : (n : Int) ≤ sz (.vec 3)) (hs4 : (n : Int) ≤ sz (.vec 4))
    (hK : ∀ m' z, VecIs m' 3 n z → TriSolve n L U el eu z rv → (∀ a, a ≠ .vec 3 → a ≠ .vec 4 → m' a = m a) → Q () m') :
    (refSolve sz n kl ku).Ok m Q := by
  obtain ⟨l1, u1, l2, u2, ln, un, l3, l4, u4, u5, l6, u8⟩ := ho
  unfold refSolve
  subst l2
  refine seq_rule ?_
  refine wp_forwardSolveRef (bv := rv) (ev := el) l1 l3 l4 (by omega) ?_ ?_ ?_ ?_ ?_
  · exact hlow
  · exact hr
  · exact l6
  · exact hs4
  intro m1 yv hy1 hy2 hf1
  refine seq_rule ?_
  rw [← u2]
  refine wp_backwardSolveRef (bv := yv) (ev := eu) u1 (by omega)
    (u4.of_eq (hf1 _ (by simp)) (hf1 _ (by simp))) (u5.of_eq (hf1 _ (by simp))) (by omega) ?_ ?_ ?_ ?_ ?_
  · rw [u2]; exact hup
  · rw [u2]; exact hy1
  · rw [u2]; intro i hi; rw [hf1 _ (by simp)]; exact u8 i hi
  · rw [u2]; exact hs3
  rw [u2]
  intro m2 zv hz1 hz2 hf2
  refine hK m2 zv hz1 ⟨yv, hy2, hz2⟩ ?_
  intro a h3 h4
  rw [hf2 a h3, hf1 a h4]

/-- The symmetric Gauss-Seidel preconditioner from the strict triangles of `A`, the upper one scaled. -/
theorem symGS_of_triSolve {A L U : Csr R} {d e z r : Nat → R} (he : ∀ i, i < A.m → e i * d i = 1)
    (hl : ∀ y i, i < A.m → L.mulVec y i = A.lowMul y i) (hu : ∀ y i, i < A.m → U.mulVec y i = A.upMul y i * e i)
    (h : TriSolve A.m L U e (fun _ => 1) z r) : SymGS A d z r := by
  obtain ⟨y, h1, h2⟩ := h
  refine ⟨y, fun i hi => ?_, fun i hi => ?_⟩
  · have := h2 i hi
    rw [hu z i hi] at this
    have h2 := he i hi
    linear_combination (-d i) * this + A.upMul z i * h2
  · have h1 := h1 i hi
    rw [hl y i hi] at h1
    have h2 := he i hi
    linear_combination d i * h1 + (r i - A.lowMul y i) * h2

end precond

section solve
variable [Field R]

/-- The preconditioner can be applied to every vector. -/
theorem symGS_exists {A : Csr R} (hwf : A.WF) (hsq : A.n = A.m) {d : Nat → R} (hd : ∀ i, i < A.m → d i ≠ 0) (r : Nat → R) :
    ∃ z, SymGS A d z r := by
  have hlow : ∀ n, n ≤ A.m → ∃ y : Nat → R, ∀ i, i < n → A.lowMul y i + d i * y i = r i := by
    intro n
    induction n with
    | zero => intro _; exact ⟨fun _ => 0, fun i hi => by omega⟩
    | succ n ih =>
      intro hn
      obtain ⟨y, hy⟩ := ih (by omega)
      have hc : ∀ i, i ≤ n → A.lowMul (Function.update y n ((r n - A.lowMul y n) / d n)) i = A.lowMul y i := by
        intro i hi
        have him : i < A.m := by omega
        rw [lowMul_entries hwf hsq him, lowMul_entries hwf hsq him]
        refine Finset.sum_congr rfl fun c _ => ?_
        by_cases h : c < i
        · rw [Function.update_of_ne (by omega)]
        · rw [if_neg h, if_neg h]
      refine ⟨Function.update y n ((r n - A.lowMul y n) / d n), fun i hi => ?_⟩
      rw [hc i (by omega)]
      by_cases h : i = n
      · subst h
        rw [Function.update_self]
        have := hd i (by omega)
        field_simp
        ring
      · rw [Function.update_of_ne h]; exact hy i (by omega)
  obtain ⟨y, hy⟩ := hlow A.m (Nat.le_refl _)
  have hup : ∀ n, n ≤ A.m → ∃ z : Nat → R, ∀ i, A.m - n ≤ i → i < A.m → d i * y i = d i * z i + A.upMul z i := by
    intro n
    induction n with
    | zero => intro _; exact ⟨fun _ => 0, fun i h1 h2 => by omega⟩
    | succ n ih =>
      intro hn
      obtain ⟨z, hz⟩ := ih (by omega)
      obtain ⟨q, hq⟩ : ∃ q, q = A.m - (n + 1) := ⟨_, rfl⟩
      have hqm : q < A.m := by omega
      have hc : ∀ i, q ≤ i → i < A.m → A.upMul (Function.update z q (y q - A.upMul z q / d q)) i = A.upMul z i := by
        intro i hi him
        rw [upMul_entries hwf hsq him, upMul_entries hwf hsq him]
        refine Finset.sum_congr rfl fun c _ => ?_
        by_cases h : i < c
        · rw [Function.update_of_ne (by omega)]
        · rw [if_neg h, if_neg h]
      refine ⟨Function.update z q (y q - A.upMul z q / d q), fun i h1 h2 => ?_⟩
      rw [hc i (by omega) h2]
      by_cases h : i = q
      · subst h
        rw [Function.update_self]
        have := hd i h2
        field_simp
        ring
      · rw [Function.update_of_ne h]; exact hz i (by omega) h2
  obtain ⟨z, hz⟩ := hup A.m (Nat.le_refl _)
  exact ⟨z, y, fun i hi => hz i (by omega) hi, hy⟩

/-- A trace grows by one step. -/
theorem PcgTrace.extend {A : Csr R} {M : (Nat → R) → (Nat → R) → Prop} {b : Nat → R} {K : Nat} {x r z p : Nat → Nat → R}
    (h : PcgTrace A M b K x r z p)
    {xn rn zn pn : Nat → R}
    (hdef : dotN A.m (p K) (A.mulVec (p K)) ≠ 0 ∧ dotN A.m (r K) (z K) ≠ 0)
    (hx : ∀ i, i < A.m → xn i = x K i + dotN A.m (r K) (z K) / dotN A.m (p K) (A.mulVec (p K)) * p K i)
    (hr : ∀ i, i < A.m → rn i = r K i - dotN A.m (r K) (z K) / dotN A.m (p K) (A.mulVec (p K)) * A.mulVec (p K) i)
    (hz : M zn rn) (hp : ∀ i, i < A.m → pn i = zn i + dotN A.m rn zn / dotN A.m (r K) (z K) * p K i) :
    PcgTrace A M b (K + 1) (Function.update x (K + 1) xn) (Function.update r (K + 1) rn)
      (Function.update z (K + 1) zn) (Function.update p (K + 1) pn) := by
  have lo : ∀ (f : Nat → Nat → R) (g : Nat → R) k, k ≤ K → Function.update f (K + 1) g k = f k :=
    fun f g k hk => Function.update_of_ne (by omega) _ _
  have hi : ∀ (f : Nat → Nat → R) (g : Nat → R), Function.update f (K + 1) g (K + 1) = g :=
    fun f g => Function.update_self _ _ _
  refine ⟨?_, ?_, ?_, ?_, ?_, ?_, ?_⟩
  · rw [lo _ _ 0 (by omega), lo _ _ 0 (by omega)]; exact h.start
  · intro k hk
    rcases Nat.lt_or_eq_of_le hk with h' | rfl
    · rw [lo _ _ k (by omega), lo _ _ k (by omega)]; exact h.precond k (by omega)
    · rw [hi, hi]; exact hz
  · rw [lo _ _ 0 (by omega), lo _ _ 0 (by omega)]; exact h.first
  · intro k hk
    rw [lo _ _ k (by omega), lo _ _ k (by omega), lo _ _ k (by omega)]
    rcases Nat.lt_or_eq_of_le (Nat.le_of_lt_succ hk) with h' | rfl
    · exact h.defined k h'
    · exact hdef
  · intro k hk
    rw [lo x _ k (by omega), lo r _ k (by omega), lo z _ k (by omega), lo p _ k (by omega)]
    rcases Nat.lt_or_eq_of_le (Nat.le_of_lt_succ hk) with h' | rfl
    · rw [lo _ _ (k + 1) (by omega)]; exact h.iterate k h'
    · rw [hi]; exact hx
  · intro k hk
    rw [lo r _ k (by omega), lo z _ k (by omega), lo p _ k (by omega)]
    rcases Nat.lt_or_eq_of_le (Nat.le_of_lt_succ hk) with h' | rfl
    · rw [lo _ _ (k + 1) (by omega)]; exact h.residual k h'
    · rw [hi]; exact hr
  · intro k hk
    rw [lo r _ k (by omega), lo z _ k (by omega), lo p _ k (by omega)]
    rcases Nat.lt_or_eq_of_le (Nat.le_of_lt_succ hk) with h' | rfl
    · rw [lo _ _ (k + 1) (by omega), lo _ _ (k + 1) (by omega), lo _ _ (k + 1) (by omega)]; exact h.direction k h'
    · rw [hi, hi, hi]; exact hp

end solve

section unique
variable [Field R]

/-- The preconditioned residual is determined by the residual. -/
theorem symGS_unique {A : Csr R} (hwf : A.WF) (hsq : A.n = A.m) {d : Nat → R} (hd : ∀ i, i < A.m → d i ≠ 0)
    {z z' r r' : Nat → R} (h : SymGS A d z r) (h' : SymGS A d z' r') (hr : ∀ i, i < A.m → r i = r' i) :
    ∀ i, i < A.m → z i = z' i := by
  obtain ⟨y, a, b⟩ := h
  obtain ⟨y', a', b'⟩ := h'
  have hy : ∀ n i, i < n → i < A.m → y i = y' i := by
    intro n
    induction n with
    | zero => intro i hi; omega
    | succ n ih =>
      intro i hin hi
      have e : A.lowMul y i = A.lowMul y' i := by
        rw [lowMul_entries hwf hsq hi, lowMul_entries hwf hsq hi]
        refine Finset.sum_congr rfl fun c hc => ?_
        by_cases hci : c < i
        · rw [ih c (by omega) (Finset.mem_range.1 hc)]
        · rw [if_neg hci, if_neg hci]
      have h1 := b i hi
      have h2 := b' i hi
      rw [e] at h1
      rw [hr i hi] at h1
      refine mul_left_cancel₀ (hd i hi) ?_
      linear_combination h1 - h2
  have hz : ∀ n i, A.m - n ≤ i → i < A.m → z i = z' i := by
    intro n
    induction n with
    | zero => intro i h1 h2; omega
    | succ n ih =>
      intro i hin hi
      have e : A.upMul z i = A.upMul z' i := by
        rw [upMul_entries hwf hsq hi, upMul_entries hwf hsq hi]
        refine Finset.sum_congr rfl fun c hc => ?_
        by_cases hci : i < c
        · rw [ih c (by omega) (Finset.mem_range.1 hc)]
        · rw [if_neg hci, if_neg hci]
      have h1 := a i hi
      have h2 := a' i hi
      rw [e, hy (i + 1) i (by omega) hi] at h1
      refine mul_left_cancel₀ (hd i hi) ?_
      linear_combination h2 - h1
  exact fun i hi => hz A.m i (by omega) hi

/-- The method is deterministic. -/
theorem trace_unique {A : Csr R} (hwf : A.WF) (hsq : A.n = A.m) {M : (Nat → R) → (Nat → R) → Prop} {b : Nat → R}
    (hM : ∀ z r z' r', M z r → M z' r' → (∀ i, i < A.m → r i = r' i) → ∀ i, i < A.m → z i = z' i) {K K' : Nat}
    {x r z p x' r' z' p' : Nat → Nat → R} (h : PcgTrace A M b K x r z p) (h' : PcgTrace A M b K' x' r' z' p')
    (hx : ∀ i, i < A.m → x 0 i = x' 0 i) :
    ∀ k, k ≤ K → k ≤ K' → ∀ i, i < A.m → x k i = x' k i ∧ r k i = r' k i ∧ z k i = z' k i ∧ p k i = p' k i := by
  intro k
  induction k with
  | zero =>
    intro h1 h2
    have hr : ∀ i, i < A.m → r 0 i = r' 0 i := by
      intro i hi
      rw [h.start i hi, h'.start i hi, mulVec_congr hwf hsq hi hx]
    have hz := hM _ _ _ _ (h.precond 0 h1) (h'.precond 0 h2) hr
    intro i hi
    exact ⟨hx i hi, hr i hi, hz i hi, by rw [h.first i hi, h'.first i hi]; exact hz i hi⟩
  | succ k ih =>
    intro h1 h2
    have ih := ih (by omega) (by omega)
    have hxk := fun i hi => (ih i hi).1
    have hrk := fun i hi => (ih i hi).2.1
    have hzk := fun i hi => (ih i hi).2.2.1
    have hpk := fun i hi => (ih i hi).2.2.2
    have hAp : ∀ i, i < A.m → A.mulVec (p k) i = A.mulVec (p' k) i := fun i hi => mulVec_congr hwf hsq hi hpk
    have e1 := dotN_congr (n := A.m) hrk hzk
    have e2 := dotN_congr (n := A.m) hpk hAp
    have hr : ∀ i, i < A.m → r (k + 1) i = r' (k + 1) i := by
      intro i hi
      rw [h.residual k (by omega) i hi, h'.residual k (by omega) i hi, e1, e2, hrk i hi, hAp i hi]
    have hz := hM _ _ _ _ (h.precond (k + 1) h1) (h'.precond (k + 1) h2) hr
    have e3 := dotN_congr (n := A.m) hr hz
    intro i hi
    refine ⟨?_, hr i hi, hz i hi, ?_⟩
    · rw [h.iterate k (by omega) i hi, h'.iterate k (by omega) i hi, e1, e2, hxk i hi, hpk i hi]
    · rw [h.direction k (by omega) i hi, h'.direction k (by omega) i hi, e1, e3, hz i hi, hpk i hi]

theorem pcgEnds_unique [LinearOrder R] {A : Csr R} (hwf : A.WF) (hsq : A.n = A.m)
    {M : (Nat → R) → (Nat → R) → Prop} {b x0 : Nat → R}
    (hM : ∀ z r z' r', M z r → M z' r' → (∀ i, i < A.m → r i = r' i) → ∀ i, i < A.m → z i = z' i)
    {nrm : R → R} {tol : R} {maxiter : Nat} {res res' : Nat × R} {xf xf' : Nat → R}
    (h : PcgEnds A M b x0 nrm tol maxiter res xf) (h' : PcgEnds A M b x0 nrm tol maxiter res' xf') :
    res = res' ∧ ∀ i, i < A.m → xf i = xf' i := by
  obtain ⟨K, x, r, z, p, t1, t2, t3, t4, t5, t6⟩ := h
  obtain ⟨K', x', r', z', p', t1', t2', t3', t4', t5', t6'⟩ := h'
  have hu := trace_unique hwf hsq hM t1 t1' (fun i hi => by rw [t2 i hi, t2' i hi])
  have hdot : ∀ k, k ≤ K → k ≤ K' → dotN A.m (r k) (r k) = dotN A.m (r' k) (r' k) := fun k h1 h2 =>
    dotN_congr (fun i hi => (hu k h1 h2 i hi).2.1) (fun i hi => (hu k h1 h2 i hi).2.1)
  have hK : K = K' := by
    rcases Nat.lt_trichotomy K K' with hlt | heq | hgt
    · exfalso
      rcases t6 with ⟨q1, q2, q3⟩ | ⟨_, q2, _⟩
      · refine t5' K q2 hlt ?_
        rw [q1] at q3
        rw [← hdot K (Nat.le_refl _) (by omega), ← hdot 0 (by omega) (by omega)]
        exact q3
      · omega
    · exact heq
    · exfalso
      rcases t6' with ⟨q1, q2, q3⟩ | ⟨_, q2, _⟩
      · refine t5 K' q2 hgt ?_
        rw [q1] at q3
        rw [hdot K' (by omega) (Nat.le_refl _), hdot 0 (by omega) (by omega)]
        exact q3
      · omega
  subst hK
  have eK := hdot K (Nat.le_refl _) (Nat.le_refl _)
  have e0 := hdot 0 (by omega) (by omega)
  refine ⟨?_, fun i hi => by rw [t4 i hi, t4' i hi]; exact (hu K (Nat.le_refl _) (Nat.le_refl _) i hi).1⟩
  rw [← eK, ← e0] at t6'
  rcases t6 with ⟨q1, q2, q3⟩ | ⟨q1, q2, q3⟩ <;> rcases t6' with ⟨q1', q2', q3'⟩ | ⟨q1', q2', q3'⟩
  · rw [q1, q1']
  · exfalso
    have := q3' q2
    rw [q1'] at this
    rw [q1] at q3
    simp only [if_neg (Nat.pos_iff_ne_zero.1 q2)] at this
    exact this q3
  · exfalso
    have := q3 q2'
    rw [q1] at this
    rw [q1'] at q3'
    simp only [if_neg (Nat.pos_iff_ne_zero.1 q2')] at this
    exact this q3'
  · rw [q1, q1']

end unique

section run
variable [Field R] [LinearOrder R] [IsStrictOrderedRing R]

variable {sz : CArr → Int} {T : Nat} {sh : Nat → Share} {nrm : R → R} {tol : R} {A : Csr R} {M : (Nat → R) → (Nat → R) → Prop}
  {d e b x0 : Nat → R}

theorem divS_ok {α : Type} {a c : R} {k : R → Script (CTy R) α} {m : Mem (CTy R)} {Q : α → Mem (CTy R) → Prop}
    (hc : c ≠ 0) (h : (k (a / c)).Ok m Q) : (divS a c k).Ok m Q := by
  unfold divS; rw [if_neg hc]; exact h

/-- What the loop needs of the preconditioner step: it keeps the invariant `Inv`, under which the matrix is held and which does
not depend on vectors and temporaries, and it computes `z` from `r`. -/
structure SolveOk (A : Csr R) (M : (Nat → R) → (Nat → R) → Prop) (ka : Nat) (Inv : Mem (CTy R) → Prop)
    (solve : Script (CTy R) Unit) : Prop where
  pat : ∀ m, Inv m → HoldsPat m ka 0 A
  val : ∀ m, Inv m → HoldsVal m ka A
  frame : ∀ m m', Inv m → (∀ a, (∀ j, a ≠ .vec j) → (∀ j, a ≠ .itmp j) → m' a = m a) → Inv m'
  run : ∀ m rv (Q : Unit → Mem (CTy R) → Prop), Inv m → VecIs m 2 A.m rv →
    (∀ m' z, VecIs m' 3 A.m z → M z rv → (∀ a, a ≠ .vec 3 → a ≠ .vec 4 → a ≠ .itmp 0 → m' a = m a) → Q () m') → solve.Ok m Q

theorem pcgLoop_ok {ka xv : Nat} {Inv : Mem (CTy R) → Prop} {solve : Script (CTy R) Unit} (hT : 1 ≤ T) (hwf : A.WF)
    (hsq : A.n = A.m) (hpd : A.PosDef) (hM : Precond A.m M) (hso : SolveOk A M ka Inv solve)
    (hsh : ∀ n, (sh n).Covers T A.m) (hn0 : nrm 0 = 0) (hnp : ∀ v, 0 < v → 0 < nrm v) (htol : 0 < tol)
    (hxv : xv ∉ [2, 3, 4, 5, 6, 7]) (hszx : (A.m : Int) ≤ sz (.vec xv))
    (hsz : ∀ j, j ∈ [2, 3, 4, 5, 6] → (A.m : Int) ≤ sz (.vec j)) {maxiter : Nat} :
    ∀ (f K : Nat) (m : Mem (CTy R)) (x r z p : Nat → Nat → R) (rel : R), K + f = maxiter →
      PcgTrace A M b K x r z p → (∀ i, i < A.m → x 0 i = x0 i) → (∀ k, k ≤ K → ∃ i, i < A.m ∧ r k i ≠ 0) →
      (∀ k, 0 < k → k ≤ K → ¬ nrm (dotN A.m (r k) (r k)) / nrm (dotN A.m (r 0) (r 0)) < tol) →
      rel = (if K = 0 then 1 else nrm (dotN A.m (r K) (r K)) / nrm (dotN A.m (r 0) (r 0))) →
      Inv m → VecIs m xv A.m (x K) → VecIs m 2 A.m (r K) → VecIs m 5 A.m (p K) →
      (pcgLoop sz T A.m ka xv solve sh nrm tol (nrm (dotN A.m (r 0) (r 0))) f (K + 1) (dotN A.m (r K) (z K)) rel).Ok m
        (fun res m' => (∃ xf, VecIs m' xv A.m xf ∧ PcgEnds A M b x0 nrm tol maxiter res xf) ∧
          ∀ a, a ≠ .itmp 0 → a ≠ .vec xv → (∀ j, a = .vec j → j ∉ [2, 3, 4, 5, 6, 7]) → m' a = m a) := by
  have hne : ∀ j, j ∈ [2, 3, 4, 5, 6, 7] → xv ≠ j := fun j hj h => hxv (h ▸ hj)
  intro f
  induction f with
  | zero =>
    intro K m x r z p rel hK htr hx0 hrne hcrit hrel ho hx hr hp
    unfold pcgLoop
    refine Script.ok_done_of ⟨⟨x K, hx, K, x, r, z, p, htr, hx0, by omega, fun _ _ => rfl,
      fun k h1 h2 => hcrit k h1 (by omega), Or.inr ⟨by rw [hrel], by omega, ?_⟩⟩, fun _ _ _ _ => rfl⟩
    intro h0
    have h0' : K ≠ 0 := by omega
    simp only [hrel, if_neg h0']
    exact hcrit K h0 (Nat.le_refl _)
  | succ f ih =>
    intro K m x r z p rel hK htr hx0 hrne hcrit hrel ho hx hr hp
    have hdef := trace_defined hpd hM htr (hrne K (Nat.le_refl _))
    have hnorm : 0 < nrm (dotN A.m (r 0) (r 0)) := hnp _ (dotN_self_pos (hrne 0 (by omega)))
    unfold pcgLoop
    rw [Script.ok_bind]
    refine Script.Ok.mono (multiplyWithVector_ok (base := 0) (xv := p K) (yv := fun _ => 0) hT (by omega) (by omega) hwf (hso.pat _ ho)
      (fun _ => hso.val _ ho) ?_ ?_ (hsz 6 (by simp)) (by omega)) ?_
    · intro c hc
      exact hp c (by rw [if_neg (by omega)] at hc; omega)
    · intro h; exact absurd ⟨rfl, rfl, rfl⟩ h
    rintro _ m1 ⟨a1, _, a3⟩
    have hAp : VecIs m1 6 A.m (A.mulVec (p K)) := by
      intro i hi; rw [a1 i hi]; simp [Csr.eff]
    have fr1 : ∀ j, j ≠ 6 → j ≠ 7 → m1 (.vec j) = m (.vec j) := fun j h6 h7 => a3 _ (by simpa using h6) (by simpa using h7)
    rw [Script.ok_bind]
    refine dotV_ok (hsh _) (hp.frame (fr1 5 (by omega) (by omega))) hAp ?_
    refine divS_ok hdef.1 ?_
    rw [Script.ok_bind]
    refine Script.Ok.mono (waxpby_ok (xv := x K) (yv := p K) (hx.frame (fr1 xv (hne 6 (by simp)) (hne 7 (by simp))))
      (hp.frame (fr1 5 (by omega) (by omega))) hszx) ?_
    rintro _ m2 ⟨b1, _, b3⟩
    rw [Script.ok_bind]
    refine Script.Ok.mono (waxpby_ok (xv := r K) (yv := A.mulVec (p K)) ?_ ?_ (hsz 2 (by simp))) ?_
    · exact (hr.frame (fr1 2 (by omega) (by omega))).frame (b3 _ (by simpa using (hne 2 (by simp)).symm))
    · exact hAp.frame (b3 _ (by simpa using (hne 6 (by simp)).symm))
    rintro _ m3 ⟨c1, _, c3⟩
    obtain ⟨xn, hxn⟩ : ∃ xn : Nat → R, xn = fun i =>
      1 * x K i + dotN A.m (r K) (z K) / dotN A.m (p K) (A.mulVec (p K)) * p K i := ⟨_, rfl⟩
    obtain ⟨rn, hrn⟩ : ∃ rn : Nat → R, rn = fun i =>
      1 * r K i + (-(dotN A.m (r K) (z K) / dotN A.m (p K) (A.mulVec (p K)))) * A.mulVec (p K) i := ⟨_, rfl⟩
    have hxm : VecIs m3 xv A.m xn := by
      intro i hi; rw [c3 _ (by simpa using hne 2 (by simp)), b1 i hi, hxn]
    have hrm : VecIs m3 2 A.m rn := by
      intro i hi; rw [c1 i hi, hrn]
    have hpm : VecIs m3 5 A.m (p K) := by
      have := (hp.frame (fr1 5 (by omega) (by omega)))
      exact (this.frame (b3 _ (by simpa using (hne 5 (by simp)).symm))).frame (c3 _ (by simp))
    have ho3 : Inv m3 := hso.frame _ _ ho fun a ha _ => by
      rw [c3 _ (ha 2), b3 _ (ha xv), a3 _ (ha 6) (ha 7)]
    rw [Script.ok_bind]
    refine dotV_ok (hsh _) hrm hrm ?_
    refine divS_ok (ne_of_gt hnorm) ?_
    have hx1 : ∀ i, i < A.m → xn i = x K i + dotN A.m (r K) (z K) / dotN A.m (p K) (A.mulVec (p K)) * p K i := by
      intro i hi; rw [hxn]; ring
    have hr1 : ∀ i, i < A.m → rn i = r K i - dotN A.m (r K) (z K) / dotN A.m (p K) (A.mulVec (p K)) * A.mulVec (p K) i := by
      intro i hi; rw [hrn]; ring
    have lo : ∀ (f : Nat → Nat → R) (g : Nat → R) k, k ≤ K → Function.update f (K + 1) g k = f k :=
      fun f g k hk => Function.update_of_ne (by omega) _ _
    have hi : ∀ (f : Nat → Nat → R) (g : Nat → R), Function.update f (K + 1) g (K + 1) = g :=
      fun f g => Function.update_self _ _ _
    by_cases hlt : nrm (dotN A.m rn rn) / nrm (dotN A.m (r 0) (r 0)) < tol
    · rw [if_pos hlt]
      obtain ⟨zn, hzn⟩ := hM.total rn
      refine Script.ok_done_of ⟨⟨xn, hxm, K + 1, _, _, _, _, PcgTrace.extend htr hdef hx1 hr1 hzn (pn := fun i =>
        zn i + dotN A.m rn zn / dotN A.m (r K) (z K) * p K i) (fun _ _ => rfl), ?_, by omega, ?_, ?_, Or.inl ⟨?_, by omega, hlt⟩⟩, ?_⟩
      · rw [lo _ _ 0 (by omega)]; exact hx0
      · rw [hi]; exact fun _ _ => rfl
      · intro k h1 h2
        rw [lo _ _ k (by omega), lo _ _ 0 (by omega)]
        exact hcrit k h1 (by omega)
      · rw [hi, lo _ _ 0 (by omega)]
      · intro a _ hax ha
        rw [c3 _ (fun h => by simpa using ha 2 h), b3 _ hax,
          a3 _ (fun h => by simpa using ha 6 h) (fun h => by simpa using ha 7 h)]
    · rw [if_neg hlt]
      rw [Script.ok_bind]
      refine hso.run m3 rn _ ho3 hrm ?_
      intro m4 zn hz4 hzn f4
      have hr4 : VecIs m4 2 A.m rn := hrm.frame (f4 _ (by simp) (by simp) (by simp))
      have hp4 : VecIs m4 5 A.m (p K) := hpm.frame (f4 _ (by simp) (by simp) (by simp))
      rw [Script.ok_bind]
      refine dotV_ok (hsh _) hr4 hz4 ?_
      refine divS_ok hdef.2 ?_
      rw [Script.ok_bind]
      refine Script.Ok.mono (waxpby_ok (xv := zn) (yv := p K) hz4 hp4 (hsz 5 (by simp))) ?_
      rintro _ m5 ⟨d1, _, d3⟩
      have hpn : VecIs m5 5 A.m (fun i => zn i + dotN A.m rn zn / dotN A.m (r K) (z K) * p K i) := by
        intro i hi; rw [d1 i hi]; congr 1; ring
      have htr' := PcgTrace.extend htr hdef hx1 hr1 hzn (pn := fun i =>
        zn i + dotN A.m rn zn / dotN A.m (r K) (z K) * p K i) (fun _ _ => rfl)
      have key := ih (K + 1) m5 _ _ _ _ (nrm (dotN A.m rn rn) / nrm (dotN A.m (r 0) (r 0))) (by omega) htr' ?_ ?_ ?_ ?_ ?_ ?_ ?_ ?_
      · rw [hi, hi, lo r _ 0 (by omega)] at key
        refine Script.Ok.mono key ?_
        rintro res m6 ⟨k1, k2⟩
        refine ⟨k1, fun a hai hax ha => ?_⟩
        rw [k2 a hai hax ha, d3 _ (fun h => by simpa using ha 5 h),
          f4 _ (fun h => by simpa using ha 3 h) (fun h => by simpa using ha 4 h) hai,
          c3 _ (fun h => by simpa using ha 2 h), b3 _ hax,
          a3 _ (fun h => by simpa using ha 6 h) (fun h => by simpa using ha 7 h)]
      · rw [lo _ _ 0 (by omega)]; exact hx0
      · intro k hk
        rcases Nat.lt_or_eq_of_le hk with h' | rfl
        · rw [lo _ _ k (by omega)]; exact hrne k (by omega)
        · rw [hi]
          by_contra hc
          push Not at hc
          apply hlt
          have : dotN A.m rn rn = 0 := Finset.sum_eq_zero fun i him => by rw [hc i (Finset.mem_range.1 him), zero_mul]
          rw [this, hn0, zero_div]
          exact htol
      · intro k h1 h2
        rw [lo r _ 0 (by omega)]
        rcases Nat.lt_or_eq_of_le h2 with h' | rfl
        · rw [lo _ _ k (by omega)]; exact hcrit k h1 (by omega)
        · rw [hi]; exact hlt
      · rw [if_neg (by omega), hi, lo r _ 0 (by omega)]
      · exact hso.frame _ _ ho3 fun a ha hai => by rw [d3 _ (ha 5), f4 _ (ha 3) (ha 4) (hai 0)]
      · rw [hi]
        exact (hxm.frame (f4 _ (by simpa using hne 3 (by simp)) (by simpa using hne 4 (by simp)) (by simp))).frame
          (d3 _ (by simpa using hne 5 (by simp)))
      · rw [hi]; exact hr4.frame (d3 _ (by simp))
      · rw [hi]; exact hpn

theorem pcgEnds_maxiter {res : Nat × R} {xf : Nat → R} {maxiter : Nat} (hwf : A.WF) (hsq : A.n = A.m) (hs : A.Symm)
    (hM : Precond A.m M) (hn0 : nrm 0 = 0) (htol : 0 < tol)
    (hr0 : ∃ i, i < A.m ∧ b i ≠ A.mulVec x0 i) (hm : A.m ≤ maxiter)
    (h : PcgEnds A M b x0 nrm tol maxiter res xf) : res.2 < tol := by
  obtain ⟨K, x, r, z, p, htr, hx0, h1, h2, h3, h4 | ⟨h4, h5, h6⟩⟩ := h
  · exact h4.2.2
  · exfalso
    have hlt : K < A.m := by
      refine trace_le hwf hsq hs hM htr fun k hk => ?_
      rcases Nat.eq_zero_or_pos k with rfl | hpos
      · obtain ⟨i, hi, hne⟩ := hr0
        refine ⟨i, hi, ?_⟩
        rw [htr.start i hi, mulVec_congr hwf hsq hi hx0]
        exact sub_ne_zero.2 hne
      · have hc : ¬ nrm (dotN A.m (r k) (r k)) / nrm (dotN A.m (r 0) (r 0)) < tol := by
          rcases Nat.lt_or_eq_of_le hk with h' | rfl
          · exact h3 k hpos h'
          · have := h6 hpos
            rw [h4] at this
            simpa [Nat.pos_iff_ne_zero.1 hpos] using this
        by_contra hz
        push Not at hz
        apply hc
        have : dotN A.m (r k) (r k) = 0 :=
          Finset.sum_eq_zero fun i him => by rw [hz i (Finset.mem_range.1 him), zero_mul]
        rw [this, hn0, zero_div]
        exact htol
    omega

theorem pcgEnds_count {res : Nat × R} {xf : Nat → R} {maxiter : Nat} (hwf : A.WF) (hsq : A.n = A.m) (hs : A.Symm)
    (hM : Precond A.m M) (hn0 : nrm 0 = 0) (htol : 0 < tol)
    (hr0 : ∃ i, i < A.m ∧ b i ≠ A.mulVec x0 i) (hlt : res.2 < tol)
    (h : PcgEnds A M b x0 nrm tol maxiter res xf) (hm : A.m ≤ maxiter) : res.1 ≤ A.m := by
  obtain ⟨K, x, r, z, p, htr, hx0, h1, h2, h3, h4 | ⟨h4, h5, h6⟩⟩ := h
  · rw [h4.1]
    by_contra hK
    simp only [not_le] at hK
    have htr' : PcgTrace A M b (K - 1) x r z p :=
      ⟨htr.start, fun k hk => htr.precond k (by omega), htr.first, fun k hk => htr.defined k (by omega),
        fun k hk => htr.iterate k (by omega), fun k hk => htr.residual k (by omega), fun k hk => htr.direction k (by omega)⟩
    have := trace_le hwf hsq hs hM htr' fun k hk => by
      rcases Nat.eq_zero_or_pos k with rfl | hpos
      · obtain ⟨i, hi, hne⟩ := hr0
        refine ⟨i, hi, ?_⟩
        rw [htr.start i hi, mulVec_congr hwf hsq hi hx0]
        exact sub_ne_zero.2 hne
      · by_contra hz
        push Not at hz
        apply h3 k hpos (by omega)
        have : dotN A.m (r k) (r k) = 0 :=
          Finset.sum_eq_zero fun i him => by rw [hz i (Finset.mem_range.1 him), zero_mul]
        rw [this, hn0, zero_div]
        exact htol
    omega
  · obtain ⟨i, hi, _⟩ := hr0
    exact absurd hlt (h6 (by omega))

/-- Symmetric Gauss-Seidel is a symmetric positive definite preconditioner of a symmetric positive definite matrix. -/
theorem symGS_precond (hwf : A.WF) (hsq : A.n = A.m) (hs : A.Symm) (hpd : A.PosDef) (hd : ∀ i, i < A.m → d i = A.entry i i) :
    Precond A.m (SymGS A d) := by
  have hne : ∀ i, i < A.m → d i ≠ 0 := fun i hi => by rw [hd i hi]; exact ne_of_gt (diag_pos hwf hsq hpd hi)
  exact ⟨symGS_exists hwf hsq hne, fun _ _ _ _ h h' => symGS_unique hwf hsq hne h h',
    fun _ _ _ _ h h' => symGS_symm hwf hsq hs h h', fun _ _ h hr => symGS_pos hwf hsq hs hpd hd h hr⟩

theorem pcgMain_ok {ka xv bv : Nat} {Inv : Mem (CTy R) → Prop} {solve : Script (CTy R) Unit} {maxiter : Nat} {m2 : Mem (CTy R)}
    (hT : 1 ≤ T) (hwf : A.WF) (hsq : A.n = A.m) (hpd : A.PosDef) (hM : Precond A.m M) (hso : SolveOk A M ka Inv solve)
    (hinv : Inv m2) (hvx : VecIs m2 xv A.m x0) (hvb : VecIs m2 bv A.m b) (hr0 : ∃ i, i < A.m ∧ b i ≠ A.mulVec x0 i)
    (hsh : ∀ n, (sh n).Covers T A.m) (hn0 : nrm 0 = 0) (hnp : ∀ v, 0 < v → 0 < nrm v) (htol : 0 < tol)
    (hxv : xv ∉ [2, 3, 4, 5, 6, 7]) (hbv : bv ≠ 7) (hszx : (A.m : Int) ≤ sz (.vec xv))
    (hsz : ∀ j, j ∈ [2, 3, 4, 5, 6] → (A.m : Int) ≤ sz (.vec j)) :
    (pcgMain sz T A.m ka xv bv solve sh nrm tol maxiter).Ok m2 (fun res m' =>
      (∃ xf, VecIs m' xv A.m xf ∧ PcgEnds A M b x0 nrm tol maxiter res xf) ∧
      ∀ a, a ≠ .itmp 0 → a ≠ .vec xv → (∀ j, a = .vec j → j ∉ [2, 3, 4, 5, 6, 7]) → m' a = m2 a) := by
  have hne : ∀ j, j ∈ [2, 3, 4, 5, 6, 7] → xv ≠ j := fun j hj h => hxv (h ▸ hj)
  unfold pcgMain
  rw [Script.ok_bind]
  refine Script.Ok.mono (multiplyWithVector_ok (base := 0) (xv := x0) (yv := b) hT
    ⟨by omega, (hne 7 (by simp)).symm, Ne.symm hbv⟩ (by omega) hwf (hso.pat _ hinv)
    (fun _ => hso.val _ hinv) ?_ ?_ (hsz 2 (by simp)) (fun h => absurd h.symm (hne 2 (by simp)))) ?_
  · intro c hc
    exact hvx c (by rw [if_neg (by have := hne 2 (by simp); omega)] at hc; omega)
  · intro _ i hi; exact hvb i hi
  rintro _ m3 ⟨a1, _, a3⟩
  obtain ⟨rv, hrv⟩ : ∃ rv : Nat → R, rv = fun i => b i - A.mulVec x0 i := ⟨_, rfl⟩
  have hr3 : VecIs m3 2 A.m rv := by
    intro i hi; rw [a1 i hi, hrv]; congr 1; simp [Csr.eff]; ring
  have ho3 : Inv m3 := hso.frame _ _ hinv fun a ha _ => a3 _ (ha 2) (ha 7)
  rw [Script.ok_bind]
  refine dotV_ok (hsh _) hr3 hr3 ?_
  rw [Script.ok_bind]
  refine hso.run m3 rv _ ho3 hr3 ?_
  intro m4 zn hz4 hzn f4
  have hr4 : VecIs m4 2 A.m rv := hr3.frame (f4 _ (by simp) (by simp) (by simp))
  rw [Script.ok_bind]
  refine Script.Ok.mono (copyArr_ok (by simp) (hsz 5 (by simp)) (fun i hi => ⟨_, hz4 i hi⟩)) ?_
  rintro _ m5 ⟨c1, c2⟩
  have hp5 : VecIs m5 5 A.m zn := by
    intro i hi; rw [c1 i hi, hz4 i hi]; rfl
  have hr5 : VecIs m5 2 A.m rv := hr4.frame (c2 _ (by simp))
  rw [Script.ok_bind]
  refine dotV_ok (hsh _) hr5 (hz4.frame (c2 _ (by simp))) ?_
  have htr : PcgTrace A M b 0 (fun _ => x0) (fun _ => rv) (fun _ => zn) (fun _ => zn) :=
    ⟨fun i hi => by rw [hrv], fun k hk => hzn, fun _ _ => rfl, fun k hk => by omega, fun k hk => by omega,
      fun k hk => by omega, fun k hk => by omega⟩
  refine Script.Ok.mono (pcgLoop_ok (maxiter := maxiter) hT hwf hsq hpd hM hso hsh hn0 hnp htol hxv hszx hsz maxiter 0 m5 _ _ _ _ 1 (by omega) htr
    (fun _ _ => rfl) ?_ (fun k h1 h2 => by omega) (by simp) ?_ ?_ hr5 hp5) ?_
  · intro k _
    obtain ⟨i, hi, hne⟩ := hr0
    exact ⟨i, hi, by rw [hrv]; exact sub_ne_zero.2 hne⟩
  · exact hso.frame _ _ ho3 fun a ha hai => by rw [c2 _ (ha 5), f4 _ (ha 3) (ha 4) (hai 0)]
  · refine VecIs.frame hvx ?_
    rw [c2 _ (by simpa using hne 5 (by simp)), f4 _ (by simpa using hne 3 (by simp)) (by simpa using hne 4 (by simp)) (by simp),
      a3 _ (by simpa using hne 2 (by simp)) (by simpa using hne 7 (by simp))]
  · rintro res m6 ⟨k1, k2⟩
    refine ⟨k1, fun a hai hax ha => ?_⟩
    rw [k2 a hai hax ha, c2 _ (fun h => by simpa using ha 5 h),
      f4 _ (fun h => by simpa using ha 3 h) (fun h => by simpa using ha 4 h) hai,
      a3 _ (fun h => by simpa using ha 2 h) (fun h => by simpa using ha 7 h)]

theorem pcgSymgs_ok {o : Opt} {ep : Nat → Nat} {maxiter : Nat} {m0 : Mem (CTy R)}
    (hT : 1 ≤ T) (hwf : A.WF) (hsq : A.n = A.m) (hs : A.Symm) (hpd : A.PosDef)
    (hd : ∀ i, i < A.m → d i = A.entry i i) (he : ∀ i, i < A.m → e i * d i = 1)
    (hp : HoldsPat m0 0 0 A) (hv : HoldsVal m0 0 A) (hsz0 : SizesOk sz 0 A o)
    (hext : HoldsExt m0 0 0 A o.extptr ep) (hx : ∀ i j, i < A.m → ep i ≤ j → j < A.ptr (i + 1) → i < A.col j)
    (hdp : o.diagptr → ∀ i : Nat, i < A.m → ∃ v, m0 (.diagptr 0) (i : Int) = some v)
    (hid : ∀ i : Nat, i < A.m → m0 (.idiag 0) (i : Int) = some (e i))
    (hvx : VecIs m0 0 A.m x0) (hvb : VecIs m0 1 A.m b) (hr0 : ∃ i, i < A.m ∧ b i ≠ A.mulVec x0 i)
    (hsh : ∀ n, (sh n).Covers T A.m) (hn0 : nrm 0 = 0) (hnp : ∀ v, 0 < v → 0 < nrm v) (htol : 0 < tol)
    (hsz : ∀ j, j ∈ [0, 2, 3, 4, 5, 6] → (A.m : Int) ≤ sz (.vec j)) :
    (pcgSymgs sz T A.m o sh nrm tol maxiter).Ok m0 (fun res m' =>
      (∃ xf, VecIs m' 0 A.m xf ∧ PcgEnds A (SymGS A d) b x0 nrm tol maxiter res xf) ∧
      ∀ a, ¬ a.ofObj 1 → ¬ a.ofObj 2 → a ≠ .itmp 0 → a ≠ .itmp 1 → a ≠ .vec 0 →
        (∀ j, a = .vec j → j ∉ [2, 3, 4, 5, 6, 7]) → m' a = m0 a) := by
  unfold pcgSymgs
  rw [Script.ok_bind]
  refine Script.Ok.mono (splitLU_ok (k := 0) (kl := 1) (ku := 2) (base := 0) (ep := ep) hT (by omega) hwf (Or.inl rfl)
    (by omega) hp hv hsz0 hext hx hdp (fun i hi => ⟨_, hid i hi⟩)) ?_
  rintro _ m1 ⟨s1, s2, s3, s4, s5, _, s7⟩
  rw [Script.ok_bind, show A.m = (upCsr A).m from rfl]
  refine Script.Ok.mono (scaleU_ok (ev := e) (upCsr_wf hwf) s3 s4 (fun i hi => by rw [(s5 i hi).2]; exact hid i hi)) ?_
  rintro _ m2 ⟨u1, u2, u3⟩
  rw [show (upCsr A).m = A.m from rfl] at *
  have f7 : ∀ j, m2 (.vec j) = m0 (.vec j) := fun j => by
    rw [u3 _ (by simp) (by simp), s7 _ (by simp [CArr.ofObj]) (by simp [CArr.ofObj]) (by simp) (by simp)]
  have g7 : ∀ a, ¬ a.ofObj 1 → ¬ a.ofObj 2 → a ≠ .itmp 0 → a ≠ .itmp 1 → m2 a = m0 a := fun a h1 h2 h3 h4 => by
    rw [u3 _ (fun h => h2 (by rw [h]; simp [CArr.ofObj])) (fun h => h2 (by rw [h]; simp [CArr.ofObj])), s7 a h1 h2 h3 h4]
  obtain ⟨U, hU0⟩ : ∃ U : Csr R, U = { upCsr A with val := fun j => (m2 (.values 2) (j : Int)).getD 0 } := ⟨_, rfl⟩
  have hUm : ∀ y i, i < A.m → U.mulVec y i = A.upMul y i * e i := by
    intro y i hi
    have hU := upCsr_wf hwf
    have h1 : A.upMul y i = (upCsr A).mulVec y i := by
      rw [Props.mulVec_eq_row hU hi, show (upCsr A).row i = upRow A i from Csr.ofRows_row hi]
      rfl
    rw [h1, hU0]
    unfold Csr.mulVec
    rw [Finset.sum_mul]
    refine Finset.sum_congr rfl fun j hj => ?_
    rw [Finset.mem_Ico] at hj
    show (m2 (.values 2) (j : Int)).getD 0 * y ((upCsr A).col j) = _
    rw [u1 i j hi hj.1 hj.2]
    show (upCsr A).val j * e i * _ = _
    ring
  have hLm : ∀ y i, i < A.m → (lowCsr A).mulVec y i = A.lowMul y i := by
    intro y i hi
    rw [Props.mulVec_eq_row (lowCsr_wf hwf) hi, show (lowCsr A).row i = _ from Csr.ofRows_row hi]
    rfl
  have hobj : TriObj m2 1 2 A.m (lowCsr A) U e (fun _ => 1) := by
    have hU := upCsr_wf hwf
    rw [hU0]
    refine ⟨lowCsr_wf hwf, ⟨hU.1, hU.2, hU.3⟩, rfl, rfl, hsq, hsq, s1.of_eq (u3 _ (by simp) (by simp)) (u3 _ (by simp) (by simp)),
      s2.of_eq (u3 _ (by simp) (by simp)), ⟨fun i hi => ?_, fun j hj => ?_⟩, fun j hj => ?_, ?_, u2⟩
    · rw [u3 _ (by simp) (by simp)]; exact s3.rowptr i hi
    · rw [u3 _ (by simp) (by simp)]; exact s3.colidx j hj
    · obtain ⟨i, h1, h2, h3⟩ := hU.exists_row (j := j) hj
      show m2 (.values 2) (j : Int) = some ((m2 (.values 2) (j : Int)).getD 0)
      rw [u1 i j h1 h2 h3]; rfl
    · intro i hi
      rw [u3 _ (by simp) (by simp), (s5 i hi).1]; exact hid i hi
  have hlow : ∀ i j, i < A.m → (lowCsr A).ptr i ≤ j → j < (lowCsr A).ptr (i + 1) → (lowCsr A).col j < i := by
    intro i j hi h1 h2
    have : ((lowCsr A).col j, (lowCsr A).val j) ∈ (lowCsr A).row i := Csr.mem_row.2 ⟨j, h1, h2, rfl⟩
    rw [show (lowCsr A).row i = lowRow A i from Csr.ofRows_row hi] at this
    unfold lowRow at this
    rw [List.mem_filter] at this
    simpa using this.2
  have hup : ∀ i j, i < A.m → U.ptr i ≤ j → j < U.ptr (i + 1) → i < U.col j := by
    intro i j hi h1 h2
    rw [hU0] at h1 h2 ⊢
    have : ((upCsr A).col j, (upCsr A).val j) ∈ (upCsr A).row i := Csr.mem_row.2 ⟨j, h1, h2, rfl⟩
    rw [show (upCsr A).row i = upRow A i from Csr.ofRows_row hi] at this
    unfold upRow at this
    rw [List.mem_filter] at this
    simpa using this.2
  have hne : ∀ i, i < A.m → d i ≠ 0 := fun i hi h0 => by
    have := he i hi
    rw [h0, mul_zero] at this
    exact zero_ne_one this
  refine Script.Ok.mono (pcgMain_ok (M := SymGS A d) (x0 := x0) (b := b)
    (Inv := fun m => HoldsPat m 0 0 A ∧ HoldsVal m 0 A ∧ TriObj m 1 2 A.m (lowCsr A) U e (fun _ => 1)) hT hwf hsq hpd
    (symGS_precond hwf hsq hs hpd hd) ⟨fun _ h => h.1, fun _ h => h.2.1, ?_, ?_⟩ ⟨?_, ?_, hobj⟩ ?_ ?_ hr0 hsh hn0 hnp htol
    (by simp) (by omega) (hsz 0 (by simp)) (fun j hj => hsz j (List.mem_cons_of_mem _ hj))) ?_
  · intro m m' h hf
    exact ⟨h.1.of_eq (hf _ (by simp) (by simp)) (hf _ (by simp) (by simp)), h.2.1.of_eq (hf _ (by simp) (by simp)), h.2.2.frame hf⟩
  · intro m rv Q h hr hQ
    refine refSolve_ok h.2.2 hlow hup hr (hsz 3 (by simp)) (hsz 4 (by simp)) fun m' z hz ht hf => ?_
    exact hQ m' z hz (symGS_of_triSolve he hLm hUm ht) fun a h3 h4 _ => hf a h3 h4
  · exact hp.of_eq (g7 _ (by simp [CArr.ofObj]) (by simp [CArr.ofObj]) (by simp) (by simp))
      (g7 _ (by simp [CArr.ofObj]) (by simp [CArr.ofObj]) (by simp) (by simp))
  · exact hv.of_eq (g7 _ (by simp [CArr.ofObj]) (by simp [CArr.ofObj]) (by simp) (by simp))
  · exact VecIs.frame hvx (f7 0)
  · exact VecIs.frame hvb (f7 1)
  · rintro res m6 ⟨k1, k2⟩
    refine ⟨k1, fun a h1 h2 h3 h4 h0 ha => ?_⟩
    rw [k2 a h3 h0 ha, g7 a h1 h2 h3 h4]

end run
end SpMP
