import Verif.SpMVInt
import Verif.Props.IntRange
import Verif.Props.Linear
/-
Property theorems C69 for the products of SpMV.cpp and for getBandwidth: up to which sizes the 32-bit ints of the code are enough.
-/

namespace SpMP.Props
open SpMP SpMP.Spec

variable {R : Type}

/-! ## Products with a vector -/

/-- C69 for multiplyWithVector: C22 with checked index arithmetic, if entries and threads together are fewer than 2^31 and the last row
number plus one is an int. -/
theorem C69_spmv_partial [CommRing R] [DecidableEq R] {sz : CArr → Int} {T k base : Nat} {A : Csr R} {pat : Bool}
    {w x y tmp : Nat} {α β γ : R} {m0 : Mem (CTy R)} {xv yv : Nat → R} (hT : 1 ≤ T) (hbase : base ≤ 1)
    (hbm : (A.m : Int) + base ≤ 2147483647) (hbz : (A.nnz : Int) + T ≤ 2147483647)
    (htmp : tmp ≠ w ∧ tmp ≠ x ∧ tmp ≠ y) (halias : w = x → A.n ≤ A.m)
    (hwf : A.WF) (hp : HoldsPat m0 k base A) (hv : pat = false → HoldsVal m0 k A)
    (hx : ∀ c : Nat, c < max A.n (if w = x then A.m else 0) → m0 (.vec x) (c : Int) = some (xv c))
    (hy : ¬ (α = 1 ∧ β = 0 ∧ γ = 0) → ∀ i : Nat, i < A.m → m0 (.vec y) (i : Int) = some (yv i))
    (hsz : (A.m : Int) ≤ sz (.vec w)) (hszt : w = x → (A.m : Int) ≤ sz (.vec tmp)) :
    (multiplyWithVectorC sz T k A.m pat w x y tmp α β γ).Ok m0 (fun _ m' =>
      (∀ i : Nat, i < A.m → m' (.vec w) (i : Int) =
        some (α * (∑ j ∈ Finset.Ico (A.ptr i) (A.ptr (i + 1)), (if pat then 1 else A.val j) * xv (A.col j)) + β * yv i + γ)) ∧
      (∀ i : Int, ¬ (0 ≤ i ∧ i < A.m) → m' (.vec w) i = m0 (.vec w) i) ∧
      ∀ a, a ≠ .vec w → a ≠ .vec tmp → m' a = m0 a) :=
  (C22_spmv_partial hT htmp halias hwf hp hv hx hy hsz hszt).sim (sim_multiplyWithVector hwf hp hbase hbm hbz) fun _ _ _ => rfl

/-- C69: entries and threads must be fewer than 2^31 (`w` and `x` different). -/
theorem C69_spmv_only [CommRing R] [DecidableEq R] {sz : CArr → Int} {T k base : Nat} {A : Csr R} {pat : Bool} {w x y tmp : Nat}
    {α β γ : R} {m0 : Mem (CTy R)} {Q : Unit → Mem (CTy R) → Prop} (hT : 1 ≤ T) (hwx : w ≠ x) (hwf : A.WF) (hp : HoldsPat m0 k base A)
    (h : (multiplyWithVectorC sz T k A.m pat w x y tmp α β γ).Ok m0 Q) : (A.nnz : Int) + T ≤ 2147483647 := by
  unfold multiplyWithVectorC at h
  rw [if_neg hwx] at h
  exact lbPart_only hwf hp hT h

/-! ## Bandwidth -/

/-- C69 for getBandwidth: C27 with checked arithmetic under the same conditions and with columns that are ints. -/
theorem C69_bandwidth_partial {sz : CArr → Int} {T k base : Nat} {A : Csr R} {m0 : Mem (CTy R)} {tr : RedTree} (hT : 1 ≤ T)
    (hbase : base ≤ 1) (hbm : (A.m : Int) + base ≤ 2147483647) (hbn : (A.n : Int) + base ≤ 2147483648)
    (hbz : (A.nnz : Int) + T ≤ 2147483647) (htr : tr.Admissible T) (hwf : A.WF) (hp : HoldsPat m0 k base A) :
    (getBandwidthC sz T k A.m tr).Ok m0 (fun b m' => m' = m0 ∧
      (∀ i j, A.InRow i j → |(A.col j : Int) - i| ≤ b) ∧
      (0 < A.nnz → ∃ i j, A.InRow i j ∧ b = |(A.col j : Int) - i|) ∧ (A.nnz = 0 → b = intMin)) :=
  (C27_bandwidth hT htr hwf hp).sim (sim_getBandwidth hwf hp hbase hbm hbn hbz) fun _ _ _ => rfl

/-- C69: and entries and threads must be fewer than 2^31. -/
theorem C69_bandwidth_only {sz : CArr → Int} {T k base : Nat} {A : Csr R} {m0 : Mem (CTy R)} {tr : RedTree}
    {Q : Int → Mem (CTy R) → Prop} (hT : 1 ≤ T) (hwf : A.WF) (hp : HoldsPat m0 k base A)
    (h : (getBandwidthC sz T k A.m tr).Ok m0 Q) : (A.nnz : Int) + T ≤ 2147483647 :=
  lbPart_only hwf hp hT h

/-! ## Products with a dense matrix -/

/-- C69 for multiplyWithDenseMatrix(W, k, X), whose operands are stored by columns: `W = A*X` with checked index arithmetic, if the
larger operand, counted from the base, has at most 2^31 elements. -/
theorem C69_spmdm_partial [CommRing R] [DecidableEq R] {sz : CArr → Int} {T k base kk : Nat} {A : Csr R} {w x : Nat}
    {m0 : Mem (CTy R)} {xv yv : Nat → Nat → R} (hT : 1 ≤ T) (hwx : w ≠ x) (hbase : base ≤ 1) (hbm : (A.m : Int) + base ≤ 2147483647)
    (hbz : (A.nnz : Int) + T ≤ 2147483647) (hbk : (kk : Int) * max A.m A.n + base ≤ 2147483648)
    (hwf : A.WF) (hp : HoldsPat m0 k base A) (hv : HoldsVal m0 k A)
    (hx : ∀ c i3 : Nat, c < A.n → i3 < kk → m0 (.vec x) ((c : Int) + (i3 : Int) * A.n) = some (xv c i3))
    (hy : ∀ i i3 : Nat, i < A.m → i3 < kk → m0 (.vec w) ((i : Int) + (i3 : Int) * A.m) = some (yv i i3))
    (hsz : (A.m : Int) * kk ≤ sz (.vec w)) :
    (multiplyWithDenseMatrixC sz T k A.m kk ⟨w, 1, A.m⟩ ⟨x, 1, A.n⟩ ⟨w, 1, A.m⟩ 1 0 0).Ok m0 (fun _ m' =>
      (∀ i c : Nat, i < A.m → c < kk → m' (.vec w) ((i : Int) + (c : Int) * A.m) =
        some (∑ j ∈ Finset.Ico (A.ptr i) (A.ptr (i + 1)), A.val j * xv (A.col j) c)) ∧
      ∀ a, a ≠ .vec w → m' a = m0 a) := by
  have hmul : ∀ (d : Nat) (c : Nat), d ≤ max A.m A.n → c < kk → (0 : Int) ≤ (c : Int) * d ∧ (c : Int) * d + d ≤ (kk : Int) * max A.m A.n := by
    intro d c h1 h2
    have : (c + 1) * d ≤ kk * max A.m A.n := Nat.mul_le_mul h2 h1
    have e : ((c : Int) + 1) * d ≤ (kk : Int) * ((max A.m A.n : Nat) : Int) := by exact_mod_cast this
    refine ⟨Int.mul_nonneg (by omega) (by omega), ?_⟩
    have e2 : ((c : Int) + 1) * d = (c : Int) * d + d := by ring
    rw [e2] at e
    exact e
  have hidx : ∀ (v d : Nat), d ≤ max A.m A.n → IdxInt base d kk ⟨v, 1, d⟩ := by
    intro v d hd i c h0 h1 h2 h3
    obtain ⟨c, rfl⟩ := Int.eq_ofNat_of_zero_le h2
    have := hmul d c hd (by omega)
    show InInt (i * 1) ∧ InInt ((c : Int) * (d : Int)) ∧ InInt (i * 1 + (c : Int) * (d : Int))
    unfold InInt
    omega
  have hdiv : ∀ i c : Nat, i < A.m → c < kk → (0 : Int) ≤ (i : Int) + (c : Int) * A.m ∧ (i : Int) + (c : Int) * A.m < (A.m : Int) * kk := by
    intro i c hi hc
    have : (c + 1) * A.m ≤ kk * A.m := Nat.mul_le_mul_right _ hc
    have e : ((c : Int) + 1) * A.m ≤ (kk : Int) * A.m := by exact_mod_cast this
    have e2 : ((c : Int) + 1) * A.m = (c : Int) * A.m + A.m := by ring
    have e3 : (A.m : Int) * kk = (kk : Int) * A.m := by ring
    have e4 : (0 : Int) ≤ (c : Int) * A.m := Int.mul_nonneg (by omega) (by omega)
    omega
  have base' := C23_spmdm_partial (sz := sz) (T := T) (kk := kk) (w := ⟨w, 1, A.m⟩) (x := ⟨x, 1, A.n⟩) (y := ⟨w, 1, A.m⟩) (α := 1) (β := 0)
    (γ := 0) (xv := xv) (yv := yv) hT hwx (fun _ => rfl) (Or.inr ⟨rfl, rfl, rfl⟩) hwf hp hv
    (fun c i3 h1 h2 => by simpa using hx c i3 h1 h2) (fun c i3 h1 h2 => by simpa using hy c i3 h1 h2)
    (by
      intro i c i' c' h1 h2 h3 h4 he
      have he : i + c * A.m = i' + c' * A.m := by
        have : (i : Int) + (c : Int) * A.m = (i' : Int) + (c' : Int) * A.m := by simpa using he
        exact_mod_cast this
      have e1 : (i + c * A.m) % A.m = i := by rw [Nat.add_mul_mod_self_right]; exact Nat.mod_eq_of_lt h1
      have e2 : (i' + c' * A.m) % A.m = i' := by rw [Nat.add_mul_mod_self_right]; exact Nat.mod_eq_of_lt h3
      have e3 : i = i' := by rw [← e1, ← e2, he]
      refine ⟨e3, ?_⟩
      subst e3
      exact Nat.eq_of_mul_eq_mul_right (by omega) (Nat.add_left_cancel he))
    (by
      intro i c h1 h2
      have := hdiv i c h1 h2
      simp only [Int.mul_one]
      omega)
  refine Script.Ok.mono (base'.sim (sim_multiplyWithDenseMatrix hwf hp hbase hbm hbz (hidx w A.m (by omega)) (hidx x A.n (by omega))
    (hidx w A.m (by omega))) fun _ _ _ => rfl) ?_
  rintro _ m' ⟨h1, _, h3⟩
  refine ⟨fun i c hi hc => ?_, h3⟩
  have := h1 i c hi hc
  simpa using this

theorem rets_spmdmRow [CommRing R] [DecidableEq R] {k base kk m n w x : Nat} (hk : 1 ≤ kk) (i : Int) :
    (spmdmRowC (R := R) k base kk ⟨w, 1, m⟩ ⟨x, 1, n⟩ ⟨w, 1, m⟩ 1 0 0 i).Rets fun _ => InInt (i + ((kk : Int) - 1) * m) := by
  unfold spmdmRowC
  rw [if_pos ⟨rfl, rfl, rfl, rfl, rfl, rfl⟩]
  refine Prog.Rets.bind (P := fun _ => True) (fun _ => trivial) fun lo _ => (Prog.Rets.ck _).bind fun i1 _ =>
    Prog.Rets.bind (P := fun _ => True) (fun _ => trivial) fun hi _ => ?_
  refine Prog.Rets.bind (P := fun _ => True) ?_ fun s _ => ?_
  · refine Prog.Rets.forUp (I := fun _ _ => True) trivial fun j s _ _ _ => Prog.Rets.forUp (I := fun _ _ => True) trivial fun c s _ _ _ => ?_
    exact Prog.Rets.bind (P := fun _ => True) (fun _ => trivial) fun _ _ => Prog.Rets.bind (P := fun _ => True) (fun _ => trivial) fun _ _ =>
      (Prog.Rets.ck _).bind fun _ _ => (Prog.Rets.ck _).bind fun _ _ => Prog.Rets.bind (P := fun _ => True) (fun _ => trivial) fun _ _ => trivial
  · have := Prog.Rets.forUp (ty := CTy R) (lo := 0) (hi := (kk : Int)) (s := ()) (I := fun c _ => 0 < c → InInt (i + (c - 1) * m))
      (b := fun i3 _ => do
        let q ← iMul i3 (m : Int)
        let a ← iAdd i q
        Prog.write (ty := CTy R) (.vec w) (a - base) (s i3)) (fun h => absurd h (by omega)) (by
        intro c s' _ _ _
        refine Prog.Rets.bind (Prog.Rets.iMul _ _) ?_
        rintro _ ⟨rfl, _⟩
        refine Prog.Rets.bind (Prog.Rets.iAdd _ _) ?_
        rintro _ ⟨rfl, h⟩
        intro _
        rwa [Int.add_sub_cancel])
    refine this.mono fun _ h => ?_
    have := h (by omega)
    rwa [show max 0 (kk : Int) = kk by omega] at this

/-- C69: one thread that multiplies a matrix with `m > 0` rows by `k > 0` columns runs without overflow only if the result, counted from
the base, has at most 2^31 elements. -/
theorem C69_spmdm_only [CommRing R] [DecidableEq R] {sz : CArr → Int} {k base kk : Nat} {A : Csr R} {w x : Nat}
    {m0 : Mem (CTy R)} {Q : Unit → Mem (CTy R) → Prop} (hk : 1 ≤ kk) (hm : 1 ≤ A.m) (hwf : A.WF) (hp : HoldsPat m0 k base A)
    (h : (multiplyWithDenseMatrixC sz 1 k A.m kk ⟨w, 1, A.m⟩ ⟨x, 1, A.n⟩ ⟨w, 1, A.m⟩ 1 0 0).Ok m0 Q) :
    (kk : Int) * A.m + base ≤ 2147483648 := by
  obtain ⟨b, hb, h'⟩ := readBase_ok hwf hp h
  subst hb
  obtain ⟨r, m'', hr, _⟩ := ParOk.run_aux (t := 0) (by omega) _ _ m0 rfl h'
  have key : (rowsOfC (lbPartC k A.m 1 0) (base : Int) (spmdmRowC (R := R) k base kk ⟨w, 1, A.m⟩ ⟨x, 1, A.n⟩ ⟨w, 1, A.m⟩ 1 0 0)).Rets
      fun _ => InInt ((A.m : Int) + base - 1 + ((kk : Int) - 1) * A.m) := by
    unfold rowsOfC
    refine Prog.Rets.bind rets_lbPart_one ?_
    rintro _ rfl
    refine Prog.Rets.bind (Prog.Rets.iAdd _ _) ?_
    rintro _ ⟨rfl, _⟩
    refine Prog.Rets.bind (Prog.Rets.iAdd _ _) ?_
    rintro _ ⟨rfl, _⟩
    have := Prog.Rets.forUp (ty := CTy R) (lo := 0 + (base : Int)) (hi := (A.m : Int) + base) (s := ())
      (I := fun c _ => (base : Int) < c → InInt (c - 1 + ((kk : Int) - 1) * A.m))
      (b := fun i _ => spmdmRowC (R := R) k base kk ⟨w, 1, A.m⟩ ⟨x, 1, A.n⟩ ⟨w, 1, A.m⟩ 1 0 0 i) (fun h => absurd h (by omega)) (by
        intro i s' _ _ _
        refine (rets_spmdmRow hk i).mono fun _ h _ => ?_
        rwa [Int.add_sub_cancel])
    refine this.mono fun _ h => ?_
    have := h (by omega)
    rwa [show max (0 + (base : Int)) ((A.m : Int) + base) = A.m + base by omega] at this
  have := (key.run hr).2
  have e : ((kk : Int) - 1) * A.m = (kk : Int) * A.m - A.m := by ring
  omega

/-- The matrix with `m` rows, `n` columns and no entries. -/
def noEntries (m n : Nat) : Csr Int where
  m := m
  n := n
  ptr := fun _ => 0
  col := fun _ => 0
  val := fun _ => 0

theorem noEntries_wf (m n : Nat) : (noEntries m n).WF := ⟨rfl, fun _ _ => Nat.le_refl _, fun j hj => absurd hj (Nat.not_lt_zero j)⟩

/-- C69 is false for the product with a dense matrix: the elements of an operand with more than 2^31 of them cannot be addressed, although
the function takes such sizes: two rows and 2^30 + 1 columns. -/
theorem C69_spmdm_false :
    ¬ (∀ (A : Csr Int) (kk : Nat) (sz : CArr → Int) (m0 : Mem (CTy Int)), A.WF → (A.m : Int) < 2147483647 → (A.n : Int) < 2147483647 →
      (A.nnz : Int) + 1 < 2147483647 → (kk : Int) < 2147483647 → (A.m : Int) * kk ≤ sz (.vec 0) →
      HoldsPat m0 0 0 A → HoldsVal m0 0 A → (∀ i, m0 (.vec 0) i = some 0) → (∀ i, m0 (.vec 1) i = some 0) →
      (multiplyWithDenseMatrixC sz 1 0 A.m kk ⟨0, 1, A.m⟩ ⟨1, 1, A.n⟩ ⟨0, 1, A.m⟩ 1 0 0).Ok m0 (fun _ m' =>
        ∀ i c : Nat, i < A.m → c < kk → m' (.vec 0) ((i : Int) + (c : Int) * A.m) = some 0)) := by
  intro h
  let m0 : Mem (CTy Int) := fun a i => match a with
    | .vec _ => some 0
    | a => csrMem 0 0 (noEntries 2 1) (fun _ => 0) (fun _ => 0) a i
  have hp : HoldsPat m0 0 0 (noEntries 2 1) := by
    have := csrMem_pat 0 0 (noEntries 2 1) (fun _ => 0) (fun _ => 0)
    exact ⟨this.rowptr, this.colidx⟩
  have h1 := h (noEntries 2 1) 1073741825 (fun _ => 4294967296) m0 (noEntries_wf _ _) (show ((2 : Nat) : Int) < 2147483647 by omega)
    (show ((1 : Nat) : Int) < 2147483647 by omega) (show ((0 : Nat) : Int) + 1 < 2147483647 by omega) (by omega)
    (show ((2 : Nat) : Int) * ((1073741825 : Nat) : Int) ≤ 4294967296 by omega) hp (csrMem_val 0 0 (noEntries 2 1) _ _) (fun _ => rfl) (fun _ => rfl)
  have h2 := C69_spmdm_only (by omega) (show 1 ≤ 2 by omega) (noEntries_wf 2 1) hp h1
  have h3 : ((1073741825 : Nat) : Int) * ((2 : Nat) : Int) + ((0 : Nat) : Int) ≤ 2147483648 := h2
  omega

-- With one column less the bound is met.
example : (((1073741824 : Nat) : Int) * max (noEntries 2 1).m (noEntries 2 1).n + (0 : Nat) : Int) ≤ 2147483648 := by
  show ((1073741824 : Nat) : Int) * max ((2 : Nat) : Int) ((1 : Nat) : Int) + ((0 : Nat) : Int) ≤ 2147483648
  rw [show max ((2 : Nat) : Int) ((1 : Nat) : Int) = 2 by omega]
  omega

-- Products and bandwidth of the 3x3 example matrix for a team of two.
example : (multiplyWithVectorC (fun _ => 3) 2 0 exampleCsr.m false 1 0 1 2 1 0 0).Ok
    (withVec (csrMem 0 0 exampleCsr (fun _ => 0) (fun _ => 0)) 0 3 (fun _ => 1)) (fun _ m' => ∀ i : Nat, i < 3 → ∃ v, m' (.vec 1) (i : Int) = some v) :=
  Script.Ok.mono (C69_spmv_partial (base := 0) (xv := fun _ => 1) (yv := fun _ => 0) (by omega) (by omega) (show ((3 : Nat) : Int) + ((0 : Nat) : Int) ≤ 2147483647 by omega)
    (show ((exampleCsr.nnz : Nat) : Int) + ((2 : Nat) : Int) ≤ 2147483647 by have : exampleCsr.nnz ≤ 100 := by decide
                                                                             omega)
    (by decide) (by decide) exampleCsr_wf (withVec_pat (csrMem_pat 0 0 _ _ _)) (fun _ => withVec_val (csrMem_val 0 0 _ _ _))
    (fun c hc => withVec_get (by have : c < max 3 0 := hc
                                 omega)) (fun h => absurd ⟨rfl, rfl, rfl⟩ h) (by decide) (fun h => absurd h (by decide)))
    (by rintro _ m' ⟨h, _⟩ i hi; exact ⟨_, h i hi⟩)

end SpMP.Props
