import Verif.IntRange
import Verif.SpMDM
import Verif.CsrMetrics
/-
The products with a vector and with a dense matrix (/repo/SpMV.cpp) and CSR::getBandwidth (/repo/CSR.cpp:631-656) with the index
arithmetic in 32-bit ints. The pieces correspond one by one to those of SpMV.lean, SpMDM.lean and CsrMetrics.lean. Left unchecked: the
increments of loop counters (a counter stops at its bound, which is an int).
-/

namespace SpMP
open Spec

set_option linter.unusedSectionVars false

/-- Thread code: compute the range, `iBegin += base; iEnd += base;` (SpMV.cpp:65-66, 216-217), then the rows. -/
def rowsOfC {A : Type} {ty : A → Type} (part : Prog ty (Int × Int)) (off : Int) (body : Int → Prog ty Unit) : Prog ty Unit := do
  let be ← part
  let b ← iAdd be.1 off
  let e ← iAdd be.2 off
  Prog.forUp b e () (fun i _ => body i)

/-- getLoadBalancedPartition on the row pointers (Utils.cpp:48-63). -/
def lbPartC {R : Type} (k m T t : Nat) : Prog (CTy R) (Int × Int) :=
  loadBalancedC (fun i => Prog.read (ty := CTy R) (.rowptr k) i) T t m

section
variable {R : Type} [CommRing R] [DecidableEq R] [Races CArr]

/-- SpMV.cpp:70-131: `i + 1`. -/
def spmvSumC (k base : Nat) (pat : Bool) (x : Nat) (step : R → R → R) (i : Int) (s : R) : Prog (CTy R) R := do
  let lo ← Prog.read (ty := CTy R) (.rowptr k) (i - base)
  let i1 ← iAdd i 1
  let hi ← Prog.read (ty := CTy R) (.rowptr k) (i1 - base)
  Prog.forUp (ty := CTy R) (lo : Int) (hi : Int) s fun j s => do
    let v ← (if pat then pure 1 else Prog.read (ty := CTy R) (.values k) (j - base) : Prog (CTy R) R)
    let c ← Prog.read (ty := CTy R) (.colidx k) (j - base)
    let xc ← Prog.read (ty := CTy R) (.vec x) ((c : Int) - base)
    pure (step s (v * xc))

/-- SpMV.cpp:70-131. -/
def spmvRowC (k base : Nat) (pat : Bool) (w x y : Nat) (α β γ : R) (i : Int) : Prog (CTy R) Unit :=
  if 1 = α ∧ 0 = β ∧ 0 = γ then do
    let s ← spmvSumC k base pat x (· + ·) i 0
    Prog.write (ty := CTy R) (.vec w) (i - base) s
  else if -1 = α ∧ 1 = β ∧ 0 = γ then do
    let s0 ← Prog.read (ty := CTy R) (.vec y) (i - base)
    let s ← spmvSumC k base pat x (· - ·) i s0
    Prog.write (ty := CTy R) (.vec w) (i - base) s
  else do
    let s ← spmvSumC k base pat x (· + ·) i 0
    let yi ← Prog.read (ty := CTy R) (.vec y) (i - base)
    Prog.write (ty := CTy R) (.vec w) (i - base) (α * s + β * yi + γ)

/-- SpMV.cpp:34-152. -/
def spmvTeamC (sz : CArr → Int) (T k m : Nat) (pat : Bool) (w x y : Nat) (α β γ : R) : Script (CTy R) Unit :=
  .seq sz (Prog.read (ty := CTy R) (.rowptr k) 0) fun (base : Int) =>
  .phase sz T (fun t => rowsOfC (lbPartC k m T t) base (spmvRowC k base.toNat pat w x y α β γ)) fun _ => .done ()

/-- SpMV.cpp:154-176. -/
def multiplyWithVectorC (sz : CArr → Int) (T k m : Nat) (pat : Bool) (w x y tmp : Nat) (α β γ : R) : Script (CTy R) Unit :=
  if w = x then
    .phase sz m (fun i => do
      let v ← Prog.read (ty := CTy R) (.vec x) i
      Prog.write (ty := CTy R) (.vec tmp) i v) fun _ =>
    spmvTeamC sz T k m pat w tmp y α β γ
  else spmvTeamC sz T k m pat w x y α β γ

/-- SpMV.cpp:220-250: `i1 + 1`, `colidx[i2] + i3*xColumnStride`, `i1 + i3*wColumnStride`, and with the row strides. -/
def spmdmRowC (k base : Nat) (kk : Nat) (w x y : DenseOp) (α β γ : R) (i1 : Int) : Prog (CTy R) Unit :=
  if 1 = α ∧ 0 = β ∧ 0 = γ ∧ 1 = w.rs ∧ 1 = x.rs ∧ 1 = y.rs then do
    let lo ← Prog.read (ty := CTy R) (.rowptr k) (i1 - base)
    let i ← iAdd i1 1
    let hi ← Prog.read (ty := CTy R) (.rowptr k) (i - base)
    let s ← Prog.forUp (ty := CTy R) (lo : Int) (hi : Int) (fun _ : Int => (0 : R)) fun i2 s =>
      Prog.forUp (ty := CTy R) 0 kk s fun i3 s => do
        let v ← Prog.read (ty := CTy R) (.values k) (i2 - base)
        let c ← Prog.read (ty := CTy R) (.colidx k) (i2 - base)
        let q ← iMul i3 x.cs
        let a ← iAdd (c : Int) q
        let xx ← Prog.read (ty := CTy R) (.vec x.id) (a - base)
        pure (updI s i3 (s i3 + v * xx))
    Prog.forUp (ty := CTy R) 0 kk () fun i3 _ => do
      let q ← iMul i3 w.cs
      let a ← iAdd i1 q
      Prog.write (ty := CTy R) (.vec w.id) (a - base) (s i3)
  else do
    let lo ← Prog.read (ty := CTy R) (.rowptr k) (i1 - base)
    let i ← iAdd i1 1
    let hi ← Prog.read (ty := CTy R) (.rowptr k) (i - base)
    let s ← Prog.forUp (ty := CTy R) (lo : Int) (hi : Int) (fun _ : Int => (0 : R)) fun i2 s =>
      Prog.forUp (ty := CTy R) 0 kk s fun i3 s => do
        let v ← Prog.read (ty := CTy R) (.values k) (i2 - base)
        let c ← Prog.read (ty := CTy R) (.colidx k) (i2 - base)
        let p ← iMul (c : Int) x.rs
        let q ← iMul i3 x.cs
        let a ← iAdd p q
        let xx ← Prog.read (ty := CTy R) (.vec x.id) (a - base)
        pure (updI s i3 (s i3 + v * xx))
    Prog.forUp (ty := CTy R) 0 kk () fun i3 _ => do
      let p ← iMul i1 y.rs
      let q ← iMul i3 y.cs
      let a ← iAdd p q
      let yy ← Prog.read (ty := CTy R) (.vec y.id) (a - base)
      let p ← iMul i1 w.rs
      let q ← iMul i3 w.cs
      let a ← iAdd p q
      Prog.write (ty := CTy R) (.vec w.id) (a - base) (α * s i3 + β * yy + γ)

/-- SpMV.cpp:184-296. -/
def multiplyWithDenseMatrixC (sz : CArr → Int) (T k m : Nat) (kk : Nat) (w x y : DenseOp) (α β γ : R) : Script (CTy R) Unit :=
  .seq sz (Prog.read (ty := CTy R) (.rowptr k) 0) fun (base : Int) =>
  .phase sz T (fun t => rowsOfC (lbPartC k m T t) base (spmdmRowC k base.toNat kk w x y α β γ)) fun _ => .done ()

end

section
variable {R : Type} [Races CArr]

/-- CSR.cpp:640-652: `iBegin + base`, `i + 1`, `c - i`, `-temp`. -/
def bandwidthThreadC (k base m T t : Nat) : Prog (CTy R) Int := do
  let be ← lbPartC k m T t
  let b ← iAdd be.1 base
  let e ← iAdd be.2 base
  Prog.forUp (ty := CTy R) b e intMin fun i bw => do
    let lo ← Prog.read (ty := CTy R) (.rowptr k) (i - base)
    let i1 ← iAdd i 1
    let hi ← Prog.read (ty := CTy R) (.rowptr k) (i1 - base)
    Prog.forUp (ty := CTy R) (lo : Int) (hi : Int) bw fun j bw => do
      let c ← Prog.read (ty := CTy R) (.colidx k) (j - base)
      let temp ← iSub (c : Int) i
      let temp ← (if temp < 0 then iSub 0 temp else pure temp : Prog (CTy R) Int)
      pure (max temp bw)

/-- CSR.cpp:631-656. -/
def getBandwidthC (sz : CArr → Int) (T k m : Nat) (tr : RedTree) : Script (CTy R) Int :=
  .seq sz (Prog.read (ty := CTy R) (.rowptr k) 0) fun (base : Int) =>
  .phase sz T (fun t => bandwidthThreadC k base.toNat m T t) fun r => .done (tr.eval max (redVals T intMin r))

end

/-! ### Proofs -/

section
variable {R : Type} {A : Csr R} {k base T : Nat} {m0 : Mem (CTy R)}

/-- The arrays of the pattern. -/
def PatSrc (k : Nat) (a : CArr) : Prop := a = .rowptr k ∨ a = .colidx k

theorem not_pat_vec {v : Nat} : ¬ PatSrc k (.vec v) := by rintro (h | h) <;> cases h

theorem pat_ptr (hwf : A.WF) (hp : HoldsPat m0 k base A) {i v : Int} (h0 : 0 ≤ i) (h1 : i ≤ A.m)
    (h : PatSrc k (.rowptr k) → m0 (.rowptr k) i = some v) : v = (A.ptr i.toNat : Int) + base ∧ A.ptr i.toNat ≤ A.nnz := by
  obtain ⟨i, rfl⟩ := Int.eq_ofNat_of_zero_le h0
  have := h (Or.inl rfl)
  rw [hp.rowptr i (by omega)] at this
  exact ⟨(Option.some.inj this).symm, hwf.ptr_mono (by omega) (by omega)⟩

theorem pat_col (hwf : A.WF) (hp : HoldsPat m0 k base A) {j v : Int} (h0 : 0 ≤ j) (h1 : j < A.nnz)
    (h : PatSrc k (.colidx k) → m0 (.colidx k) j = some v) : (base : Int) ≤ v ∧ v < A.n + base := by
  obtain ⟨j, rfl⟩ := Int.eq_ofNat_of_zero_le h0
  have := h (Or.inr rfl)
  rw [hp.colidx j (by omega)] at this
  have e : (A.col j : Int) + base = v := Option.some.inj this
  have := hwf.col_lt j (by omega)
  omega

theorem sim_lbPart (hwf : A.WF) (hp : HoldsPat m0 k base A) (hbase : base ≤ 1) (hz : (A.nnz : Int) + T ≤ 2147483647) {t : Nat}
    (ht : t < T) : Prog.Sim (PatSrc k) m0 (fun x : Int × Int => 0 ≤ x.1 ∧ x.1 ≤ x.2 ∧ x.2 ≤ A.m)
      (lbPartC k A.m T t : Prog (CTy R) (Int × Int)) (lbPart k A.m T t) := by
  unfold lbPartC lbPart
  refine sim_loadBalanced (lo := base) (hi := A.nnz + base) (by omega) (by omega) (by omega) ?_ ?_ (by omega) (by omega) (by omega) (by omega)
  · intro i
    refine Prog.Sim.mono (Q := fun v => PatSrc k (.rowptr k) → m0 (.rowptr k) i = some v) Prog.Sim.read fun v hv h0 => ?_
    subst h0
    have e2 := pat_ptr hwf hp (by omega) (by omega) hv
    rw [show (0 : Int).toNat = 0 from rfl, hwf.ptr_zero] at e2
    exact e2.1.trans (by omega)
  · refine Prog.Sim.mono (Q := fun v => PatSrc k (.rowptr k) → m0 (.rowptr k) A.m = some v) Prog.Sim.read fun v hv => ?_
    have e1 := pat_ptr hwf hp (by omega) (by omega) hv
    rw [show ((A.m : Int)).toNat = A.m by omega] at e1
    exact e1.1

theorem sim_rowsOf {n : Int} {part' part : Prog (CTy R) (Int × Int)} {body' body : Int → Prog (CTy R) Unit} {C : CArr → Prop}
    (hpart : Prog.Sim C m0 (fun x : Int × Int => 0 ≤ x.1 ∧ x.1 ≤ x.2 ∧ x.2 ≤ n) part' part) (hn : n + base ≤ 2147483647)
    (hbody : ∀ i : Int, base ≤ i → i < n + base → Prog.Sim C m0 (fun _ => True) (body' i) (body i)) :
    Prog.Sim C m0 (fun _ => True) (rowsOfC part' base body') (rowsOf part base body) := by
  unfold rowsOfC rowsOf
  refine Prog.Sim.bind hpart fun be hbe => sim_ck ⟨by omega, by omega⟩ (sim_ck ⟨by omega, by omega⟩ ?_)
  exact Prog.Sim.forUp' fun i h1 h2 => hbody i (by omega) (by omega)

theorem sim_readBase (hwf : A.WF) (hp : HoldsPat m0 k base A) :
    Prog.Sim (PatSrc k) m0 (fun v : CTy R (.rowptr k) => (v : Int) = base) (Prog.read (ty := CTy R) (.rowptr k) 0) (Prog.read (ty := CTy R) (.rowptr k) 0) := by
  refine Prog.Sim.mono (Q := fun v => PatSrc k (.rowptr k) → m0 (.rowptr k) 0 = some v) Prog.Sim.read fun v hv => ?_
  have e2 := pat_ptr hwf hp (by omega) (by omega) hv
  rw [show (0 : Int).toNat = 0 from rfl, hwf.ptr_zero] at e2
  exact e2.1.trans (by omega)

theorem run_rd_some {α : Type} {sz : CArr → Int} {m : Mem (CTy R)} {a : CArr} {i : Int} {v : CTy R a} {f : CTy R a → Prog (CTy R) α}
    (h : m a i = some v) : (Prog.rd a i f : Prog (CTy R) α).run sz m = (f v).run sz m := by
  simp only [Prog.run, h]

theorem ckBind_fail {α : Type} {v : Int} {f : Int → Prog (CTy R) α} (h : ¬ InInt v) : ((ck v : Prog (CTy R) Int) >>= f) = .fail := by
  unfold ck; rw [if_neg h]; rfl

theorem part_fail {α : Type} {b l t : Int} {g : Int → Int → Prog (CTy R) α} (h : ¬ InInt (l - b + t)) :
    ((iSub l b : Prog (CTy R) Int) >>= fun total => (iAdd total t : Prog (CTy R) Int) >>= g total) = .fail := by
  by_cases hlb : InInt (l - b)
  · exact (ck_bind hlb).trans (ckBind_fail h)
  · exact ckBind_fail hlb

theorem loadBalancedC_run {α : Type} {sz : CArr → Int} {m : Mem (CTy R)} {n t b l : Int} {T : Int} {f : Int × Int → Prog (CTy R) α}
    (hb : m (.rowptr k) 0 = some b) (hl : m (.rowptr k) n = some l) (hx : ¬ InInt (l - b + T)) :
    ((loadBalancedC (fun i => Prog.read (ty := CTy R) (.rowptr k) i) T t n) >>= f).run sz m = none := by
  unfold loadBalancedC
  refine (run_rd_some (a := .rowptr k) (i := 0) (v := b) hb).trans ?_
  refine (run_rd_some (a := .rowptr k) (i := n) (v := l) hl).trans ?_
  exact (congrArg (fun p => (Prog.bind p f).run sz m) (part_fail hx)).trans rfl

theorem Prog.Rets.mono {α : Type} {P Q : α → Prop} {p : Prog (CTy R) α} (h : p.Rets P) (hq : ∀ a, P a → Q a) : p.Rets Q := by
  induction p with
  | ret a => exact hq a h
  | rd a i k ih => exact fun v => ih v (h v)
  | wr a i v k ih => exact ih h
  | rmw a i g k ih => exact fun v => ih v (h v)
  | fail => trivial

/-- A team that is too large for the number of entries overflows in the partition. -/
theorem lbPartC_run (hwf : A.WF) (hp : HoldsPat m0 k base A) {α : Type} {sz : CArr → Int} {t : Nat} {f : Int × Int → Prog (CTy R) α}
    (hz : 2147483647 < (A.nnz : Int) + T) : ((lbPartC k A.m T t : Prog (CTy R) (Int × Int)) >>= f).run sz m0 = none := by
  have e0 := hp.rowptr 0 (by omega)
  have e1 := hp.rowptr A.m (by omega)
  rw [hwf.ptr_zero] at e0
  refine loadBalancedC_run e0 e1 ?_
  rintro ⟨_, h⟩
  have : A.ptr A.m = A.nnz := rfl
  rw [this] at h
  omega

/-- The phase in which every thread begins with the partition. -/
theorem lbPart_only (hwf : A.WF) (hp : HoldsPat m0 k base A) [Races CArr] {α β : Type} {sz : CArr → Int}
    {f : Nat → Int → Int × Int → Prog (CTy R) α} {kont : Int → (Nat → α) → Script (CTy R) β} {Q : β → Mem (CTy R) → Prop} (hT : 1 ≤ T)
    (h : (Script.seq sz (Prog.read (ty := CTy R) (.rowptr k) 0) fun (b : Int) =>
      Script.phase sz T (fun t => lbPartC k A.m T t >>= f t b) (kont b)).Ok m0 Q) : (A.nnz : Int) + T ≤ 2147483647 := by
  by_contra hc
  obtain ⟨rs, m', h1, h2, h3⟩ := ParOk.run h
  have hm : m' = m0 ∧ rs = [((A.ptr 0 : Int) + base : Int)] := by
    simp only [runTeam] at h1
    have e0 := hp.rowptr 0 (by omega)
    have e : (Prog.read (ty := CTy R) (.rowptr k) 0).run sz m0 = some (((A.ptr 0 : Int) + base : Int), m0) := by
      exact (run_rd_some (a := .rowptr k) (i := 0) e0).trans rfl
    rw [e] at h1
    simp only [Option.some.injEq, Prod.mk.injEq] at h1
    exact ⟨h1.2.symm, h1.1.symm⟩
  obtain ⟨rfl, rfl⟩ := hm
  have h4 := h3 (fun _ => ((A.ptr 0 : Int) + base : Int)) (fun t ht => by rw [Nat.lt_one_iff.mp ht]; rfl)
  obtain ⟨r, m'', hr, _⟩ := ParOk.run_aux (t := 0) (by omega) _ _ m' rfl h4
  rw [lbPartC_run hwf hp (by omega)] at hr
  cases hr

/-- What the function goes on with after it has read the base. -/
theorem readBase_ok (hwf : A.WF) (hp : HoldsPat m0 k base A) [Races CArr] {β : Type} {sz : CArr → Int}
    {kont : Int → Script (CTy R) β} {Q : β → Mem (CTy R) → Prop}
    (h : (Script.seq sz (Prog.read (ty := CTy R) (.rowptr k) 0) fun (b : Int) => kont b).Ok m0 Q) : ∃ b : Int, b = base ∧ (kont b).Ok m0 Q := by
  obtain ⟨rs, m', h1, h2, h3⟩ := ParOk.run h
  have hm : m' = m0 ∧ rs = [((A.ptr 0 : Int) + base : Int)] := by
    simp only [runTeam] at h1
    have e0 := hp.rowptr 0 (by omega)
    have e : (Prog.read (ty := CTy R) (.rowptr k) 0).run sz m0 = some (((A.ptr 0 : Int) + base : Int), m0) :=
      (run_rd_some (a := .rowptr k) (i := 0) e0).trans rfl
    rw [e] at h1
    simp only [Option.some.injEq, Prod.mk.injEq] at h1
    exact ⟨h1.2.symm, h1.1.symm⟩
  obtain ⟨rfl, rfl⟩ := hm
  have h4 := h3 (fun _ => ((A.ptr 0 : Int) + base : Int)) (fun t ht => by rw [Nat.lt_one_iff.mp ht]; rfl)
  refine ⟨((A.ptr 0 : Int) + base : Int), ?_, h4⟩
  rw [hwf.ptr_zero]; omega

/-- One thread gets all rows. -/
theorem rets_lbPart_one {m : Nat} : (lbPartC k m 1 0 : Prog (CTy R) (Int × Int)).Rets fun x => x = (0, (m : Int)) := by
  unfold lbPartC loadBalancedC
  refine Prog.Rets.bind (P := fun _ => True) (fun _ => trivial) fun b _ => Prog.Rets.bind (P := fun _ => True) (fun _ => trivial) fun l _ => ?_
  refine (Prog.Rets.ck _).bind fun _ _ => (Prog.Rets.ck _).bind fun _ _ => (Prog.Rets.ck _).bind fun _ _ => ?_
  refine Prog.Rets.bind (P := fun _ => True) ?_ fun _ _ => ?_
  · unfold iDiv
    split
    · trivial
    · exact (Prog.Rets.ck _).mono fun _ _ => trivial
  refine Prog.Rets.bind (P := fun x => x = 0) ?_ ?_
  · rw [if_pos (by norm_num)]; exact rfl
  rintro _ rfl
  refine Prog.Rets.bind (Prog.Rets.ck _) ?_
  rintro _ ⟨rfl, _⟩
  refine Prog.Rets.bind (P := fun x => x = (m : Int)) ?_ ?_
  · rw [if_pos (by norm_num)]; exact rfl
  rintro _ rfl
  have ha : ∀ (c : Prop) [Decidable c], (Prog.assert (ty := CTy R) c).Rets fun _ => True := by
    intro c _
    unfold Prog.assert
    split <;> trivial
  exact Prog.Rets.bind (ha _) fun _ _ => Prog.Rets.bind (ha _) fun _ _ => Prog.Rets.bind (ha _) fun _ _ => rfl

section
variable [CommRing R] [DecidableEq R] [Races CArr] (hwf : A.WF) (hp : HoldsPat m0 k base A) (hbase : base ≤ 1)
  (hm : (A.m : Int) + base ≤ 2147483647) (hz : (A.nnz : Int) + T ≤ 2147483647)
include hwf hp hbase hm hz

theorem sim_spmvSum {pat : Bool} {x : Nat} {step : R → R → R} {i : Int} {s : R} (h0 : base ≤ i) (h1 : i < A.m + base) :
    Prog.Sim (PatSrc k) m0 (fun _ => True) (spmvSumC k base pat x step i s) (spmvSum k base pat x step i s) := by
  unfold spmvSumC spmvSum
  refine Prog.Sim.bind Prog.Sim.read fun lo _ => sim_ck ⟨by omega, by omega⟩ ?_
  refine Prog.Sim.bind Prog.Sim.read fun hi _ => Prog.Sim.forUp (I := fun _ _ => True) trivial fun j s _ _ _ => ?_
  refine Prog.Sim.bind (Q := fun _ => True) (Prog.Sim.ite (fun _ => .ret _ trivial) fun _ => (Prog.Sim.read (ty := CTy R) (a := CArr.values k)).mono fun _ _ => trivial) fun v _ => ?_
  exact Prog.Sim.bind Prog.Sim.read fun c _ => Prog.Sim.bind Prog.Sim.read fun xc _ => .ret _ trivial

theorem sim_spmvRow {pat : Bool} {w x y : Nat} {α β γ : R} {i : Int} (h0 : base ≤ i) (h1 : i < A.m + base) :
    Prog.Sim (PatSrc k) m0 (fun _ => True) (spmvRowC k base pat w x y α β γ i) (spmvRow k base pat w x y α β γ i) := by
  have hs := fun step s => sim_spmvSum (pat := pat) (x := x) (step := step) (s := s) hwf hp hbase hm hz h0 h1
  unfold spmvRowC spmvRow
  refine Prog.Sim.ite (fun _ => ?_) fun _ => Prog.Sim.ite (fun _ => ?_) fun _ => ?_
  · exact Prog.Sim.bind (hs _ _) fun s _ => Prog.Sim.write not_pat_vec
  · exact Prog.Sim.bind Prog.Sim.read fun s0 _ => Prog.Sim.bind (hs _ _) fun s _ => Prog.Sim.write not_pat_vec
  · exact Prog.Sim.bind (hs _ _) fun s _ => Prog.Sim.bind Prog.Sim.read fun yi _ => Prog.Sim.write not_pat_vec

theorem sim_spmvTeam {sz : CArr → Int} {pat : Bool} {w x y : Nat} {α β γ : R} :
    Script.Sim (PatSrc k) m0 (spmvTeamC sz T k A.m pat w x y α β γ) (spmvTeam sz T k A.m pat w x y α β γ) := by
  unfold spmvTeamC spmvTeam
  refine Script.Sim.seq (sim_readBase hwf hp) fun b hb => ?_
  subst hb
  refine .phase _ _ (fun _ _ => True) _ _ _ _ (fun t ht => ?_) fun _ _ => .done _
  exact sim_rowsOf (sim_lbPart hwf hp hbase hz ht) hm fun i h0 h1 => sim_spmvRow hwf hp hbase hm hz h0 h1

theorem sim_multiplyWithVector {sz : CArr → Int} {pat : Bool} {w x y tmp : Nat} {α β γ : R} :
    Script.Sim (PatSrc k) m0 (multiplyWithVectorC sz T k A.m pat w x y tmp α β γ) (multiplyWithVector sz T k A.m pat w x y tmp α β γ) := by
  unfold multiplyWithVectorC multiplyWithVector
  split
  · refine .phase _ _ (fun _ _ => True) _ _ _ _ (fun i _ => ?_) fun _ _ => sim_spmvTeam hwf hp hbase hm hz
    exact Prog.Sim.bind Prog.Sim.read fun _ _ => Prog.Sim.write not_pat_vec
  · exact sim_spmvTeam hwf hp hbase hm hz

/-- The index of every element of a dense operand with `rows` rows and `kk` columns is computed within an int; rows are counted from
`base`. -/
def IdxInt (base rows kk : Nat) (d : DenseOp) : Prop :=
  ∀ i c : Int, base ≤ i → i < rows + base → 0 ≤ c → c < kk → InInt (i * d.rs) ∧ InInt (c * d.cs) ∧ InInt (i * d.rs + c * d.cs)

omit hm hbase hz in
theorem col_of_row {i lo hi j : Int} {c : Int} (h0 : base ≤ i) (h1 : i < A.m + base)
    (hlo : PatSrc k (.rowptr k) → m0 (.rowptr k) (i - base) = some lo) (hhi : PatSrc k (.rowptr k) → m0 (.rowptr k) (i + 1 - base) = some hi)
    (g0 : lo ≤ j) (g1 : j < hi) (hc : PatSrc k (.colidx k) → m0 (.colidx k) (j - base) = some c) : base ≤ c ∧ c < A.n + base := by
  have e1 := pat_ptr hwf hp (by omega) (by omega) hlo
  have e2 := pat_ptr hwf hp (by omega) (by omega) hhi
  exact pat_col hwf hp (by omega) (by omega) hc

theorem sim_spmdmRow {kk : Nat} {w x y : DenseOp} {α β γ : R} {i : Int} (hw : IdxInt base A.m kk w) (hx : IdxInt base A.n kk x)
    (hy : IdxInt base A.m kk y) (h0 : base ≤ i) (h1 : i < A.m + base) :
    Prog.Sim (PatSrc k) m0 (fun _ => True) (spmdmRowC k base kk w x y α β γ i) (spmdmRow k base kk w x y α β γ i) := by
  unfold spmdmRowC spmdmRow
  refine Prog.Sim.ite (fun hc => ?_) fun _ => ?_
  · obtain ⟨_, _, _, hwr, hxr, _⟩ := hc
    refine Prog.Sim.bind Prog.Sim.read fun lo hlo => sim_ck ⟨by omega, by omega⟩ (Prog.Sim.bind Prog.Sim.read fun hi hhi => ?_)
    refine Prog.Sim.bind (Q := fun _ => True) (Prog.Sim.forUp (I := fun _ _ => True) trivial fun j s g0 g1 _ =>
      Prog.Sim.forUp (I := fun _ _ => True) trivial fun c s c0 c1 _ => ?_) fun s _ => Prog.Sim.forUp' fun c c0 c1 => ?_
    · refine Prog.Sim.bind Prog.Sim.read fun v _ => Prog.Sim.bind Prog.Sim.read fun (cc : Int) hcc => ?_
      obtain ⟨k1, k2⟩ := col_of_row hwf hp h0 h1 hlo hhi g0 g1 hcc
      have hh := hx cc c k1 k2 c0 c1
      rw [← hxr, Int.mul_one] at hh
      exact sim_ck hh.2.1 (sim_ck hh.2.2 (Prog.Sim.bind Prog.Sim.read fun _ _ => .ret _ trivial))
    · have hh := hw i c h0 h1 c0 c1
      rw [← hwr, Int.mul_one] at hh
      exact sim_ck hh.2.1 (sim_ck hh.2.2 (Prog.Sim.write not_pat_vec))
  · refine Prog.Sim.bind Prog.Sim.read fun lo hlo => sim_ck ⟨by omega, by omega⟩ (Prog.Sim.bind Prog.Sim.read fun hi hhi => ?_)
    refine Prog.Sim.bind (Q := fun _ => True) (Prog.Sim.forUp (I := fun _ _ => True) trivial fun j s g0 g1 _ =>
      Prog.Sim.forUp (I := fun _ _ => True) trivial fun c s c0 c1 _ => ?_) fun s _ => Prog.Sim.forUp' fun c c0 c1 => ?_
    · refine Prog.Sim.bind Prog.Sim.read fun v _ => Prog.Sim.bind Prog.Sim.read fun (cc : Int) hcc => ?_
      obtain ⟨k1, k2⟩ := col_of_row hwf hp h0 h1 hlo hhi g0 g1 hcc
      have hh := hx cc c k1 k2 c0 c1
      exact sim_ck hh.1 (sim_ck hh.2.1 (sim_ck hh.2.2 (Prog.Sim.bind Prog.Sim.read fun _ _ => .ret _ trivial)))
    · have hh := hy i c h0 h1 c0 c1
      refine sim_ck hh.1 (sim_ck hh.2.1 (sim_ck hh.2.2 (Prog.Sim.bind Prog.Sim.read fun _ _ => ?_)))
      have hh := hw i c h0 h1 c0 c1
      exact sim_ck hh.1 (sim_ck hh.2.1 (sim_ck hh.2.2 (Prog.Sim.write not_pat_vec)))

theorem sim_multiplyWithDenseMatrix {sz : CArr → Int} {kk : Nat} {w x y : DenseOp} {α β γ : R} (hw : IdxInt base A.m kk w)
    (hx : IdxInt base A.n kk x) (hy : IdxInt base A.m kk y) :
    Script.Sim (PatSrc k) m0 (multiplyWithDenseMatrixC sz T k A.m kk w x y α β γ) (multiplyWithDenseMatrix sz T k A.m kk w x y α β γ) := by
  unfold multiplyWithDenseMatrixC multiplyWithDenseMatrix
  refine Script.Sim.seq (sim_readBase hwf hp) fun b hb => ?_
  subst hb
  refine .phase _ _ (fun _ _ => True) _ _ _ _ (fun t ht => ?_) fun _ _ => .done _
  exact sim_rowsOf (sim_lbPart hwf hp hbase hz ht) hm fun i h0 h1 => sim_spmdmRow hwf hp hbase hm hz hw hx hy h0 h1

end

section
variable [Races CArr]

theorem sim_getBandwidth {sz : CArr → Int} {tr : RedTree} (hwf : A.WF) (hp : HoldsPat m0 k base A) (hbase : base ≤ 1)
    (hm : (A.m : Int) + base ≤ 2147483647) (hn : (A.n : Int) + base ≤ 2147483648) (hz : (A.nnz : Int) + T ≤ 2147483647) :
    Script.Sim (PatSrc k) m0 (getBandwidthC sz T k A.m tr : Script (CTy R) Int) (getBandwidth sz T k A.m tr) := by
  unfold getBandwidthC getBandwidth
  refine Script.Sim.seq (sim_readBase hwf hp) fun b hb => ?_
  subst hb
  refine .phase _ _ (fun _ _ => True) _ _ _ _ (fun t ht => ?_) fun _ _ => .done _
  unfold bandwidthThreadC bandwidthThread
  refine Prog.Sim.bind (sim_lbPart hwf hp hbase hz ht) fun be hbe => sim_ck ⟨by omega, by omega⟩ (sim_ck ⟨by omega, by omega⟩ ?_)
  refine Prog.Sim.forUp (I := fun _ _ => True) trivial fun i s g0 g1 _ => ?_
  simp only [show ((base : Int)).toNat = base by omega] at *
  refine Prog.Sim.bind Prog.Sim.read fun lo hlo => sim_ck ⟨by omega, by omega⟩ (Prog.Sim.bind Prog.Sim.read fun hi hhi => ?_)
  refine Prog.Sim.forUp (I := fun _ _ => True) trivial fun j s j0 j1 _ => Prog.Sim.bind Prog.Sim.read fun (c : Int) hc => ?_
  have e1 := pat_ptr hwf hp (by omega) (by omega) hlo
  have e2 := pat_ptr hwf hp (by omega) (by omega) hhi
  have hcc := pat_col hwf hp (by omega) (by omega) hc
  refine sim_ck ⟨by omega, by omega⟩ ?_
  by_cases hneg : c - i < 0
  · rw [if_pos hneg]
    have : Prog.Sim (PatSrc k) m0 (fun _ : Int => True) ((iSub 0 (c - i) : Prog (CTy R) Int) >>= fun temp => pure (max temp s))
      (pure (max (0 - (c - i)) s)) := sim_ck ⟨by omega, by omega⟩ (.ret _ trivial)
    rw [show (0 : Int) - (c - i) = -(c - i) by omega] at this
    simpa [hneg] using this
  · rw [if_neg hneg]
    show Prog.Sim (PatSrc k) m0 (fun _ : Int => True) (pure (max (c - i) s)) _
    simp only [if_neg hneg]
    exact .ret _ trivial

end
end
end SpMP
