import Verif.CsrMem
/-
Model of the index-base conversion and the copy constructor, /repo/CSR.cpp:82-99, 399-439.
-/

namespace SpMP
open Spec

set_option linter.unusedSectionVars false

variable {R : Type} [Races CArr]

/-- Which optional arrays of a CSR object are allocated (non-NULL). -/
structure Opt where
  values : Bool
  diagptr : Bool
  idiag : Bool
  diag : Bool
  extptr : Bool

/-- Allocated sizes of CSR object `k` with `m` rows and `nnz` entries; other arrays have size 0. -/
def csrSize (k m nnz : Nat) (o : Opt) : CArr → Int
  | .rowptr j => if j = k then m + 1 else 0
  | .colidx j => if j = k then nnz else 0
  | .values j => if j = k ∧ o.values then nnz else 0
  | .diagptr j => if j = k ∧ o.diagptr then m else 0
  | .idiag j => if j = k ∧ o.idiag then m else 0
  | .diag j => if j = k ∧ o.diag then m else 0
  | .extptr j => if j = k ∧ o.extptr then m else 0
  | _ => 0

/-- CSR.hpp getNnz(): `rowptr[m] - getBase()`. -/
def getNnz (k m : Nat) : Prog (CTy R) Int := do
  let l ← Prog.read (ty := CTy R) (.rowptr k) m
  let b ← Prog.read (ty := CTy R) (.rowptr k) 0
  pure (l - b : Int)

/-- The three parallel loops of make0/1BasedIndexing: CSR.cpp:405-417 (d = -1) and 426-438 (d = +1). -/
def shiftIndices (sz : CArr → Int) (k m : Nat) (o : Opt) (d : Int) (nnz : Int) : Script (CTy R) Unit :=
  (parMap sz (.rowptr k) (m + 1) (fun v : Int => v + d)).bind fun _ =>
  (parMap sz (.colidx k) nnz.toNat (fun v : Int => v + d)).bind fun _ =>
  if o.diagptr then parMap sz (.diagptr k) m (fun v : Int => v + d) else .done ()

/-- CSR.cpp:399-418 make0BasedIndexing. -/
def make0Based (sz : CArr → Int) (k m : Nat) (o : Opt) : Script (CTy R) Unit :=
  Script.seq sz (Prog.read (ty := CTy R) (.rowptr k) 0) fun base =>
    if (0 : Int) = base then .done () else
      Script.seq sz (getNnz k m) fun nnz => shiftIndices sz k m o (-1) nnz

/-- CSR.cpp:420-439 make1BasedIndexing. -/
def make1Based (sz : CArr → Int) (k m : Nat) (o : Opt) : Script (CTy R) Unit :=
  Script.seq sz (Prog.read (ty := CTy R) (.rowptr k) 0) fun base =>
    if (1 : Int) = base then .done () else
      Script.seq sz (getNnz k m) fun nnz => shiftIndices sz k m o 1 nnz

/-- One `copyVector(dst, src, n)` (Utils.hpp copyVector: parallel for dst[i] = src[i]). -/
def copyArr (sz : CArr → Int) (dst src : CArr) (h : CTy R src = CTy R dst) (n : Nat) : Script (CTy R) Unit :=
  .phase sz n (fun i => do
    let v ← Prog.read (ty := CTy R) src i
    Prog.write (ty := CTy R) dst i (cast h v)) fun _ => .done ()

/-- CSR.cpp:82-99 the copy constructor: object `k'` becomes a copy of `k`. extptr is not copied (line 82
initialises it to NULL). -/
def copyCsr (sz : CArr → Int) (k k' m : Nat) (o : Opt) : Script (CTy R) Opt :=
  Script.seq sz (getNnz k m) fun nnz =>
  (copyArr sz (.rowptr k') (.rowptr k) rfl (m + 1)).bind fun _ =>
  (copyArr sz (.colidx k') (.colidx k) rfl nnz.toNat).bind fun _ =>
  (if o.values then copyArr sz (.values k') (.values k) rfl nnz.toNat else .done ()).bind fun _ =>
  (if o.diagptr then copyArr sz (.diagptr k') (.diagptr k) rfl m else .done ()).bind fun _ =>
  (if o.idiag then copyArr sz (.idiag k') (.idiag k) rfl m else .done ()).bind fun _ =>
  (if o.diag then copyArr sz (.diag k') (.diag k) rfl m else .done ()).bind fun _ =>
  .done { o with extptr := false }

/-! ### Proofs -/

/-- What "shift all indices by d" means on memory. -/
structure Shifted (m m' : Mem (CTy R)) (k : Nat) (A : Csr R) (o : Opt) (d : Int) : Prop where
  rowptr : ∀ i : Nat, i ≤ A.m → m' (.rowptr k) (i : Int) = (m (.rowptr k) (i : Int)).map (fun v : Int => v + d)
  colidx : ∀ j : Nat, j < A.nnz → m' (.colidx k) (j : Int) = (m (.colidx k) (j : Int)).map (fun v : Int => v + d)
  diagptr : o.diagptr → ∀ i : Nat, i < A.m →
    m' (.diagptr k) (i : Int) = (m (.diagptr k) (i : Int)).map (fun v : Int => v + d)
  rest_rowptr : ∀ i : Int, ¬ (0 ≤ i ∧ i < (A.m : Int) + 1) → m' (.rowptr k) i = m (.rowptr k) i
  rest_colidx : ∀ i : Int, ¬ (0 ≤ i ∧ i < A.nnz) → m' (.colidx k) i = m (.colidx k) i
  rest_diagptr : ∀ i : Int, ¬ (o.diagptr ∧ 0 ≤ i ∧ i < A.m) → m' (.diagptr k) i = m (.diagptr k) i
  rest : ∀ a, a ≠ .rowptr k → a ≠ .colidx k → a ≠ .diagptr k → m' a = m a

theorem shiftIndices_ok {sz : CArr → Int} {k : Nat} {A : Csr R} {o : Opt} {d : Int} {base : Nat}
    {m : Mem (CTy R)} (hA : HoldsPat m k base A)
    (hdiag : o.diagptr → ∀ i : Nat, i < A.m → ∃ v, m (.diagptr k) (i : Int) = some v)
    (h1 : (A.m : Int) + 1 ≤ sz (.rowptr k)) (h2 : (A.nnz : Int) ≤ sz (.colidx k))
    (h3 : o.diagptr → (A.m : Int) ≤ sz (.diagptr k)) :
    (shiftIndices sz k A.m o d A.nnz).Ok m (fun _ m' => Shifted m m' k A o d) := by
  unfold shiftIndices
  simp only [Script.ok_bind, Int.toNat_natCast]
  refine Script.Ok.mono (parMap_ok (by push_cast; omega) ?_) ?_
  · intro i hi; exact ⟨_, hA.rowptr i (by omega)⟩
  rintro _ m1 ⟨a1, a2, a3⟩
  refine Script.Ok.mono (parMap_ok h2 ?_) ?_
  · intro i hi; rw [a3 _ (by simp)]; exact ⟨_, hA.colidx i hi⟩
  rintro _ m2 ⟨b1, b2, b3⟩
  by_cases hd : o.diagptr = true
  · rw [if_pos hd]
    refine Script.Ok.mono (parMap_ok (h3 hd) ?_) ?_
    · intro i hi; rw [b3 _ (by simp), a3 _ (by simp)]; exact hdiag hd i hi
    rintro _ m3 ⟨c1, c2, c3⟩
    refine ⟨?_, ?_, ?_, ?_, ?_, ?_, ?_⟩
    · intro i hi; rw [c3 _ (by simp), b3 _ (by simp)]; exact a1 i (by omega)
    · intro i hi; rw [c3 _ (by simp), b1 i hi, a3 _ (by simp)]
    · intro _ i hi; rw [c1 i hi, b3 _ (by simp), a3 _ (by simp)]
    · intro i hi; rw [c3 _ (by simp), b3 _ (by simp)]; exact a2 i (by push_cast; exact hi)
    · intro i hi; rw [c3 _ (by simp), b2 i hi, a3 _ (by simp)]
    · intro i hi; rw [c2 i (by intro h; exact hi ⟨hd, h⟩), b3 _ (by simp), a3 _ (by simp)]
    · intro a e1 e2 e3; rw [c3 a e3, b3 a e2, a3 a e1]
  · rw [if_neg hd]
    refine ⟨?_, ?_, ?_, ?_, ?_, ?_, ?_⟩
    · intro i hi; rw [b3 _ (by simp)]; exact a1 i (by omega)
    · intro i hi; rw [b1 i hi, a3 _ (by simp)]
    · intro h; exact absurd h hd
    · intro i hi; rw [b3 _ (by simp)]; exact a2 i (by push_cast; exact hi)
    · intro i hi; rw [b2 i hi, a3 _ (by simp)]
    · intro i hi; rw [b3 _ (by simp), a3 _ (by simp)]
    · intro a e1 e2 e3; rw [b3 a e2, a3 a e1]

theorem wp_getNnz {sz : CArr → Int} {W Rd : CArr → Int → Prop} {k : Nat} {A : Csr R} {base : Nat}
    {m : Mem (CTy R)} {Q : Int → Mem (CTy R) → Prop} (hwf : A.WF) (hA : HoldsPat m k base A)
    (hr : ∀ i, Rd (.rowptr k) i) (hQ : Q (A.nnz : Int) m) : wp sz W Rd (getNnz k A.m) m Q := by
  unfold getNnz
  simp only [wp_bind, wp_read, wp_pure]
  have h0 := hA.rowptr 0 (by omega)
  rw [hwf.ptr_zero] at h0
  refine ⟨hr _, _, hA.rowptr A.m (Nat.le_refl _), hr _, _, h0, ?_⟩
  have : ((A.ptr A.m : Int) + base) - (((0 : Nat) : Int) + base) = A.nnz := by
    unfold Csr.nnz; omega
  rw [this]; exact hQ

/-- Sizes sufficient for the arrays of object `k`. -/
structure SizesOk (sz : CArr → Int) (k : Nat) (A : Csr R) (o : Opt) : Prop where
  rowptr : (A.m : Int) + 1 ≤ sz (.rowptr k)
  colidx : (A.nnz : Int) ≤ sz (.colidx k)
  values : o.values → (A.nnz : Int) ≤ sz (.values k)
  diagptr : o.diagptr → (A.m : Int) ≤ sz (.diagptr k)
  idiag : o.idiag → (A.m : Int) ≤ sz (.idiag k)
  diag : o.diag → (A.m : Int) ≤ sz (.diag k)
  extptr : o.extptr → (A.m : Int) ≤ sz (.extptr k)

theorem make1Based_ok {sz : CArr → Int} {k : Nat} {A : Csr R} {o : Opt} {base : Nat}
    {m : Mem (CTy R)} (hwf : A.WF) (hA : HoldsPat m k base A) (hb : base = 0 ∨ base = 1)
    (hdiag : o.diagptr → ∀ i : Nat, i < A.m → ∃ v, m (.diagptr k) (i : Int) = some v)
    (hsz : SizesOk sz k A o) :
    (make1Based sz k A.m o).Ok m (fun _ m' => Shifted m m' k A o (1 - base)) := by
  have h0 := hA.rowptr 0 (by omega)
  rw [hwf.ptr_zero] at h0
  unfold make1Based
  refine seq_rule ?_
  simp only [wp_read, true_and]
  refine ⟨_, h0, ?_⟩
  rcases hb with rfl | rfl
  · rw [if_neg (by omega)]
    refine seq_rule (wp_getNnz hwf hA (fun _ => trivial) ?_)
    exact shiftIndices_ok hA hdiag hsz.rowptr hsz.colidx hsz.diagptr
  · rw [if_pos (by omega)]
    refine ⟨?_, ?_, ?_, ?_, ?_, ?_, ?_⟩ <;> intros <;> simp

theorem make0Based_ok {sz : CArr → Int} {k : Nat} {A : Csr R} {o : Opt} {base : Nat}
    {m : Mem (CTy R)} (hwf : A.WF) (hA : HoldsPat m k base A) (hb : base = 0 ∨ base = 1)
    (hdiag : o.diagptr → ∀ i : Nat, i < A.m → ∃ v, m (.diagptr k) (i : Int) = some v)
    (hsz : SizesOk sz k A o) :
    (make0Based sz k A.m o).Ok m (fun _ m' => Shifted m m' k A o (0 - base)) := by
  have h0 := hA.rowptr 0 (by omega)
  rw [hwf.ptr_zero] at h0
  unfold make0Based
  refine seq_rule ?_
  simp only [wp_read, true_and]
  refine ⟨_, h0, ?_⟩
  rcases hb with rfl | rfl
  · rw [if_pos (by omega)]
    refine ⟨?_, ?_, ?_, ?_, ?_, ?_, ?_⟩ <;> intros <;> simp
  · rw [if_neg (by omega)]
    refine seq_rule (wp_getNnz hwf hA (fun _ => trivial) ?_)
    exact shiftIndices_ok hA hdiag hsz.rowptr hsz.colidx hsz.diagptr

theorem Shifted.holds {m m' : Mem (CTy R)} {k base base' : Nat} {A : Csr R} {o : Opt} {d : Int}
    (h : Shifted m m' k A o d) (hA : HoldsPat m k base A) (hd : (base : Int) + d = base') :
    HoldsPat m' k base' A := by
  refine ⟨?_, ?_⟩
  · intro i hi; rw [h.rowptr i hi, hA.rowptr i hi]; simp only [Option.map_some]; congr 1; omega
  · intro i hi; rw [h.colidx i hi, hA.colidx i hi]; simp only [Option.map_some]; congr 1; omega

theorem copyArr_ok {sz : CArr → Int} {dst src : CArr} {h : CTy R src = CTy R dst} {n : Nat}
    {m : Mem (CTy R)} (hne : dst ≠ src) (hsz : (n : Int) ≤ sz dst)
    (hinit : ∀ i : Nat, i < n → ∃ v, m src (i : Int) = some v) :
    (copyArr sz dst src h n).Ok m (fun _ m' =>
      (∀ i : Nat, i < n → m' dst (i : Int) = (m src (i : Int)).map (cast h)) ∧
      ∀ b, b ≠ dst → m' b = m b) := by
  refine par_rule
    (W := fun t b i => b = dst ∧ i = (t : Int)) (R := fun t b i => b = src ∨ (b = dst ∧ i = (t : Int)))
    (Q := fun t _ m' => m' dst (t : Int) = (m src (t : Int)).map (cast h)) ?_ ?_ ?_
  · rintro t u b i ht hu htu ⟨rfl, rfl⟩ (h | ⟨_, h⟩)
    · exact hne h
    · omega
  · intro t ht
    simp only [wp_bind, wp_read, wp_write, true_or, true_and]
    obtain ⟨v, hv⟩ := hinit t ht
    refine ⟨v, hv, by omega, by omega, ?_⟩
    rw [hv]; simp
  · intro _ m' hq hf
    refine ⟨?_, ?_⟩
    · intro i hi
      obtain ⟨mt, h1, h2⟩ := hq i hi
      rw [h2 _ _ (Or.inr ⟨rfl, rfl⟩)]; exact h1
    · intro b hb; funext i; exact hf b i (by rintro t _ ⟨h, _⟩; exact hb h)

/-- Initialisation of the optional arrays of object `k`. -/
structure OptInit (m : Mem (CTy R)) (k : Nat) (A : Csr R) (o : Opt) : Prop where
  values : o.values → ∀ i : Nat, i < A.nnz → ∃ v, m (.values k) (i : Int) = some v
  diagptr : o.diagptr → ∀ i : Nat, i < A.m → ∃ v, m (.diagptr k) (i : Int) = some v
  idiag : o.idiag → ∀ i : Nat, i < A.m → ∃ v, m (.idiag k) (i : Int) = some v
  diag : o.diag → ∀ i : Nat, i < A.m → ∃ v, m (.diag k) (i : Int) = some v

/-- `m'` holds in object `k'` the same arrays as `m` in object `k`. -/
structure SameArrays (m m' : Mem (CTy R)) (k k' : Nat) (A : Csr R) (o : Opt) : Prop where
  rowptr : ∀ i : Nat, i ≤ A.m → m' (.rowptr k') (i : Int) = m (.rowptr k) (i : Int)
  colidx : ∀ i : Nat, i < A.nnz → m' (.colidx k') (i : Int) = m (.colidx k) (i : Int)
  values : o.values → ∀ i : Nat, i < A.nnz → m' (.values k') (i : Int) = m (.values k) (i : Int)
  diagptr : o.diagptr → ∀ i : Nat, i < A.m → m' (.diagptr k') (i : Int) = m (.diagptr k) (i : Int)
  idiag : o.idiag → ∀ i : Nat, i < A.m → m' (.idiag k') (i : Int) = m (.idiag k) (i : Int)
  diag : o.diag → ∀ i : Nat, i < A.m → m' (.diag k') (i : Int) = m (.diag k) (i : Int)

/-- Array `a` belongs to object `k`. -/
def CArr.ofObj (k : Nat) : CArr → Prop
  | .rowptr j | .colidx j | .values j | .diagptr j | .extptr j | .idiag j | .diag j => j = k
  | _ => False

/-- A copy step that may be skipped. -/
theorem copyArr_opt {sz : CArr → Int} {dst src : CArr} {h : CTy R src = CTy R dst} {n : Nat} {b : Bool}
    {m : Mem (CTy R)} (hne : dst ≠ src) (hsz : b → (n : Int) ≤ sz dst)
    (hinit : b → ∀ i : Nat, i < n → ∃ v, m src (i : Int) = some v) :
    (if b then copyArr sz dst src h n else .done ()).Ok m (fun _ m' =>
      (b → ∀ i : Nat, i < n → m' dst (i : Int) = (m src (i : Int)).map (cast h)) ∧
      ∀ c, c ≠ dst → m' c = m c) := by
  cases b with
  | true => 
    refine Script.Ok.mono (copyArr_ok hne (hsz rfl) (hinit rfl)) ?_
    rintro _ m' ⟨h1, h2⟩; exact ⟨fun _ => h1, h2⟩
  | false => exact ⟨fun h => (by cases h), fun _ _ => rfl⟩

theorem copyCsr_ok {sz : CArr → Int} {k k' : Nat} (hk : k' ≠ k) {A : Csr R} {o : Opt} {base : Nat}
    {m : Mem (CTy R)} (hwf : A.WF) (hA : HoldsPat m k base A) (ho : OptInit m k A o)
    (hsz : SizesOk sz k' A o) :
    (copyCsr sz k k' A.m o).Ok m (fun o' m' => o' = { o with extptr := false } ∧
      SameArrays m m' k k' A o ∧ ∀ a, ¬ a.ofObj k' → m' a = m a) := by
  unfold copyCsr
  refine seq_rule (wp_getNnz hwf hA (fun _ => trivial) ?_)
  simp only [Script.ok_bind, Int.toNat_natCast]
  have hcast : ∀ {T : Type} (x : Option T), x.map (cast rfl) = x := by
    intro T x; cases x <;> rfl
  refine Script.Ok.mono (copyArr_ok (by simp [hk]) (by push_cast; exact hsz.rowptr) ?_) ?_
  · intro i hi; exact ⟨_, hA.rowptr i (by omega)⟩
  rintro _ m1 ⟨a1, a2⟩
  refine Script.Ok.mono (copyArr_ok (by simp [hk]) hsz.colidx ?_) ?_
  · intro i hi; rw [a2 _ (by simp)]; exact ⟨_, hA.colidx i hi⟩
  rintro _ m2 ⟨b1, b2⟩
  refine Script.Ok.mono (copyArr_opt (by simp [hk]) hsz.values ?_) ?_
  · intro hv i hi; rw [b2 _ (by simp), a2 _ (by simp)]; exact ho.values hv i hi
  rintro _ m3 ⟨c1, c2⟩
  refine Script.Ok.mono (copyArr_opt (by simp [hk]) hsz.diagptr ?_) ?_
  · intro hv i hi; rw [c2 _ (by simp), b2 _ (by simp), a2 _ (by simp)]; exact ho.diagptr hv i hi
  rintro _ m4 ⟨d1, d2⟩
  refine Script.Ok.mono (copyArr_opt (by simp [hk]) hsz.idiag ?_) ?_
  · intro hv i hi; rw [d2 _ (by simp), c2 _ (by simp), b2 _ (by simp), a2 _ (by simp)]; exact ho.idiag hv i hi
  rintro _ m5 ⟨e1, e2⟩
  refine Script.Ok.mono (copyArr_opt (by simp [hk]) hsz.diag ?_) ?_
  · intro hv i hi
    rw [e2 _ (by simp), d2 _ (by simp), c2 _ (by simp), b2 _ (by simp), a2 _ (by simp)]; exact ho.diag hv i hi
  rintro _ m6 ⟨f1, f2⟩
  refine ⟨rfl, ⟨?_, ?_, ?_, ?_, ?_, ?_⟩, ?_⟩
  · intro i hi
    rw [f2 _ (by simp), e2 _ (by simp), d2 _ (by simp), c2 _ (by simp), b2 _ (by simp), a1 i (by omega), hcast]
  · intro i hi
    rw [f2 _ (by simp), e2 _ (by simp), d2 _ (by simp), c2 _ (by simp), b1 i hi, hcast, a2 _ (by simp)]
  · intro hv i hi
    rw [f2 _ (by simp), e2 _ (by simp), d2 _ (by simp), c1 hv i hi, hcast, b2 _ (by simp), a2 _ (by simp)]
  · intro hv i hi
    rw [f2 _ (by simp), e2 _ (by simp), d1 hv i hi, hcast, c2 _ (by simp), b2 _ (by simp), a2 _ (by simp)]
  · intro hv i hi
    rw [f2 _ (by simp), e1 hv i hi, hcast, d2 _ (by simp), c2 _ (by simp), b2 _ (by simp), a2 _ (by simp)]
  · intro hv i hi
    rw [f1 hv i hi, hcast, e2 _ (by simp), d2 _ (by simp), c2 _ (by simp), b2 _ (by simp), a2 _ (by simp)]
  · intro a ha
    rw [f2 a (by rintro rfl; exact ha rfl), e2 a (by rintro rfl; exact ha rfl),
      d2 a (by rintro rfl; exact ha rfl), c2 a (by rintro rfl; exact ha rfl),
      b2 a (by rintro rfl; exact ha rfl), a2 a (by rintro rfl; exact ha rfl)]

end SpMP
