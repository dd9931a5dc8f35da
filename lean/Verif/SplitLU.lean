import Verif.RowsMem
/-
splitLU (/repo/SymGS.cpp:12-118): objects `k` = A, `kl` = L, `ku` = U; itmp 0 and itmp 1 are rowPtrPartialSum[0] and [1].
-/

namespace SpMP
open Spec

set_option linter.unusedSectionVars false

variable {R : Type} [Races CArr]

/-- SymGS.cpp:42-59, thread `t`: count the entries of its rows. -/
def splitCount (k kl ku : Nat) (ext : Bool) (m T t : Nat) : Prog (CTy R) Unit := do
  let s ← Prog.forUp (ty := CTy R) (simpleBegin T t m) (simpleEnd T t m) ((0 : Int), (0 : Int)) fun i s => do
    Prog.write (ty := CTy R) (.rowptr kl) i s.1
    Prog.write (ty := CTy R) (.rowptr ku) i s.2
    let lo ← Prog.read (ty := CTy R) (.rowptr k) i
    let hi ← extOf k 0 ext i
    let s ← Prog.forUp (ty := CTy R) (lo : Int) hi s fun j s => do
      let c ← Prog.read (ty := CTy R) (.colidx k) j
      pure (if (c : Int) < i then s.1 + 1 else s.1, if i < (c : Int) then s.2 + 1 else s.2)
    let e ← Prog.read (ty := CTy R) (.rowptr k) (i + 1)
    let x ← extOf k 0 ext i
    pure (s.1, s.2 + ((e : Int) - x))
  Prog.write (ty := CTy R) (.itmp 0) ((t : Int) + 1) s.1
  Prog.write (ty := CTy R) (.itmp 1) ((t : Int) + 1) s.2

/-- SymGS.cpp:64-69 (`omp single`): prefix sums over the threads and the last row pointers. -/
def splitSum (kl ku m T : Nat) : Prog (CTy R) (Int × Int) := do
  Prog.forUp (ty := CTy R) 1 T () fun i _ => do
    let a ← Prog.read (ty := CTy R) (.itmp 0) (i + 1)
    let b ← Prog.read (ty := CTy R) (.itmp 0) i
    Prog.write (ty := CTy R) (.itmp 0) (i + 1) ((a : Int) + b)
    let a ← Prog.read (ty := CTy R) (.itmp 1) (i + 1)
    let b ← Prog.read (ty := CTy R) (.itmp 1) i
    Prog.write (ty := CTy R) (.itmp 1) (i + 1) ((a : Int) + b)
  let nl ← Prog.read (ty := CTy R) (.itmp 0) T
  Prog.write (ty := CTy R) (.rowptr kl) m nl
  let nu ← Prog.read (ty := CTy R) (.itmp 1) T
  Prog.write (ty := CTy R) (.rowptr ku) m nu
  pure ((nl : Int), (nu : Int))

/-- SymGS.cpp:82-104, one row of the fill loop; `b` is iBegin. -/
def splitRow (k kl ku : Nat) (ext : Bool) (t : Nat) (b i : Int) : Prog (CTy R) Unit := do
  let p ← Prog.read (ty := CTy R) (.rowptr kl) i
  let o ← Prog.read (ty := CTy R) (.itmp 0) t
  Prog.write (ty := CTy R) (.rowptr kl) i ((p : Int) + o)
  let p ← Prog.read (ty := CTy R) (.rowptr ku) i
  let o ← Prog.read (ty := CTy R) (.itmp 1) t
  Prog.write (ty := CTy R) (.rowptr ku) i ((p : Int) + o)
  (if ext = true ∧ b < i then do
    let u ← Prog.read (ty := CTy R) (.rowptr ku) i
    let r ← Prog.read (ty := CTy R) (.rowptr k) i
    let x ← Prog.read (ty := CTy R) (.extptr k) (i - 1)
    Prog.write (ty := CTy R) (.extptr ku) (i - 1) ((u : Int) - ((r : Int) - x))
  else pure () : Prog (CTy R) Unit)
  let idx0 ← Prog.read (ty := CTy R) (.rowptr kl) i
  let idx1 ← Prog.read (ty := CTy R) (.rowptr ku) i
  let lo ← Prog.read (ty := CTy R) (.rowptr k) i
  let hi ← Prog.read (ty := CTy R) (.rowptr k) (i + 1)
  let _ ← Prog.forUp (ty := CTy R) (lo : Int) (hi : Int) ((idx0 : Int), (idx1 : Int)) fun j s => do
    let c ← Prog.read (ty := CTy R) (.colidx k) j
    let s ← (if (c : Int) < i then do
        Prog.write (ty := CTy R) (.colidx kl) s.1 c
        let v ← Prog.read (ty := CTy R) (.values k) j
        Prog.write (ty := CTy R) (.values kl) s.1 v
        pure (s.1 + 1, s.2)
      else pure s : Prog (CTy R) (Int × Int))
    (if i < (c : Int) then do
        Prog.write (ty := CTy R) (.colidx ku) s.2 c
        let v ← Prog.read (ty := CTy R) (.values k) j
        Prog.write (ty := CTy R) (.values ku) s.2 v
        pure (s.1, s.2 + 1)
      else pure s : Prog (CTy R) (Int × Int))
  let d ← Prog.read (ty := CTy R) (.idiag k) i
  Prog.write (ty := CTy R) (.idiag kl) i d
  let d ← Prog.read (ty := CTy R) (.idiag k) i
  Prog.write (ty := CTy R) (.idiag ku) i d

/-- SymGS.cpp:81-110, thread `t`: fill its rows. -/
def splitFill (k kl ku : Nat) (ext : Bool) (m T t : Nat) : Prog (CTy R) Unit := do
  Prog.forUp (ty := CTy R) (simpleBegin T t m) (simpleEnd T t m) () fun i _ =>
    splitRow k kl ku ext t (simpleBegin T t m) i
  if ext = true ∧ simpleBegin T t m < simpleEnd T t m then do
    let s ← Prog.read (ty := CTy R) (.itmp 1) ((t : Int) + 1)
    let r ← Prog.read (ty := CTy R) (.rowptr k) (simpleEnd T t m)
    let x ← Prog.read (ty := CTy R) (.extptr k) (simpleEnd T t m - 1)
    Prog.write (ty := CTy R) (.extptr ku) (simpleEnd T t m - 1) ((s : Int) - ((r : Int) - x))
  else pure ()

/-- SymGS.cpp:23-35: the arrays allocated before the parallel region. -/
def splitSize1 (sz : CArr → Int) (kl ku : Nat) (ext : Bool) (m T : Nat) : CArr → Int
  | .rowptr j => if j = kl ∨ j = ku then m + 1 else sz (.rowptr j)
  | .idiag j => if j = kl ∨ j = ku then m else sz (.idiag j)
  | .extptr j => if j = ku ∧ ext = true then m else sz (.extptr j)
  | .itmp j => if j = 0 ∨ j = 1 then T + 1 else sz (.itmp j)
  | a => sz a

/-- SymGS.cpp:74-78: colidx and values, allocated by the `single` block. -/
def splitSize2 (sz : CArr → Int) (kl ku : Nat) (nl nu : Int) : CArr → Int
  | .colidx j => if j = kl then nl else if j = ku then nu else sz (.colidx j)
  | .values j => if j = kl then nl else if j = ku then nu else sz (.values j)
  | a => sz a

/-- SymGS.cpp:37-111: the part of splitLU between the two base conversions. -/
def splitCore (sz : CArr → Int) (T k kl ku m : Nat) (ext : Bool) : Script (CTy R) (Int × Int) :=
  let sz1 := splitSize1 sz kl ku ext m T
  Script.seq sz1 (do
    Prog.write (ty := CTy R) (.itmp 0) 0 (0 : Int)
    Prog.write (ty := CTy R) (.itmp 1) 0 (0 : Int)) fun _ =>
  .phase sz1 T (splitCount k kl ku ext m T) fun _ =>
  Script.seq sz1 (splitSum kl ku m T) fun n =>
  .phase (splitSize2 sz1 kl ku n.1 n.2) T (splitFill k kl ku ext m T) fun _ => .done n

/-- SymGS.cpp:12-118 splitLU. `o` says which optional arrays A has; L and U have values and idiag, U has extptr iff A has. -/
def splitLU (sz : CArr → Int) (T k kl ku m : Nat) (o : Opt) : Script (CTy R) Unit :=
  Script.seq sz (Prog.read (ty := CTy R) (.rowptr k) 0) fun oldBase =>
  (make0Based sz k m o).bind fun _ =>
  (splitCore sz T k kl ku m o.extptr).bind fun n =>
  if (1 : Int) = oldBase then
    let sz2 := splitSize2 (splitSize1 sz kl ku o.extptr m T) kl ku n.1 n.2
    (make1Based sz k m o).bind fun _ =>
    (make1Based sz2 kl m ⟨true, false, true, false, false⟩).bind fun _ =>
    make1Based sz2 ku m ⟨true, false, true, false, o.extptr⟩
  else .done ()

/-! ### Specification of the result -/

/-- Row `i` of the strictly lower part. -/
def lowRow (A : Csr R) (i : Nat) : List (Nat × R) := (A.row i).filter fun x => decide (x.1 < i)

/-- Row `i` of the strictly upper part. -/
def upRow (A : Csr R) (i : Nat) : List (Nat × R) := (A.row i).filter fun x => decide (i < x.1)

/-! ### Proofs -/

section
variable {sz : CArr → Int} {T k kl ku : Nat} {A : Csr R} {ext : Bool} {ep : Nat → Nat}

/-- First row of thread `t` (and of thread `t + 1`: one past the last row of `t`). -/
def rowCut (T m t : Nat) : Nat := (simpleBegin T t m).toNat

theorem rowCut_eq (hT : 1 ≤ T) (m t : Nat) : simpleBegin T t m = (rowCut T m t : Int) := by
  have := simpleBegin_nonneg (T := T) (tid := t) (n := m) (by omega) (by omega) (by omega)
  unfold rowCut; omega

theorem rowCut_end (hT : 1 ≤ T) (m t : Nat) : simpleEnd T t m = (rowCut T m (t + 1) : Int) := by
  rw [simpleEnd_eq_next (by omega) (by omega), ← rowCut_eq hT]; push_cast; rfl

theorem rowCut_zero (m : Nat) : rowCut T m 0 = 0 := by
  unfold rowCut; rw [show ((0 : Nat) : Int) = 0 from rfl, simpleBegin_zero (by omega)]; rfl

theorem rowCut_last (hT : 1 ≤ T) (m : Nat) : rowCut T m T = m := by
  unfold rowCut; rw [simpleBegin_last (by omega)]; omega

theorem rowCut_mono (hT : 1 ≤ T) (m : Nat) {t u : Nat} (h : t ≤ u) : rowCut T m t ≤ rowCut T m u := by
  have := simpleBegin_mono (T := T) (t := t) (u := u) (n := m) (by omega) (by omega) (by omega)
  rw [rowCut_eq hT, rowCut_eq hT] at this; omega

theorem rowCut_le (hT : 1 ≤ T) (m t : Nat) : rowCut T m t ≤ m := by
  have := simpleBegin_le (T := T) (tid := t) (n := m)
  rw [rowCut_eq hT] at this; omega

/-- Every row belongs to a thread. -/
theorem rowCut_find (hT : 1 ≤ T) {m r : Nat} (hr : r < m) : ∃ t, t < T ∧ rowCut T m t ≤ r ∧ r < rowCut T m (t + 1) := by
  obtain ⟨t, h0, h1, h2, h3⟩ := simple_exists (T := T) (n := m) (i := r) (by omega) (by omega) (by omega)
  obtain ⟨t, rfl⟩ := Int.eq_ofNat_of_zero_le h0
  rw [rowCut_eq hT] at h2; rw [rowCut_end hT] at h3
  exact ⟨t, by omega, by omega, by omega⟩

variable (A) in
/-- Cells of the source matrix. -/
def SrcArr (k : Nat) (a : CArr) : Prop :=
  a = .rowptr k ∨ a = .colidx k ∨ a = .values k ∨ a = .extptr k ∨ a = .idiag k

/-- The count of one row: loop over the local part, then the external part. -/
theorem wp_countRow {W Rd : CArr → Int → Prop} {m : Mem (CTy R)} (hwf : A.WF) (hp : HoldsPat m k 0 A)
    (he : HoldsExt m k 0 A ext ep) (hx : ∀ i j, i < A.m → ep i ≤ j → j < A.ptr (i + 1) → i < A.col j)
    (hR : ∀ a i, SrcArr k a → Rd a i) {i : Nat} (hi : i < A.m) {s : Int × Int} {Q : Int × Int → Mem (CTy R) → Prop}
    (hQ : Q (s.1 + (lowRow A i).length, s.2 + (upRow A i).length) m) :
    wp sz W Rd (do
      let lo ← Prog.read (ty := CTy R) (.rowptr k) (i : Int)
      let hi ← extOf k 0 ext (i : Int)
      let s ← Prog.forUp (ty := CTy R) (lo : Int) hi s fun j s => do
        let c ← Prog.read (ty := CTy R) (.colidx k) j
        pure (if (c : Int) < i then s.1 + 1 else s.1, if (i : Int) < (c : Int) then s.2 + 1 else s.2)
      let e ← Prog.read (ty := CTy R) (.rowptr k) ((i : Int) + 1)
      let x ← extOf k 0 ext (i : Int)
      pure (s.1, s.2 + ((e : Int) - x))) m Q := by
  have hpi := hp.rp0 (i := i) (by omega)
  have hpi1 := hp.rp1 hi
  obtain ⟨he1, he2⟩ := he.2.2 i hi
  have hnn := hwf.ptr_le_nnz (i := i + 1) (by omega)
  have hext : ∀ {Q : Int → Mem (CTy R) → Prop}, Q (ep i : Int) m → wp sz W Rd (extOf k 0 ext (i : Int)) m Q := by
    intro Q hq
    have := wp_extOf' (sz := sz) (W := W) (Rd := Rd) (Q := Q) hp he (fun i => hR _ i (Or.inl rfl))
      (fun i => hR _ i (by unfold SrcArr; simp)) (r := i) hi (by simpa using hq)
    simpa using this
  simp only [wp_bind, wp_read]
  refine ⟨hR _ _ (Or.inl rfl), _, hpi, hext ?_⟩
  refine wp_forUp (I := fun j s' m' => m' = m ∧ ∃ q : Nat, j = (A.ptr i : Int) + q ∧ (q : Int) ≤ ep i - A.ptr i ∧
    s' = (s.1 + (((A.row i).take q).filter fun x => decide (x.1 < i)).length,
      s.2 + (((A.row i).take q).filter fun x => decide (i < x.1)).length)) ?_ ?_ ?_
  · exact ⟨rfl, 0, by simp, by omega, by simp⟩
  · rintro j s' m' h1 h2 ⟨rfl, q, rfl, h4, rfl⟩
    simp only [wp_bind, wp_read, wp_pure]
    have hq : q < (A.row i).length := by rw [Csr.row_length]; omega
    have hc := hp.col0 (j := A.ptr i + q) (by omega)
    push_cast at hc
    refine ⟨hR _ _ (Or.inr (Or.inl rfl)), _, hc, trivial, q + 1, by push_cast; omega, by push_cast; omega, ?_⟩
    · rw [filter_take_succ _ _ hq, filter_take_succ _ _ hq, Csr.row_getElem]
      simp only [List.length_append]
      refine Prod.ext ?_ ?_
      · show (if (A.col (A.ptr i + q) : Int) < i then _ else _) = _
        by_cases h : A.col (A.ptr i + q) < i
        · rw [if_pos (by omega), if_pos (by simpa using h)]; simp; omega
        · rw [if_neg (by omega), if_neg (by simpa using h)]; simp
      · show (if (i : Int) < (A.col (A.ptr i + q) : Int) then s.2 + _ + 1 else s.2 + _) = s.2 + _
        by_cases h : i < A.col (A.ptr i + q)
        · rw [if_pos (by omega)]; simp [h]; omega
        · rw [if_neg (by omega)]; simp [h]
  · rintro s' m' ⟨rfl, q, h3, h4, rfl⟩
    have hq : q = ep i - A.ptr i := by
      have : max (A.ptr i : Int) (ep i) = (A.ptr i : Int) + q := h3
      omega
    have hdrop : ∀ x ∈ (A.row i).drop q, i < x.1 := by
      intro x hxm
      obtain ⟨y, hy, rfl⟩ := List.getElem_of_mem hxm
      rw [List.getElem_drop, Csr.row_getElem]
      rw [List.length_drop, Csr.row_length] at hy
      exact hx i _ hi (by omega) (by omega)
    refine ⟨hR _ _ (Or.inl rfl), _, hpi1, hext ?_⟩
    rw [wp_pure]
    have e1 := filter_take_all (fun x : Nat × R => decide (x.1 < i)) (A.row i) q
      (fun x hm => by have := hdrop x hm; simp; omega)
    have e2 := filter_take_rest (fun x : Nat × R => decide (i < x.1)) (A.row i) q
      (fun x hm => by have := hdrop x hm; simp; omega)
    rw [Csr.row_length] at e2
    unfold lowRow upRow at hQ
    rw [← e1, ← e2] at hQ
    convert hQ using 2
    show _ + _ + ((A.ptr (i + 1) : Int) - _) = _
    push_cast; omega

/-- Row starts of L and U. -/
abbrev lowPtr (A : Csr R) (i : Nat) : Nat := rowStart (lowRow A) i
abbrev upPtr (A : Csr R) (i : Nat) : Nat := rowStart (upRow A) i

/-- Phase 1. -/
theorem splitCount_ok {m0 : Mem (CTy R)} {α : Type} {Q : α → Mem (CTy R) → Prop} {f : (Nat → Unit) → Script (CTy R) α}
    (hT : 1 ≤ T) (hk : k ≠ kl ∧ k ≠ ku ∧ kl ≠ ku)
    (hwf : A.WF) (hp : HoldsPat m0 k 0 A)
    (he : HoldsExt m0 k 0 A ext ep) (hx : ∀ i j, i < A.m → ep i ≤ j → j < A.ptr (i + 1) → i < A.col j)
    (hQ : ∀ m : Mem (CTy R),
      (∀ t, t < T → (∀ r : Nat, rowCut T A.m t ≤ r → r < rowCut T A.m (t + 1) →
          m (.rowptr kl) (r : Int) = some ((lowPtr A r : Int) - lowPtr A (rowCut T A.m t)) ∧
          m (.rowptr ku) (r : Int) = some ((upPtr A r : Int) - upPtr A (rowCut T A.m t))) ∧
        m (.itmp 0) ((t : Int) + 1) = some ((lowPtr A (rowCut T A.m (t + 1)) : Int) - lowPtr A (rowCut T A.m t)) ∧
        m (.itmp 1) ((t : Int) + 1) = some ((upPtr A (rowCut T A.m (t + 1)) : Int) - upPtr A (rowCut T A.m t))) →
      m (.itmp 0) 0 = m0 (.itmp 0) 0 → m (.itmp 1) 0 = m0 (.itmp 1) 0 →
      (∀ a, a ≠ .rowptr kl → a ≠ .rowptr ku → a ≠ .itmp 0 → a ≠ .itmp 1 → m a = m0 a) →
      (f (fun _ => ())).Ok m Q) :
    (Script.phase (splitSize1 sz kl ku ext A.m T) T (splitCount k kl ku ext A.m T) f).Ok m0 Q := by
  refine par_rule
    (W := fun t a i => ((a = .rowptr kl ∨ a = .rowptr ku) ∧ (rowCut T A.m t : Int) ≤ i ∧ i < rowCut T A.m (t + 1)) ∨
      ((a = .itmp 0 ∨ a = .itmp 1) ∧ i = (t : Int) + 1))
    (R := fun t a i => SrcArr k a ∨
      ((a = .rowptr kl ∨ a = .rowptr ku) ∧ (rowCut T A.m t : Int) ≤ i ∧ i < rowCut T A.m (t + 1)) ∨
      ((a = .itmp 0 ∨ a = .itmp 1) ∧ i = (t : Int) + 1))
    (Q := fun t _ m => (∀ r : Nat, rowCut T A.m t ≤ r → r < rowCut T A.m (t + 1) →
          m (.rowptr kl) (r : Int) = some ((lowPtr A r : Int) - lowPtr A (rowCut T A.m t)) ∧
          m (.rowptr ku) (r : Int) = some ((upPtr A r : Int) - upPtr A (rowCut T A.m t))) ∧
        m (.itmp 0) ((t : Int) + 1) = some ((lowPtr A (rowCut T A.m (t + 1)) : Int) - lowPtr A (rowCut T A.m t)) ∧
        m (.itmp 1) ((t : Int) + 1) = some ((upPtr A (rowCut T A.m (t + 1)) : Int) - upPtr A (rowCut T A.m t))) ?_ ?_ ?_
  · rintro t u a i ht hu htu hw hr
    have hm1 : t < u → rowCut T A.m (t + 1) ≤ rowCut T A.m u := fun h => rowCut_mono hT _ (by omega)
    have hm2 : u < t → rowCut T A.m (u + 1) ≤ rowCut T A.m t := fun h => rowCut_mono hT _ (by omega)
    have hlt : t < u ∨ u < t := by omega
    rcases hw with ⟨ha, h1, h2⟩ | ⟨ha, rfl⟩
    · rcases hr with hr | ⟨_, h3, h4⟩ | ⟨hb, _⟩
      · rcases ha with rfl | rfl <;> simp [SrcArr, hk.1.symm, hk.2.1.symm] at hr
      · rcases hlt with h | h
        · have := hm1 h; omega
        · have := hm2 h; omega
      · rcases ha with rfl | rfl <;> simp at hb
    · rcases hr with hr | ⟨hb, h3, h4⟩ | ⟨hb, h3⟩
      · rcases ha with rfl | rfl <;> simp [SrcArr] at hr
      · rcases ha with rfl | rfl <;> simp at hb
      · omega
  · intro t ht
    have hle := rowCut_le hT A.m (t + 1)
    have hmo := rowCut_mono hT A.m (t := t) (u := t + 1) (by omega)
    unfold splitCount
    rw [rowCut_eq hT, rowCut_end hT, wp_bind]
    generalize hb : rowCut T A.m t = b at *
    generalize hee : rowCut T A.m (t + 1) = e at *
    refine wp_forUp (I := fun i s m => ∃ r : Nat, i = r ∧ b ≤ r ∧ r ≤ e ∧
      s = ((lowPtr A r : Int) - lowPtr A b, (upPtr A r : Int) - upPtr A b) ∧
      (∀ r' : Nat, b ≤ r' → r' < r →
          m (.rowptr kl) (r' : Int) = some ((lowPtr A r' : Int) - lowPtr A b) ∧
          m (.rowptr ku) (r' : Int) = some ((upPtr A r' : Int) - upPtr A b)) ∧
      (∀ a, a ≠ .rowptr kl → a ≠ .rowptr ku → m a = m0 a)) ?_ ?_ ?_
    · refine ⟨b, rfl, Nat.le_refl _, hmo, by simp, fun r' h1 h2 => by omega, fun _ _ _ => rfl⟩
    · rintro i s m h1 h2 ⟨r, rfl, g1, g2, rfl, g3, g4⟩
      rw [wp_bind, wp_write]
      refine ⟨Or.inl ⟨Or.inl rfl, h1, h2⟩, by omega, ?_, ?_⟩
      · show (r : Int) < if kl = kl ∨ kl = ku then _ else _
        rw [if_pos (Or.inl rfl)]; omega
      rw [wp_bind, wp_write]
      refine ⟨Or.inl ⟨Or.inr rfl, h1, h2⟩, by omega, ?_, ?_⟩
      · show (r : Int) < if ku = kl ∨ ku = ku then _ else _
        rw [if_pos (Or.inr rfl)]; omega
      have hfr : ∀ a, a ≠ .rowptr kl → a ≠ .rowptr ku →
          ((m.set (.rowptr kl) (r : Int) ((lowPtr A r : Int) - lowPtr A b)).set (.rowptr ku) (r : Int)
            ((upPtr A r : Int) - upPtr A b)) a = m0 a := by
        intro a e1 e2
        rw [Mem.set_other _ _ _ _ _ e2, Mem.set_other _ _ _ _ _ e1, g4 a e1 e2]
      have hrk : (CArr.rowptr k) ≠ .rowptr kl ∧ (CArr.rowptr k) ≠ .rowptr ku := by simp [hk.1, hk.2.1]
      refine wp_countRow (ep := ep) hwf ⟨?_, ?_⟩ ⟨?_, he.2.1, he.2.2⟩ hx (fun a i h => Or.inl h) (by omega) ?_
      · intro i hi; rw [hfr _ hrk.1 hrk.2]; exact hp.rowptr i hi
      · intro i hi; rw [hfr _ (by simp) (by simp)]; exact hp.colidx i hi
      · intro h i hi; rw [hfr _ (by simp) (by simp)]; exact he.1 h i hi
      · refine ⟨r + 1, by push_cast; rfl, by omega, by omega, ?_, ?_, ?_⟩
        · have e1 := rowStart_succ (lowRow A) r
          have e2 := rowStart_succ (upRow A) r
          unfold lowPtr upPtr
          rw [e1, e2]
          refine Prod.ext ?_ ?_
          · show _ - _ + _ = _; push_cast; ring
          · show _ - _ + _ = _; push_cast; ring
        · intro r' h3 h4
          by_cases h : r' = r
          · subst h
            rw [Mem.set_other _ _ _ _ _ (by simpa using hk.2.2), Mem.set_same, Mem.set_same, if_pos rfl, if_pos rfl]
            exact ⟨rfl, rfl⟩
          · rw [Mem.set_other _ _ _ _ _ (by simpa using hk.2.2), Mem.set_same, if_neg (by omega), Mem.set_same,
              if_neg (by omega), Mem.set_other _ _ _ _ _ (by simpa using hk.2.2.symm)]
            exact g3 r' h3 (by omega)
        · exact hfr
    · rintro s m ⟨r, h3, g1, g2, rfl, g3, g4⟩
      have hr : r = e := by omega
      subst hr
      rw [wp_bind, wp_write]
      refine ⟨Or.inr ⟨Or.inl rfl, rfl⟩, by omega, ?_, ?_⟩
      · show (t : Int) + 1 < (T : Int) + 1
        omega
      rw [wp_write]
      refine ⟨Or.inr ⟨Or.inr rfl, rfl⟩, by omega, ?_, ?_⟩
      · show (t : Int) + 1 < (T : Int) + 1
        omega
      refine ⟨?_, ?_, ?_⟩
      · intro r' h5 h6
        rw [Mem.set_other _ _ _ _ _ (by simp), Mem.set_other _ _ _ _ _ (by simp),
          Mem.set_other _ _ _ _ _ (by simp), Mem.set_other _ _ _ _ _ (by simp)]
        exact g3 r' h5 h6
      · rw [Mem.set_other _ _ _ _ _ (by simp), Mem.set_same, if_pos rfl]
      · rw [Mem.set_same, if_pos rfl]
  · intro u m hq hf
    have hu : u = fun _ => () := rfl
    rw [hu]
    refine hQ m ?_ ?_ ?_ ?_
    · intro t ht
      obtain ⟨mt, ⟨q1, q2, q3⟩, h2⟩ := hq t ht
      refine ⟨?_, ?_, ?_⟩
      · intro r h3 h4
        rw [h2 (.rowptr kl) r (Or.inr (Or.inl ⟨Or.inl rfl, by omega, by omega⟩)),
          h2 (.rowptr ku) r (Or.inr (Or.inl ⟨Or.inr rfl, by omega, by omega⟩))]
        exact q1 r h3 h4
      · rw [h2 (.itmp 0) _ (Or.inr (Or.inr ⟨Or.inl rfl, rfl⟩))]; exact q2
      · rw [h2 (.itmp 1) _ (Or.inr (Or.inr ⟨Or.inr rfl, rfl⟩))]; exact q3
    · refine hf _ _ ?_
      rintro t ht (⟨ha, _⟩ | ⟨_, h⟩)
      · simp at ha
      · omega
    · refine hf _ _ ?_
      rintro t ht (⟨ha, _⟩ | ⟨_, h⟩)
      · simp at ha
      · omega
    · intro a e1 e2 e3 e4
      funext i
      refine hf _ _ ?_
      rintro t ht (⟨ha | ha, _⟩ | ⟨ha | ha, h⟩)
      · exact e1 ha
      · exact e2 ha
      · exact e3 ha
      · exact e4 ha

/-- The `single` block. -/
theorem wp_splitSum {W Rd : CArr → Int → Prop} {m0 : Mem (CTy R)} (hT : 1 ≤ T) (hk : kl ≠ ku)
    (hW : ∀ a i, W a i) (hR : ∀ a i, Rd a i)
    (h0 : m0 (.itmp 0) 0 = some (0 : Int)) (h1 : m0 (.itmp 1) 0 = some (0 : Int))
    (hs : ∀ t, t < T →
        m0 (.itmp 0) ((t : Int) + 1) = some ((lowPtr A (rowCut T A.m (t + 1)) : Int) - lowPtr A (rowCut T A.m t)) ∧
        m0 (.itmp 1) ((t : Int) + 1) = some ((upPtr A (rowCut T A.m (t + 1)) : Int) - upPtr A (rowCut T A.m t))) :
    wp (splitSize1 sz kl ku ext A.m T) W Rd (splitSum kl ku A.m T) m0 (fun n m =>
      n = ((lowPtr A A.m : Int), (upPtr A A.m : Int)) ∧
      (∀ t : Nat, t ≤ T → m (.itmp 0) (t : Int) = some (lowPtr A (rowCut T A.m t) : Int) ∧
        m (.itmp 1) (t : Int) = some (upPtr A (rowCut T A.m t) : Int)) ∧
      m (.rowptr kl) (A.m : Int) = some (lowPtr A A.m : Int) ∧
      m (.rowptr ku) (A.m : Int) = some (upPtr A A.m : Int) ∧
      (∀ i : Int, i ≠ A.m → m (.rowptr kl) i = m0 (.rowptr kl) i ∧ m (.rowptr ku) i = m0 (.rowptr ku) i) ∧
      (∀ a, a ≠ .rowptr kl → a ≠ .rowptr ku → a ≠ .itmp 0 → a ≠ .itmp 1 → m a = m0 a)) := by
  unfold splitSum
  rw [wp_bind]
  have hz0 : lowPtr A (rowCut T A.m 0) = 0 := by rw [rowCut_zero]; rfl
  have hz1 : upPtr A (rowCut T A.m 0) = 0 := by rw [rowCut_zero]; rfl
  refine wp_forUp (I := fun i _ m => ∃ r : Nat, i = r ∧ 1 ≤ r ∧ r ≤ T ∧
    (∀ t : Nat, t ≤ r → m (.itmp 0) (t : Int) = some (lowPtr A (rowCut T A.m t) : Int) ∧
        m (.itmp 1) (t : Int) = some (upPtr A (rowCut T A.m t) : Int)) ∧
    (∀ i : Int, (r : Int) < i → m (.itmp 0) i = m0 (.itmp 0) i ∧ m (.itmp 1) i = m0 (.itmp 1) i) ∧
    (∀ a, a ≠ .itmp 0 → a ≠ .itmp 1 → m a = m0 a)) ?_ ?_ ?_
  · refine ⟨1, rfl, Nat.le_refl _, hT, ?_, fun _ _ => ⟨rfl, rfl⟩, fun _ _ _ => rfl⟩
    intro t ht
    have hs0 := hs 0 (by omega)
    rw [hz0, hz1] at hs0
    rcases (show t = 0 ∨ t = 1 by omega) with rfl | rfl
    · rw [hz0, hz1]; exact ⟨h0, h1⟩
    · refine ⟨?_, ?_⟩
      · have := hs0.1; simpa using this
      · have := hs0.2; simpa using this
  · rintro i _ m g1 g2 ⟨r, rfl, g3, g4, g5, g6, g7⟩
    obtain ⟨a1, a2⟩ := g6 ((r : Int) + 1) (by omega)
    obtain ⟨b1, b2⟩ := hs r (by omega)
    obtain ⟨c1, c2⟩ := g5 r (Nat.le_refl _)
    have hrT : (r : Int) + 1 < (T : Int) + 1 := by omega
    have hs0 : 0 ≤ (r : Int) + 1 ∧ (r : Int) + 1 < splitSize1 sz kl ku ext A.m T (.itmp 0) := by
      refine ⟨by omega, ?_⟩
      exact hrT
    have hs1 : 0 ≤ (r : Int) + 1 ∧ (r : Int) + 1 < splitSize1 sz kl ku ext A.m T (.itmp 1) := by
      refine ⟨by omega, ?_⟩
      exact hrT
    refine wp_rd _ (hR _ _) (a1.trans b1) ?_
    refine wp_rd _ (hR _ _) c1 ?_
    refine wp_wr (hW _ _) hs0 ?_
    refine wp_rd _ (hR _ _) ((congrFun (Mem.set_other _ _ _ _ _ (by simp)) _).trans (a2.trans b2)) ?_
    refine wp_rd _ (hR _ _) ((congrFun (Mem.set_other _ _ _ _ _ (by simp)) _).trans c2) ?_
    refine wp_wr1 (hW _ _) hs1 ?_
    refine ⟨r + 1, by push_cast; rfl, by omega, by omega, ?_, ?_, ?_⟩
    · intro t ht
      rw [Mem.set_other _ _ _ _ _ (by simp), Mem.set_same, Mem.set_same]
      by_cases h : t = r + 1
      · subst h
        rw [if_pos (by push_cast; rfl), if_pos (by push_cast; rfl)]
        refine ⟨?_, ?_⟩
        · congr 1; ring
        · congr 1; ring
      · rw [if_neg (by omega), if_neg (by omega), Mem.set_other _ _ _ _ _ (by simp)]
        exact g5 t (by omega)
    · intro i hi
      rw [Mem.set_other _ _ _ _ _ (by simp), Mem.set_same, Mem.set_same, if_neg (by push_cast at hi; omega),
        if_neg (by push_cast at hi; omega), Mem.set_other _ _ _ _ _ (by simp)]
      exact g6 i (by push_cast at hi; omega)
    · intro a e1 e2
      rw [Mem.set_other _ _ _ _ _ e2, Mem.set_other _ _ _ _ _ e1]; exact g7 a e1 e2
  · rintro _ m ⟨r, g1, g2, g3, g4, g5, g6⟩
    have hr : r = T := by omega
    subst hr
    obtain ⟨c1, c2⟩ := g4 r (Nat.le_refl _)
    rw [rowCut_last hT] at c1 c2
    refine wp_rd _ (hR _ _) c1 ?_
    refine wp_wr (hW _ _) ⟨by omega, ?_⟩ ?_
    · show (A.m : Int) < if kl = kl ∨ kl = ku then (A.m : Int) + 1 else _
      rw [if_pos (Or.inl rfl)]; omega
    refine wp_rd _ (hR _ _) ((congrFun (Mem.set_other _ _ _ _ _ (by simp)) _).trans c2) ?_
    refine wp_wr (hW _ _) ⟨by omega, ?_⟩ ?_
    · show (A.m : Int) < if ku = kl ∨ ku = ku then (A.m : Int) + 1 else _
      rw [if_pos (Or.inr rfl)]; omega
    rw [wp_pure]
    refine ⟨rfl, ?_, ?_, ?_, ?_, ?_⟩
    · intro t ht
      rw [Mem.set_other _ _ _ _ _ (by simp), Mem.set_other _ _ _ _ _ (by simp), Mem.set_other _ _ _ _ _ (by simp),
        Mem.set_other _ _ _ _ _ (by simp)]
      exact g4 t ht
    · rw [Mem.set_other _ _ _ _ _ (by simpa using hk), Mem.set_same, if_pos rfl]
    · rw [Mem.set_same, if_pos rfl]
    · intro i hi
      rw [Mem.set_other _ _ _ _ _ (by simpa using hk), Mem.set_same, if_neg hi, Mem.set_same, if_neg hi,
        Mem.set_other _ _ _ _ _ (by simpa using hk.symm), g6 _ (by simp) (by simp), g6 _ (by simp) (by simp)]
      exact ⟨rfl, rfl⟩
    · intro a e1 e2 e3 e4
      rw [Mem.set_other _ _ _ _ _ e2, Mem.set_other _ _ _ _ _ e1]; exact g6 a e3 e4

/-! #### Filling -/

/-- Cells written by the fill of row `r` by a thread whose rows start at `b`. -/
def FillW (A : Csr R) (kl ku : Nat) (ext : Bool) (b : Nat) (r : Int) (a : CArr) (i : Int) : Prop :=
  ((a = .rowptr kl ∨ a = .rowptr ku ∨ a = .idiag kl ∨ a = .idiag ku) ∧ i = r) ∨
  ((a = .colidx kl ∨ a = .values kl) ∧ (lowPtr A r.toNat : Int) ≤ i ∧ i < lowPtr A (r.toNat + 1)) ∨
  ((a = .colidx ku ∨ a = .values ku) ∧ (upPtr A r.toNat : Int) ≤ i ∧ i < upPtr A (r.toNat + 1)) ∨
  (a = .extptr ku ∧ ext = true ∧ (b : Int) < r ∧ i = r - 1)

/-- Read-only cells of the fill phase. -/
def FillR (k : Nat) (a : CArr) : Prop := SrcArr k a ∨ a = .itmp 0 ∨ a = .itmp 1

/-- What the fill of row `r` leaves behind. -/
structure FillQ (A : Csr R) (m0 : Mem (CTy R)) (k kl ku : Nat) (ext : Bool) (ep : Nat → Nat) (b r : Nat)
    (m : Mem (CTy R)) : Prop where
  rowl : m (.rowptr kl) (r : Int) = some (lowPtr A r : Int)
  rowu : m (.rowptr ku) (r : Int) = some (upPtr A r : Int)
  low : RowAt m kl 0 (lowPtr A r) (lowRow A r)
  up : RowAt m ku 0 (upPtr A r) (upRow A r)
  dl : m (.idiag kl) (r : Int) = m0 (.idiag k) (r : Int)
  du : m (.idiag ku) (r : Int) = m0 (.idiag k) (r : Int)
  ex : ext = true → b < r → m (.extptr ku) ((r : Int) - 1) = some ((upPtr A r : Int) - ((A.ptr r : Int) - ep (r - 1)))

theorem lowRow_le (A : Csr R) (i q : Nat) :
    (((A.row i).take q).filter fun x => decide (x.1 < i)).length ≤ (lowRow A i).length := filter_take_le _ _ _

theorem upRow_le (A : Csr R) (i q : Nat) :
    (((A.row i).take q).filter fun x => decide (i < x.1)).length ≤ (upRow A i).length := filter_take_le _ _ _

/-- The inner loop of the fill. -/
theorem wp_fillLoop {W Rd : CArr → Int → Prop} {m1 : Mem (CTy R)} (hk : k ≠ kl ∧ k ≠ ku ∧ kl ≠ ku)
    (hwf : A.WF) (hp : HoldsPat m1 k 0 A) (hv : HoldsVal m1 k A) {i : Nat} (hi : i < A.m)
    (hR : ∀ a i, SrcArr k a → Rd a i) (hszl : ∀ j, j < lowPtr A A.m → (j : Int) < sz (.colidx kl) ∧ (j : Int) < sz (.values kl))
    (hszu : ∀ j, j < upPtr A A.m → (j : Int) < sz (.colidx ku) ∧ (j : Int) < sz (.values ku))
    (hWl : ∀ a j, a = .colidx kl ∨ a = .values kl → (lowPtr A i : Int) ≤ j → j < lowPtr A (i + 1) → W a j)
    (hWu : ∀ a j, a = .colidx ku ∨ a = .values ku → (upPtr A i : Int) ≤ j → j < upPtr A (i + 1) → W a j)
    {Q : Int × Int → Mem (CTy R) → Prop}
    (hQ : ∀ s m, RowAt m kl 0 (lowPtr A i) (lowRow A i) → RowAt m ku 0 (upPtr A i) (upRow A i) →
      (∀ a, a ≠ .colidx kl → a ≠ .colidx ku → a ≠ .values kl → a ≠ .values ku → m a = m1 a) → Q s m) :
    wp sz W Rd (Prog.forUp (ty := CTy R) (A.ptr i : Int) (A.ptr (i + 1) : Int) ((lowPtr A i : Int), (upPtr A i : Int))
      fun j s => do
        let c ← Prog.read (ty := CTy R) (.colidx k) j
        let s ← (if (c : Int) < i then do
            Prog.write (ty := CTy R) (.colidx kl) s.1 c
            let v ← Prog.read (ty := CTy R) (.values k) j
            Prog.write (ty := CTy R) (.values kl) s.1 v
            pure (s.1 + 1, s.2)
          else pure s : Prog (CTy R) (Int × Int))
        (if (i : Int) < (c : Int) then do
            Prog.write (ty := CTy R) (.colidx ku) s.2 c
            let v ← Prog.read (ty := CTy R) (.values k) j
            Prog.write (ty := CTy R) (.values ku) s.2 v
            pure (s.1, s.2 + 1)
          else pure s : Prog (CTy R) (Int × Int))) m1 Q := by
  have hst := hwf.ptr_step i hi
  have hnn := hwf.ptr_le_nnz (i := i + 1) (by omega)
  have el : lowPtr A (i + 1) = lowPtr A i + (lowRow A i).length := rowStart_succ (lowRow A) i
  have eu : upPtr A (i + 1) = upPtr A i + (upRow A i).length := rowStart_succ (upRow A) i
  have hml : lowPtr A (i + 1) ≤ lowPtr A A.m := rowStart_mono (lowRow A) (i := i + 1) (j := A.m) (by omega)
  have hmu : upPtr A (i + 1) ≤ upPtr A A.m := rowStart_mono (upRow A) (i := i + 1) (j := A.m) (by omega)
  refine wp_forUp (I := fun j s m => ∃ q : Nat, j = (A.ptr i : Int) + q ∧ A.ptr i + q ≤ A.ptr (i + 1) ∧
    s = ((lowPtr A i : Int) + (((A.row i).take q).filter fun x => decide (x.1 < i)).length,
      (upPtr A i : Int) + (((A.row i).take q).filter fun x => decide (i < x.1)).length) ∧
    RowAt m kl 0 (lowPtr A i) (((A.row i).take q).filter fun x => decide (x.1 < i)) ∧
    RowAt m ku 0 (upPtr A i) (((A.row i).take q).filter fun x => decide (i < x.1)) ∧
    (∀ a, a ≠ .colidx kl → a ≠ .colidx ku → a ≠ .values kl → a ≠ .values ku → m a = m1 a)) ?_ ?_ ?_
  · exact ⟨0, by simp, by omega, by simp, by simpa using RowAt.nil _ _ _ _, by simpa using RowAt.nil _ _ _ _,
      fun _ _ _ _ _ => rfl⟩
  · rintro j s m h1 h2 ⟨q, rfl, g1, rfl, g2, g3, g4⟩
    have hq : q < (A.row i).length := by rw [Csr.row_length]; omega
    have hc := hp.col0 (j := A.ptr i + q) (by omega)
    have hvv := hv (A.ptr i + q) (by omega)
    push_cast at hc hvv
    have f1 := filter_take_succ (fun x : Nat × R => decide (x.1 < i)) _ hq
    have f2 := filter_take_succ (fun x : Nat × R => decide (i < x.1)) _ hq
    rw [Csr.row_getElem] at f1 f2
    have b1 := lowRow_le A i (q + 1)
    have b2 := upRow_le A i (q + 1)
    rw [f1, List.length_append] at b1
    rw [f2, List.length_append] at b2
    refine wp_rd _ (hR _ _ (by unfold SrcArr; simp)) ((congrFun (g4 _ (by simp [hk.1]) (by simp [hk.2.1]) (by simp)
      (by simp)) _).trans hc) ?_
    rw [wp_bind, wp_ite]
    refine ⟨?_, ?_⟩
    · intro hlt
      have hlt : (A.col (A.ptr i + q) : Int) < i := hlt
      have hlt' : A.col (A.ptr i + q) < i := by omega
      have hnlt : ¬ i < A.col (A.ptr i + q) := by omega
      simp only [hlt', hnlt, decide_true, decide_false, if_true, List.length_singleton, Bool.false_eq_true, if_false] at f1 f2 b1 b2
      have hpos : lowPtr A i + (((A.row i).take q).filter fun x => decide (x.1 < i)).length < lowPtr A (i + 1) := by
        omega
      have hs := hszl (lowPtr A i + (((A.row i).take q).filter fun x => decide (x.1 < i)).length) (by omega)
      push_cast at hs
      refine wp_wr (hWl _ _ (Or.inl rfl) (by omega) (by push_cast; omega)) ⟨by omega, hs.1⟩ ?_
      refine wp_rd _ (hR _ _ (by unfold SrcArr; simp)) ((congrFun ((Mem.set_other _ _ _ _ _ (by simp)).trans
        (g4 _ (by simp) (by simp) (by simp [hk.1]) (by simp [hk.2.1]))) _).trans hvv) ?_
      refine wp_wr (hWl _ _ (Or.inr rfl) (by omega) (by push_cast; omega)) ⟨by omega, hs.2⟩ ?_
      rw [wp_pure, wp_ite]
      refine ⟨fun h => absurd h (by show ¬ (i : Int) < (A.col (A.ptr i + q) : Int); omega), fun _ => ?_⟩
      rw [wp_pure]
      refine ⟨q + 1, by push_cast; ring, by omega, ?_, ?_, ?_, ?_⟩
      · rw [f1, f2]
        simp only [List.length_append, List.length_singleton, List.append_nil]
        push_cast
        refine Prod.ext ?_ rfl
        show _ + _ + 1 = _ ; ring
      · rw [f1]
        exact g2.snoc _ _
      · rw [f2, List.append_nil]
        refine g3.congr ?_ ?_
        · intro x _ _
          rw [Mem.set_other _ _ _ _ _ (by simp), Mem.set_other _ _ _ _ _ (by simpa using hk.2.2.symm)]
        · intro x _ _
          rw [Mem.set_other _ _ _ _ _ (by simpa using hk.2.2.symm), Mem.set_other _ _ _ _ _ (by simp)]
      · intro a e1 e2 e3 e4
        rw [Mem.set_other _ _ _ _ _ e3, Mem.set_other _ _ _ _ _ e1]; exact g4 a e1 e2 e3 e4
    · intro hge
      have hge : ¬ (A.col (A.ptr i + q) : Int) < i := hge
      have hge' : ¬ A.col (A.ptr i + q) < i := by omega
      rw [wp_pure, wp_ite]
      refine ⟨?_, ?_⟩
      · intro hgt
        have hgt : (i : Int) < (A.col (A.ptr i + q) : Int) := hgt
        have hgt' : i < A.col (A.ptr i + q) := by omega
        simp only [hgt', hge', decide_true, decide_false, if_true, List.length_singleton, Bool.false_eq_true, if_false] at f1 f2 b1 b2
        have hpos : upPtr A i + (((A.row i).take q).filter fun x => decide (i < x.1)).length < upPtr A (i + 1) := by
          omega
        have hs := hszu (upPtr A i + (((A.row i).take q).filter fun x => decide (i < x.1)).length) (by omega)
        push_cast at hs
        refine wp_wr (hWu _ _ (Or.inl rfl) (by omega) (by push_cast; omega)) ⟨by omega, hs.1⟩ ?_
        refine wp_rd _ (hR _ _ (by unfold SrcArr; simp)) ((congrFun ((Mem.set_other _ _ _ _ _ (by simp)).trans
          (g4 _ (by simp) (by simp) (by simp [hk.1]) (by simp [hk.2.1]))) _).trans hvv) ?_
        refine wp_wr (hWu _ _ (Or.inr rfl) (by omega) (by push_cast; omega)) ⟨by omega, hs.2⟩ ?_
        rw [wp_pure]
        refine ⟨q + 1, by push_cast; ring, by omega, ?_, ?_, ?_, ?_⟩
        · rw [f1, f2]
          simp only [List.length_append, List.length_singleton, List.append_nil]
          push_cast
          refine Prod.ext rfl ?_
          show _ + _ + 1 = _ ; ring
        · rw [f1, List.append_nil]
          refine g2.congr ?_ ?_
          · intro x _ _
            rw [Mem.set_other _ _ _ _ _ (by simp), Mem.set_other _ _ _ _ _ (by simpa using hk.2.2)]
          · intro x _ _
            rw [Mem.set_other _ _ _ _ _ (by simpa using hk.2.2), Mem.set_other _ _ _ _ _ (by simp)]
        · rw [f2]
          exact g3.snoc _ _
        · intro a e1 e2 e3 e4
          rw [Mem.set_other _ _ _ _ _ e4, Mem.set_other _ _ _ _ _ e2]; exact g4 a e1 e2 e3 e4
      · intro hng
        have hng : ¬ (i : Int) < (A.col (A.ptr i + q) : Int) := hng
        have hng' : ¬ i < A.col (A.ptr i + q) := by omega
        simp only [hng', hge', decide_false, Bool.false_eq_true, if_false, List.append_nil] at f1 f2
        rw [wp_pure]
        refine ⟨q + 1, by push_cast; ring, by omega, ?_, ?_, ?_, g4⟩
        · rw [f1, f2]
        · rw [f1]; exact g2
        · rw [f2]; exact g3
  · rintro s m ⟨q, g1, g2, rfl, g3, g4, g5⟩
    have hq : q = (A.row i).length := by rw [Csr.row_length]; omega
    rw [hq, List.take_length] at g3 g4
    exact hQ _ _ g3 g4 g5

/-- Memory at the start of the fill phase. -/
structure FillPre (A : Csr R) (m0 : Mem (CTy R)) (T k kl ku : Nat) (ext : Bool) (ep : Nat → Nat) : Prop where
  pat : HoldsPat m0 k 0 A
  val : HoldsVal m0 k A
  ext : HoldsExt m0 k 0 A ext ep
  idiag : ∀ i : Nat, i < A.m → ∃ v, m0 (.idiag k) (i : Int) = some v
  rowl : ∀ t, t < T → ∀ r : Nat, rowCut T A.m t ≤ r → r < rowCut T A.m (t + 1) →
    m0 (.rowptr kl) (r : Int) = some ((lowPtr A r : Int) - lowPtr A (rowCut T A.m t)) ∧
    m0 (.rowptr ku) (r : Int) = some ((upPtr A r : Int) - upPtr A (rowCut T A.m t))
  sum : ∀ t : Nat, t ≤ T → m0 (.itmp 0) (t : Int) = some (lowPtr A (rowCut T A.m t) : Int) ∧
    m0 (.itmp 1) (t : Int) = some (upPtr A (rowCut T A.m t) : Int)

/-- Sizes available to the fill phase. -/
structure FillSz (A : Csr R) (sz : CArr → Int) (kl ku : Nat) (ext : Bool) : Prop where
  rl : (A.m : Int) ≤ sz (.rowptr kl)
  ru : (A.m : Int) ≤ sz (.rowptr ku)
  dl : (A.m : Int) ≤ sz (.idiag kl)
  du : (A.m : Int) ≤ sz (.idiag ku)
  ex : ext = true → (A.m : Int) ≤ sz (.extptr ku)
  cl : ∀ j, j < lowPtr A A.m → (j : Int) < sz (.colidx kl) ∧ (j : Int) < sz (.values kl)
  cu : ∀ j, j < upPtr A A.m → (j : Int) < sz (.colidx ku) ∧ (j : Int) < sz (.values ku)

theorem wp_splitRow {m0 : Mem (CTy R)} {t : Nat} (hT : 1 ≤ T) (ht : t < T) (hk : k ≠ kl ∧ k ≠ ku ∧ kl ≠ ku)
    (hwf : A.WF) (hpre : FillPre A m0 T k kl ku ext ep) (hsz : FillSz A sz kl ku ext) {i : Nat}
    (h1 : rowCut T A.m t ≤ i) (h2 : i < rowCut T A.m (t + 1)) :
    wp sz (FillW A kl ku ext (rowCut T A.m t) i) (fun a j => FillR k a ∨ FillW A kl ku ext (rowCut T A.m t) i a j)
      (splitRow k kl ku ext t (rowCut T A.m t) i) m0 (fun _ m => FillQ A m0 k kl ku ext ep (rowCut T A.m t) i m) := by
  have him : i < A.m := Nat.lt_of_lt_of_le h2 (rowCut_le hT _ _)
  obtain ⟨r1, r2⟩ := hpre.rowl t ht i h1 h2
  obtain ⟨s1, s2⟩ := hpre.sum t (by omega)
  obtain ⟨dv, hdv⟩ := hpre.idiag i him
  generalize hb : rowCut T A.m t = b at *
  have hkl : kl ≠ k := fun h => hk.1 h.symm
  have hku : ku ≠ k := fun h => hk.2.1 h.symm
  have hul : ku ≠ kl := fun h => hk.2.2 h.symm
  obtain ⟨_, _, hlu⟩ := hk
  unfold splitRow
  refine wp_rd _ (Or.inr (Or.inl ⟨by simp, rfl⟩)) r1 ?_
  refine wp_rd _ (Or.inl (by simp [FillR])) s1 ?_
  refine wp_wr (Or.inl ⟨by simp, rfl⟩) ⟨by omega, by have := hsz.rl; omega⟩ ?_
  refine wp_rd ((upPtr A i : Int) - upPtr A b) (Or.inr (Or.inl ⟨by simp, rfl⟩)) (by simp [hul, r2]) ?_
  refine wp_rd (upPtr A b : Int) (Or.inl (by simp [FillR])) (by simp [s2]) ?_
  refine wp_wr (Or.inl ⟨by simp, rfl⟩) ⟨by omega, by have := hsz.ru; omega⟩ ?_
  rw [show (lowPtr A i : Int) - lowPtr A b + lowPtr A b = lowPtr A i by omega,
    show (upPtr A i : Int) - upPtr A b + upPtr A b = upPtr A i by omega]
  generalize hm1 : (m0.set (.rowptr kl) (i : Int) (lowPtr A i : Int)).set (.rowptr ku) (i : Int) (upPtr A i : Int) = m1
  have q1 : m1 (.rowptr kl) (i : Int) = some (lowPtr A i : Int) := by
    rw [← hm1, Mem.set_other _ _ _ _ _ (by simpa using hlu), Mem.get_same]
  have q2 : m1 (.rowptr ku) (i : Int) = some (upPtr A i : Int) := by rw [← hm1, Mem.get_same]
  have q3 : ∀ a, a ≠ .rowptr kl → a ≠ .rowptr ku → m1 a = m0 a := by
    intro a e1 e2; rw [← hm1, Mem.set_other _ _ _ _ _ e2, Mem.set_other _ _ _ _ _ e1]
  clear hm1
  rw [wp_bind]
  -- the external pointer of the previous row
  have hext : wp sz (FillW A kl ku ext b i) (fun a j => FillR k a ∨ FillW A kl ku ext b i a j)
      (if ext = true ∧ (b : Int) < i then do
        let u ← Prog.read (ty := CTy R) (.rowptr ku) i
        let r ← Prog.read (ty := CTy R) (.rowptr k) i
        let x ← Prog.read (ty := CTy R) (.extptr k) ((i : Int) - 1)
        Prog.write (ty := CTy R) (.extptr ku) ((i : Int) - 1) ((u : Int) - ((r : Int) - x))
      else pure () : Prog (CTy R) Unit) m1 (fun _ m =>
        (ext = true → b < i → m (.extptr ku) ((i : Int) - 1) = some ((upPtr A i : Int) - ((A.ptr i : Int) - ep (i - 1)))) ∧
        ∀ a, a ≠ .extptr ku → m a = m1 a) := by
    rw [wp_ite]
    refine ⟨?_, ?_⟩
    · rintro ⟨he, hbi⟩
      refine wp_rd _ (Or.inr (Or.inl ⟨by simp, rfl⟩)) q2 ?_
      refine wp_rd _ (Or.inl (by simp [FillR, SrcArr])) ((congrFun (q3 _ (by simp [Ne.symm hkl]) (by simp [Ne.symm hku])) _).trans
        (hpre.pat.rp0 (i := i) (by omega))) ?_
      have hx := hpre.ext.1 he (i - 1) (by omega)
      rw [show ((i - 1 : Nat) : Int) = (i : Int) - 1 by omega] at hx
      refine wp_rd _ (Or.inl (by simp [FillR, SrcArr])) ((congrFun (q3 _ (by simp) (by simp)) _).trans hx) ?_
      refine wp_wr1 (Or.inr (Or.inr (Or.inr ⟨rfl, he, by omega, rfl⟩))) ⟨by omega, by have := hsz.ex he; omega⟩ ?_
      refine ⟨?_, ?_⟩
      · intro _ _; rw [Mem.get_same]; simp
      · intro a e; rw [Mem.set_other _ _ _ _ _ e]
    · intro hn
      rw [wp_pure]
      exact ⟨fun he hbi => absurd ⟨he, by omega⟩ hn, fun _ _ => rfl⟩
  refine wp_mono hext ?_
  rintro _ m2 ⟨x1, x2⟩
  have hsrc : ∀ a, SrcArr k a → m2 a = m0 a := by
    intro a ha
    have : a ≠ .extptr ku ∧ a ≠ .rowptr kl ∧ a ≠ .rowptr ku := by
      rcases ha with rfl | rfl | rfl | rfl | rfl <;> simp [Ne.symm hkl, Ne.symm hku]
    rw [x2 a this.1, q3 a this.2.1 this.2.2]
  have hp2 : HoldsPat m2 k 0 A := by
    refine ⟨?_, ?_⟩
    · intro j hj; rw [hsrc _ (by simp [SrcArr])]; exact hpre.pat.rowptr j hj
    · intro j hj; rw [hsrc _ (by simp [SrcArr])]; exact hpre.pat.colidx j hj
  have hv2 : HoldsVal m2 k A := by
    intro j hj; rw [hsrc _ (by simp [SrcArr])]; exact hpre.val j hj
  refine wp_rd _ (Or.inr (Or.inl ⟨by simp, rfl⟩)) ((congrFun (x2 _ (by simp)) _).trans q1) ?_
  refine wp_rd _ (Or.inr (Or.inl ⟨by simp, rfl⟩)) ((congrFun (x2 _ (by simp)) _).trans q2) ?_
  refine wp_rd _ (Or.inl (by simp [FillR, SrcArr])) (hp2.rp0 (i := i) (by omega)) ?_
  refine wp_rd _ (Or.inl (by simp [FillR, SrcArr])) (hp2.rp1 him) ?_
  rw [wp_bind]
  refine wp_fillLoop ⟨Ne.symm hkl, Ne.symm hku, hlu⟩ hwf hp2 hv2 him (fun a j h => Or.inl (Or.inl h)) hsz.cl hsz.cu ?_ ?_ ?_
  · intro a j ha g1 g2; exact Or.inr (Or.inl ⟨ha, by simpa using g1, by simpa using g2⟩)
  · intro a j ha g1 g2; exact Or.inr (Or.inr (Or.inl ⟨ha, by simpa using g1, by simpa using g2⟩))
  intro s m3 g1 g2 g3
  refine wp_rd dv (Or.inl (by simp [FillR, SrcArr])) ?_ ?_
  · rw [g3 _ (by simp) (by simp) (by simp) (by simp), hsrc _ (by simp [SrcArr])]; exact hdv
  refine wp_wr (Or.inl ⟨by simp, rfl⟩) ⟨by omega, by have := hsz.dl; omega⟩ ?_
  refine wp_rd dv (Or.inl (by simp [FillR, SrcArr])) ?_ ?_
  · rw [Mem.set_other _ _ _ _ _ (by simpa using Ne.symm hkl), g3 _ (by simp) (by simp) (by simp) (by simp),
      hsrc _ (by simp [SrcArr])]; exact hdv
  refine wp_wr1 (Or.inl ⟨by simp, rfl⟩) ⟨by omega, by have := hsz.du; omega⟩ ?_
  have hfr : ∀ a, a ≠ .idiag kl → a ≠ .idiag ku →
      ((m3.set (.idiag kl) (i : Int) dv).set (.idiag ku) (i : Int) dv) a = m3 a := by
    intro a e1 e2; rw [Mem.set_other _ _ _ _ _ e2, Mem.set_other _ _ _ _ _ e1]
  refine ⟨?_, ?_, ?_, ?_, ?_, ?_, ?_⟩
  · rw [hfr _ (by simp) (by simp), g3 _ (by simp) (by simp) (by simp) (by simp), x2 _ (by simp)]; exact q1
  · rw [hfr _ (by simp) (by simp), g3 _ (by simp) (by simp) (by simp) (by simp), x2 _ (by simp)]; exact q2
  · refine g1.congr ?_ ?_
    · intro x _ _; rw [hfr _ (by simp) (by simp)]
    · intro x _ _; rw [hfr _ (by simp) (by simp)]
  · refine g2.congr ?_ ?_
    · intro x _ _; rw [hfr _ (by simp) (by simp)]
    · intro x _ _; rw [hfr _ (by simp) (by simp)]
  · rw [Mem.set_other _ _ _ _ _ (by simpa using hlu), Mem.get_same, hdv]
  · rw [Mem.get_same, hdv]
  · intro he hbi
    rw [hfr _ (by simp) (by simp), g3 _ (by simp) (by simp) (by simp) (by simp)]
    exact x1 he hbi

/-- Cells written by thread `t` of the fill phase. -/
def FillWT (A : Csr R) (T kl ku : Nat) (ext : Bool) (t : Nat) (a : CArr) (i : Int) : Prop :=
  ((a = .rowptr kl ∨ a = .rowptr ku ∨ a = .idiag kl ∨ a = .idiag ku ∨ (a = .extptr ku ∧ ext = true)) ∧
    (rowCut T A.m t : Int) ≤ i ∧ i < rowCut T A.m (t + 1)) ∨
  ((a = .colidx kl ∨ a = .values kl) ∧ (lowPtr A (rowCut T A.m t) : Int) ≤ i ∧ i < lowPtr A (rowCut T A.m (t + 1))) ∨
  ((a = .colidx ku ∨ a = .values ku) ∧ (upPtr A (rowCut T A.m t) : Int) ≤ i ∧ i < upPtr A (rowCut T A.m (t + 1)))

theorem FillW.toWT {t : Nat} {r : Int} {a : CArr} {i : Int}
    (h1 : (rowCut T A.m t : Int) ≤ r) (h2 : r < rowCut T A.m (t + 1))
    (h : FillW A kl ku ext (rowCut T A.m t) r a i) : FillWT A T kl ku ext t a i := by
  have a1 : lowPtr A (rowCut T A.m t) ≤ lowPtr A r.toNat := rowStart_mono _ (by omega)
  have a2 : lowPtr A (r.toNat + 1) ≤ lowPtr A (rowCut T A.m (t + 1)) := rowStart_mono _ (by omega)
  have a3 : upPtr A (rowCut T A.m t) ≤ upPtr A r.toNat := rowStart_mono _ (by omega)
  have a4 : upPtr A (r.toNat + 1) ≤ upPtr A (rowCut T A.m (t + 1)) := rowStart_mono _ (by omega)
  rcases h with ⟨h, rfl⟩ | ⟨h, g1, g2⟩ | ⟨h, g1, g2⟩ | ⟨rfl, he, g1, rfl⟩
  · refine Or.inl ⟨?_, h1, h2⟩
    rcases h with h | h | h | h <;> simp [h]
  · exact Or.inr (Or.inl ⟨h, by omega, by omega⟩)
  · exact Or.inr (Or.inr ⟨h, by omega, by omega⟩)
  · exact Or.inl ⟨by simp [he], by omega, by omega⟩

theorem FillW.notSrc {b : Nat} {r : Int} {a : CArr} {i : Int} (hk : k ≠ kl ∧ k ≠ ku ∧ kl ≠ ku)
    (h : FillW A kl ku ext b r a i) : ¬ FillR k a := by
  have hkl : kl ≠ k := fun h => hk.1 h.symm
  have hku : ku ≠ k := fun h => hk.2.1 h.symm
  rcases h with ⟨h | h | h | h, _⟩ | ⟨h | h, _⟩ | ⟨h | h, _⟩ | ⟨h, _⟩ <;> subst h <;> simp [FillR, SrcArr, hkl, hku]

theorem FillWT.notSrc {t : Nat} {a : CArr} {i : Int} (hk : k ≠ kl ∧ k ≠ ku ∧ kl ≠ ku)
    (h : FillWT A T kl ku ext t a i) : ¬ FillR k a := by
  have hkl : kl ≠ k := fun h => hk.1 h.symm
  have hku : ku ≠ k := fun h => hk.2.1 h.symm
  rcases h with ⟨h | h | h | h | ⟨h, _⟩, _⟩ | ⟨h | h, _⟩ | ⟨h | h, _⟩ <;> subst h <;> simp [FillR, SrcArr, hkl, hku]

/-- The rows of one thread write different cells. -/
theorem FillW.disj {b : Nat} {r r' : Int} {a : CArr} {i : Int} (hk : kl ≠ ku) (h0 : 0 ≤ r) (h0' : 0 ≤ r') (hr : r ≠ r')
    (h : FillW A kl ku ext b r a i) : ¬ FillW A kl ku ext b r' a i := by
  have hul : ku ≠ kl := fun h => hk h.symm
  have m1 : r < r' → lowPtr A (r.toNat + 1) ≤ lowPtr A r'.toNat := fun _ => rowStart_mono _ (by omega)
  have m2 : r' < r → lowPtr A (r'.toNat + 1) ≤ lowPtr A r.toNat := fun _ => rowStart_mono _ (by omega)
  have m3 : r < r' → upPtr A (r.toNat + 1) ≤ upPtr A r'.toNat := fun _ => rowStart_mono _ (by omega)
  have m4 : r' < r → upPtr A (r'.toNat + 1) ≤ upPtr A r.toNat := fun _ => rowStart_mono _ (by omega)
  have hlt : r < r' ∨ r' < r := by omega
  rintro (⟨g, e⟩ | ⟨g, e1, e2⟩ | ⟨g, e1, e2⟩ | ⟨g, _, e1, e2⟩)
  · rcases h with ⟨_, e'⟩ | ⟨h, _⟩ | ⟨h, _⟩ | ⟨h, _⟩
    · omega
    · rcases g with rfl | rfl | rfl | rfl <;> simp at h
    · rcases g with rfl | rfl | rfl | rfl <;> simp at h
    · rcases g with rfl | rfl | rfl | rfl <;> simp at h
  · rcases h with ⟨h, _⟩ | ⟨_, f1, f2⟩ | ⟨h, _⟩ | ⟨h, _⟩
    · rcases g with rfl | rfl <;> simp at h
    · rcases hlt with hl | hl
      · have := m1 hl; omega
      · have := m2 hl; omega
    · rcases g with rfl | rfl <;> simp [hk] at h
    · rcases g with rfl | rfl <;> simp at h
  · rcases h with ⟨h, _⟩ | ⟨h, _⟩ | ⟨_, f1, f2⟩ | ⟨h, _⟩
    · rcases g with rfl | rfl <;> simp at h
    · rcases g with rfl | rfl <;> simp [hul] at h
    · rcases hlt with hl | hl
      · have := m3 hl; omega
      · have := m4 hl; omega
    · rcases g with rfl | rfl <;> simp at h
  · subst g
    rcases h with ⟨h, _⟩ | ⟨h, _⟩ | ⟨h, _⟩ | ⟨_, _, _, f⟩
    · simp at h
    · simp at h
    · simp at h
    · omega

/-- Different threads write different cells. -/
theorem FillWT.disj {t u : Nat} {a : CArr} {i : Int} (hT : 1 ≤ T) (hk : kl ≠ ku) (hr : t ≠ u)
    (h : FillWT A T kl ku ext t a i) : ¬ FillWT A T kl ku ext u a i := by
  have hul : ku ≠ kl := fun h => hk h.symm
  have m0 : t < u → rowCut T A.m (t + 1) ≤ rowCut T A.m u := fun _ => rowCut_mono hT _ (by omega)
  have m0' : u < t → rowCut T A.m (u + 1) ≤ rowCut T A.m t := fun _ => rowCut_mono hT _ (by omega)
  have m1 : t < u → lowPtr A (rowCut T A.m (t + 1)) ≤ lowPtr A (rowCut T A.m u) := fun h => rowStart_mono _ (m0 h)
  have m2 : u < t → lowPtr A (rowCut T A.m (u + 1)) ≤ lowPtr A (rowCut T A.m t) := fun h => rowStart_mono _ (m0' h)
  have m3 : t < u → upPtr A (rowCut T A.m (t + 1)) ≤ upPtr A (rowCut T A.m u) := fun h => rowStart_mono _ (m0 h)
  have m4 : u < t → upPtr A (rowCut T A.m (u + 1)) ≤ upPtr A (rowCut T A.m t) := fun h => rowStart_mono _ (m0' h)
  have hlt : t < u ∨ u < t := by omega
  rintro (⟨g, e1, e2⟩ | ⟨g, e1, e2⟩ | ⟨g, e1, e2⟩)
  · rcases h with ⟨_, f1, f2⟩ | ⟨h, _⟩ | ⟨h, _⟩
    · rcases hlt with hl | hl
      · have := m0 hl; omega
      · have := m0' hl; omega
    · rcases g with rfl | rfl | rfl | rfl | ⟨rfl, _⟩ <;> simp at h
    · rcases g with rfl | rfl | rfl | rfl | ⟨rfl, _⟩ <;> simp at h
  · rcases h with ⟨h, _⟩ | ⟨_, f1, f2⟩ | ⟨h, _⟩
    · rcases g with rfl | rfl <;> simp at h
    · rcases hlt with hl | hl
      · have := m1 hl; omega
      · have := m2 hl; omega
    · rcases g with rfl | rfl <;> simp [hk] at h
  · rcases h with ⟨h, _⟩ | ⟨h, _⟩ | ⟨_, f1, f2⟩
    · rcases g with rfl | rfl <;> simp at h
    · rcases g with rfl | rfl <;> simp [hul] at h
    · rcases hlt with hl | hl
      · have := m3 hl; omega
      · have := m4 hl; omega

/-- The result of splitLU (base 0): L and U row by row, inverse diagonals, external pointers of U. -/
structure SplitRes (A : Csr R) (m0 m : Mem (CTy R)) (k kl ku : Nat) (ext : Bool) (ep : Nat → Nat) : Prop where
  rowl : ∀ i : Nat, i ≤ A.m → m (.rowptr kl) (i : Int) = some (lowPtr A i : Int)
  rowu : ∀ i : Nat, i ≤ A.m → m (.rowptr ku) (i : Int) = some (upPtr A i : Int)
  low : ∀ i, i < A.m → RowAt m kl 0 (lowPtr A i) (lowRow A i)
  up : ∀ i, i < A.m → RowAt m ku 0 (upPtr A i) (upRow A i)
  diag : ∀ i : Nat, i < A.m → m (.idiag kl) (i : Int) = m0 (.idiag k) (i : Int) ∧ m (.idiag ku) (i : Int) = m0 (.idiag k) (i : Int)
  ex : ext = true → ∀ i : Nat, i < A.m →
    m (.extptr ku) (i : Int) = some ((upPtr A (i + 1) : Int) - ((A.ptr (i + 1) : Int) - ep i))
  rest : ∀ a, a ≠ .itmp 0 → a ≠ .itmp 1 →
    (∀ q, q = kl ∨ q = ku → a ≠ .rowptr q ∧ a ≠ .colidx q ∧ a ≠ .values q ∧ a ≠ .idiag q ∧ a ≠ .extptr q) → m a = m0 a

theorem splitFill_ok {m0 : Mem (CTy R)} (hT : 1 ≤ T) (hk : k ≠ kl ∧ k ≠ ku ∧ kl ≠ ku)
    (hwf : A.WF) (hpre : FillPre A m0 T k kl ku ext ep) (hsz : FillSz A sz kl ku ext) {Post : (Nat → Unit) → Mem (CTy R) → Prop}
    (hQ : ∀ m : Mem (CTy R),
      (∀ i : Nat, i < A.m → m (.rowptr kl) (i : Int) = some (lowPtr A i : Int) ∧ m (.rowptr ku) (i : Int) = some (upPtr A i : Int) ∧
        RowAt m kl 0 (lowPtr A i) (lowRow A i) ∧ RowAt m ku 0 (upPtr A i) (upRow A i) ∧
        m (.idiag kl) (i : Int) = m0 (.idiag k) (i : Int) ∧ m (.idiag ku) (i : Int) = m0 (.idiag k) (i : Int) ∧
        (ext = true → m (.extptr ku) (i : Int) = some ((upPtr A (i + 1) : Int) - ((A.ptr (i + 1) : Int) - ep i)))) →
      (∀ a i, (∀ t, t < T → ¬ FillWT A T kl ku ext t a i) → m a i = m0 a i) → Post (fun _ => ()) m) :
    ParOk sz T Post (splitFill k kl ku ext A.m T) m0 := by
  have hle : ∀ t, rowCut T A.m t ≤ A.m := rowCut_le hT A.m
  refine par_rule (W := FillWT A T kl ku ext) (R := fun t a i => FillR k a ∨ FillWT A T kl ku ext t a i)
    (Q := fun t _ m => (∀ r : Nat, rowCut T A.m t ≤ r → r < rowCut T A.m (t + 1) →
        ∃ mt, FillQ A m0 k kl ku ext ep (rowCut T A.m t) r mt ∧
          (∀ a i, (a ≠ .extptr ku ∨ i ≠ (rowCut T A.m (t + 1) : Int) - 1) →
            FillW A kl ku ext (rowCut T A.m t) r a i → m a i = mt a i)) ∧
      (ext = true → rowCut T A.m t < rowCut T A.m (t + 1) → m (.extptr ku) ((rowCut T A.m (t + 1) : Int) - 1) =
        some ((upPtr A (rowCut T A.m (t + 1)) : Int) - ((A.ptr (rowCut T A.m (t + 1)) : Int) - ep (rowCut T A.m (t + 1) - 1)))))
    ?_ ?_ ?_
  · rintro t u a i ht hu htu hw (hr | hr)
    · exact hw.notSrc hk hr
    · exact hw.disj hT hk.2.2 htu hr
  · intro t ht
    unfold splitFill
    rw [rowCut_eq hT, rowCut_end hT, wp_bind]
    refine wp_rows (Wr := fun r => FillW A kl ku ext (rowCut T A.m t) r)
      (Rr := fun r a i => FillR k a ∨ FillW A kl ku ext (rowCut T A.m t) r a i)
      (Qr := fun r m => FillQ A m0 k kl ku ext ep (rowCut T A.m t) r.toNat m) ?_ ?_ ?_ ?_ ?_
    · intro r a i h1 h2 hw; exact hw.toWT h1 h2
    · rintro r a i h1 h2 (h | h)
      · exact Or.inl h
      · exact Or.inr (h.toWT h1 h2)
    · rintro r r' a i h1 h2 h3 h4 hne hw (h | h)
      · exact hw.notSrc hk h
      · exact hw.disj hk.2.2 (by omega) (by omega) hne h
    · intro r h1 h2
      obtain ⟨r, rfl⟩ := Int.eq_ofNat_of_zero_le (show 0 ≤ r by omega)
      exact wp_splitRow hT ht hk hwf hpre hsz (by omega) (by omega)
    · intro m hm hf
      have hsrc : ∀ a i, FillR k a → m a i = m0 a i := by
        intro a i ha; exact hf a i (fun r _ _ hw => hw.notSrc hk ha)
      rw [wp_ite]
      refine ⟨?_, ?_⟩
      · rintro ⟨he, hbe⟩
        have hbe : rowCut T A.m t < rowCut T A.m (t + 1) := by omega
        have hs := (hpre.sum (t + 1) (by omega)).2
        push_cast at hs
        refine wp_rd _ (Or.inl (by simp [FillR])) ((hsrc _ _ (by simp [FillR])).trans hs) ?_
        refine wp_rd _ (Or.inl (by simp [FillR, SrcArr])) ((hsrc _ _ (by simp [FillR, SrcArr])).trans (hpre.pat.rp0 (hle _))) ?_
        have hx := hpre.ext.1 he (rowCut T A.m (t + 1) - 1) (by have := hle (t + 1); omega)
        rw [show ((rowCut T A.m (t + 1) - 1 : Nat) : Int) = (rowCut T A.m (t + 1) : Int) - 1 by omega] at hx
        refine wp_rd _ (Or.inl (by simp [FillR, SrcArr])) ((hsrc _ _ (by simp [FillR, SrcArr])).trans hx) ?_
        refine wp_wr1 (Or.inl ⟨by simp [he], by omega, by omega⟩)
          ⟨by omega, by have := hsz.ex he; have := hle (t + 1); omega⟩ ?_
        refine ⟨?_, ?_⟩
        · intro r g1 g2
          obtain ⟨mt, q1, q2⟩ := hm r (by omega) (by omega)
          refine ⟨mt, q1, ?_⟩
          intro a i hne hw
          rcases Mem.set_cases m (.extptr ku) ((rowCut T A.m (t + 1) : Int) - 1)
            ((upPtr A (rowCut T A.m (t + 1)) : Int) - ((A.ptr (rowCut T A.m (t + 1)) : Int) - ((ep (rowCut T A.m (t + 1) - 1) : Int) + (0 : Nat)))) a i with ⟨e1, e2⟩ | e
          · exact absurd hne (by rintro (h | h); exacts [h e1, h e2])
          · exact e.trans (q2 a i (Or.inr hw))
        · intro _ _; rw [Mem.get_same]; simp
      · intro hn
        rw [wp_pure]
        refine ⟨?_, fun he h => absurd ⟨he, by omega⟩ hn⟩
        intro r g1 g2
        obtain ⟨mt, q1, q2⟩ := hm r (by omega) (by omega)
        exact ⟨mt, q1, fun a i _ hw => q2 a i (Or.inr hw)⟩
  · intro u m hq hf
    have hu : u = fun _ => () := rfl
    rw [hu]
    refine hQ m ?_ hf
    intro i hi
    obtain ⟨t, ht, h1, h2⟩ := rowCut_find hT hi
    obtain ⟨mt, ⟨q1, q2⟩, q3⟩ := hq t ht
    obtain ⟨mr, f, f2⟩ := q1 i h1 h2
    have get : ∀ a j, a ≠ .extptr ku → FillW A kl ku ext (rowCut T A.m t) i a j → m a j = mr a j := by
      intro a j ha hw
      rw [q3 a j (Or.inr (hw.toWT (by omega) (by omega)))]
      exact f2 a j (Or.inl ha) hw
    have el : lowPtr A (i + 1) = lowPtr A i + (lowRow A i).length := rowStart_succ (lowRow A) i
    have eu : upPtr A (i + 1) = upPtr A i + (upRow A i).length := rowStart_succ (upRow A) i
    refine ⟨?_, ?_, ?_, ?_, ?_, ?_, ?_⟩
    · rw [get _ _ (by simp) (Or.inl ⟨by simp, rfl⟩)]; exact f.rowl
    · rw [get _ _ (by simp) (Or.inl ⟨by simp, rfl⟩)]; exact f.rowu
    · refine f.low.congr ?_ ?_
      · intro x g1 g2; exact get _ _ (by simp) (Or.inr (Or.inl ⟨by simp, by simpa using g1, by rw [Int.toNat_natCast, el]; push_cast; exact g2⟩))
      · intro x g1 g2; exact get _ _ (by simp) (Or.inr (Or.inl ⟨by simp, by simpa using g1, by rw [Int.toNat_natCast, el]; push_cast; exact g2⟩))
    · refine f.up.congr ?_ ?_
      · intro x g1 g2; exact get _ _ (by simp) (Or.inr (Or.inr (Or.inl ⟨by simp, by simpa using g1, by rw [Int.toNat_natCast, eu]; push_cast; exact g2⟩)))
      · intro x g1 g2; exact get _ _ (by simp) (Or.inr (Or.inr (Or.inl ⟨by simp, by simpa using g1, by rw [Int.toNat_natCast, eu]; push_cast; exact g2⟩)))
    · rw [get _ _ (by simp) (Or.inl ⟨by simp, rfl⟩)]; exact f.dl
    · rw [get _ _ (by simp) (Or.inl ⟨by simp, rfl⟩)]; exact f.du
    · intro he
      by_cases hlast : i + 1 = rowCut T A.m (t + 1)
      · have := q2 he (by omega)
        rw [← hlast] at this
        rw [q3 (.extptr ku) i (Or.inr (Or.inl ⟨by simp [he], by omega, by omega⟩))]
        push_cast at this
        simpa using this
      · obtain ⟨mr', f', f2'⟩ := q1 (i + 1) (by omega) (by omega)
        have := f'.ex he (by omega)
        have hw : FillW A kl ku ext (rowCut T A.m t) ((i + 1 : Nat) : Int) (.extptr ku) i :=
          Or.inr (Or.inr (Or.inr ⟨rfl, he, by omega, by push_cast; omega⟩))
        rw [q3 (.extptr ku) i (Or.inr (hw.toWT (by omega) (by omega))), f2' _ _ (Or.inr (by omega)) hw]
        push_cast at this
        simpa using this

theorem splitCore_ok {m0 : Mem (CTy R)} (hT : 1 ≤ T) (hk : k ≠ kl ∧ k ≠ ku ∧ kl ≠ ku)
    (hwf : A.WF) (hp : HoldsPat m0 k 0 A) (hv : HoldsVal m0 k A)
    (he : HoldsExt m0 k 0 A ext ep) (hx : ∀ i j, i < A.m → ep i ≤ j → j < A.ptr (i + 1) → i < A.col j)
    (hd : ∀ i : Nat, i < A.m → ∃ v, m0 (.idiag k) (i : Int) = some v) :
    (splitCore sz T k kl ku A.m ext).Ok m0 (fun n m =>
      n = ((lowPtr A A.m : Int), (upPtr A A.m : Int)) ∧ SplitRes A m0 m k kl ku ext ep) := by
  unfold splitCore
  refine seq_rule ?_
  refine wp_wr trivial ⟨by omega, by show (0 : Int) < (T : Int) + 1; omega⟩ ?_
  refine wp_wr1 trivial ⟨by omega, by show (0 : Int) < (T : Int) + 1; omega⟩ ?_
  have f0 : ∀ a, a ≠ .itmp 0 → a ≠ .itmp 1 →
      ((m0.set (.itmp 0) 0 (0 : Int)).set (.itmp 1) 0 (0 : Int)) a = m0 a := by
    intro a e1 e2; rw [Mem.set_other _ _ _ _ _ e2, Mem.set_other _ _ _ _ _ e1]
  have z0 : ((m0.set (.itmp 0) 0 (0 : Int)).set (.itmp 1) 0 (0 : Int)) (.itmp 0) 0 = some (0 : Int) := by
    rw [Mem.set_other _ _ _ _ _ (by simp), Mem.get_same]
  have z1 : ((m0.set (.itmp 0) 0 (0 : Int)).set (.itmp 1) 0 (0 : Int)) (.itmp 1) 0 = some (0 : Int) := by
    rw [Mem.get_same]
  generalize (m0.set (.itmp 0) 0 (0 : Int)).set (.itmp 1) 0 (0 : Int) = m1 at f0 z0 z1
  refine splitCount_ok (ep := ep) hT hk hwf ⟨?_, ?_⟩ ⟨?_, he.2⟩ hx ?_
  · intro i hi; rw [f0 _ (by simp) (by simp)]; exact hp.rowptr i hi
  · intro i hi; rw [f0 _ (by simp) (by simp)]; exact hp.colidx i hi
  · intro h i hi; rw [f0 _ (by simp) (by simp)]; exact he.1 h i hi
  intro m2 c1 c2 c3 c4
  refine seq_rule (wp_mono (wp_splitSum (A := A) hT hk.2.2 (fun _ _ => trivial) (fun _ _ => trivial)
    (c2.trans z0) (c3.trans z1) (fun t ht => (c1 t ht).2)) ?_)
  rintro n m3 ⟨rfl, d1, d2, d3, d4, d5⟩
  have hkl : kl ≠ k := fun h => hk.1 h.symm
  have hku : ku ≠ k := fun h => hk.2.1 h.symm
  have hul : ku ≠ kl := fun h => hk.2.2 h.symm
  have fr : ∀ a, a ≠ .rowptr kl → a ≠ .rowptr ku → a ≠ .itmp 0 → a ≠ .itmp 1 → m3 a = m0 a := by
    intro a e1 e2 e3 e4; rw [d5 a e1 e2 e3 e4, c4 a e1 e2 e3 e4, f0 a e3 e4]
  have hpre : FillPre A m3 T k kl ku ext ep := by
    refine ⟨⟨?_, ?_⟩, ?_, ⟨?_, he.2⟩, ?_, ?_, d1⟩
    · intro i hi; rw [fr _ (by simp [Ne.symm hkl]) (by simp [Ne.symm hku]) (by simp) (by simp)]; exact hp.rowptr i hi
    · intro i hi; rw [fr _ (by simp) (by simp) (by simp) (by simp)]; exact hp.colidx i hi
    · intro i hi; rw [fr _ (by simp) (by simp) (by simp) (by simp)]; exact hv i hi
    · intro h i hi; rw [fr _ (by simp) (by simp) (by simp) (by simp)]; exact he.1 h i hi
    · intro i hi; rw [fr _ (by simp) (by simp) (by simp) (by simp)]; exact hd i hi
    · intro t ht r h1 h2
      have : r < A.m := Nat.lt_of_lt_of_le h2 (rowCut_le hT _ _)
      rw [(d4 r (by omega)).1, (d4 r (by omega)).2]
      exact (c1 t ht).1 r h1 h2
  have hszz : FillSz A (splitSize2 (splitSize1 sz kl ku ext A.m T) kl ku (lowPtr A A.m) (upPtr A A.m)) kl ku ext := by
    refine ⟨?_, ?_, ?_, ?_, ?_, ?_, ?_⟩
    · show (A.m : Int) ≤ if kl = kl ∨ kl = ku then (A.m : Int) + 1 else _
      rw [if_pos (Or.inl rfl)]; omega
    · show (A.m : Int) ≤ if ku = kl ∨ ku = ku then (A.m : Int) + 1 else _
      rw [if_pos (Or.inr rfl)]; omega
    · show (A.m : Int) ≤ if kl = kl ∨ kl = ku then (A.m : Int) else _
      rw [if_pos (Or.inl rfl)]
    · show (A.m : Int) ≤ if ku = kl ∨ ku = ku then (A.m : Int) else _
      rw [if_pos (Or.inr rfl)]
    · intro h
      show (A.m : Int) ≤ if ku = ku ∧ ext = true then (A.m : Int) else _
      rw [if_pos ⟨rfl, h⟩]
    · intro j hj
      show (j : Int) < (if kl = kl then _ else _) ∧ (j : Int) < (if kl = kl then _ else _)
      rw [if_pos rfl, if_pos rfl]; omega
    · intro j hj
      show (j : Int) < (if ku = kl then _ else if ku = ku then _ else _) ∧
        (j : Int) < (if ku = kl then _ else if ku = ku then _ else _)
      rw [if_neg hul, if_neg hul, if_pos rfl, if_pos rfl]; omega
  refine splitFill_ok hT hk hwf hpre hszz ?_
  intro m4 e1 e2
  have hnw : ∀ a i, (∀ t, t < T → ¬ FillWT A T kl ku ext t a i) → m4 a i = m3 a i := e2
  refine ⟨rfl, ?_⟩
  refine ⟨?_, ?_, ?_, ?_, ?_, ?_, ?_⟩
  · intro i hi
    by_cases him : i = A.m
    · subst him
      rw [hnw _ _ ?_]; exact d2
      rintro t ht (⟨_, _, h⟩ | ⟨h, _⟩ | ⟨h, _⟩)
      · have := rowCut_le hT A.m (t + 1); omega
      · simp at h
      · simp at h
    · exact (e1 i (by omega)).1
  · intro i hi
    by_cases him : i = A.m
    · subst him
      rw [hnw _ _ ?_]; exact d3
      rintro t ht (⟨_, _, h⟩ | ⟨h, _⟩ | ⟨h, _⟩)
      · have := rowCut_le hT A.m (t + 1); omega
      · simp at h
      · simp at h
    · exact (e1 i (by omega)).2.1
  · intro i hi; exact (e1 i hi).2.2.1
  · intro i hi; exact (e1 i hi).2.2.2.1
  · intro i hi
    have := (e1 i hi).2.2.2.2
    rw [fr (.idiag k) (by simp) (by simp) (by simp) (by simp)] at this
    exact ⟨this.1, this.2.1⟩
  · intro h i hi; exact (e1 i hi).2.2.2.2.2.2 h
  · intro a a1 a2 a3
    have l := a3 kl (Or.inl rfl)
    have u := a3 ku (Or.inr rfl)
    rw [← fr a l.1 u.1 a1 a2]
    funext i
    refine hnw a i ?_
    rintro t ht (⟨h | h | h | h | ⟨h, _⟩, _⟩ | ⟨h | h, _⟩ | ⟨h | h, _⟩)
    · exact l.1 h
    · exact u.1 h
    · exact l.2.2.2.1 h
    · exact u.2.2.2.1 h
    · exact u.2.2.2.2 h
    · exact l.2.1 h
    · exact l.2.2.1 h
    · exact u.2.1 h
    · exact u.2.2.1 h

/-- The strictly lower part of `A` as a matrix of its own. -/
def lowCsr (A : Csr R) : Csr R := Csr.ofRows A.m A.n (lowRow A) (A.val 0)

/-- The strictly upper part of `A` as a matrix of its own. -/
def upCsr (A : Csr R) : Csr R := Csr.ofRows A.m A.n (upRow A) (A.val 0)

theorem row_col_lt (hwf : A.WF) {i : Nat} (hi : i < A.m) {x : Nat × R} (hx : x ∈ A.row i) : x.1 < A.n := by
  obtain ⟨j, h1, h2, rfl⟩ := Csr.mem_row.mp hx
  exact hwf.col_lt j (Csr.InRow.lt_nnz hwf ⟨hi, h1, h2⟩)

theorem lowCsr_wf (hwf : A.WF) : (lowCsr A).WF :=
  Csr.ofRows_wf fun _ hi _ hx => row_col_lt hwf hi (List.mem_filter.mp hx).1

theorem upCsr_wf (hwf : A.WF) : (upCsr A).WF :=
  Csr.ofRows_wf fun _ hi _ hx => row_col_lt hwf hi (List.mem_filter.mp hx).1

/-- Shifting by one and back restores the array. -/
theorem Shifted.back {m0 m1 m2 m3 : Mem (CTy R)} {o : Opt} (h1 : Shifted m0 m1 k A o (0 - (1 : Nat)))
    (h2 : Shifted m2 m3 k A o (1 - (0 : Nat)))
    (hs : ∀ a, a = .rowptr k ∨ a = .colidx k ∨ a = .diagptr k → m2 a = m1 a) {a : CArr}
    (ha : a = .rowptr k ∨ a = .colidx k ∨ a = .diagptr k) : m3 a = m0 a := by
  have hz : ∀ x : Option Int, (x.map (fun v : Int => v + (0 - (1 : Nat)))).map (fun v : Int => v + (1 - (0 : Nat))) = x := by
    intro x; cases x with
    | none => rfl
    | some v => simp only [Option.map_some]; congr 1; omega
  funext i
  rcases ha with rfl | rfl | rfl
  · by_cases hi : 0 ≤ i ∧ i < (A.m : Int) + 1
    · obtain ⟨n, rfl⟩ := Int.eq_ofNat_of_zero_le hi.1
      rw [h2.rowptr n (by omega), hs _ (by simp), h1.rowptr n (by omega)]; exact hz _
    · rw [h2.rest_rowptr i hi, hs _ (by simp), h1.rest_rowptr i hi]
  · by_cases hi : 0 ≤ i ∧ i < A.nnz
    · obtain ⟨n, rfl⟩ := Int.eq_ofNat_of_zero_le hi.1
      rw [h2.colidx n (by omega), hs _ (by simp), h1.colidx n (by omega)]; exact hz _
    · rw [h2.rest_colidx i hi, hs _ (by simp), h1.rest_colidx i hi]
  · by_cases hi : o.diagptr = true ∧ 0 ≤ i ∧ i < A.m
    · obtain ⟨n, rfl⟩ := Int.eq_ofNat_of_zero_le hi.2.1
      rw [h2.diagptr hi.1 n (by omega), hs _ (by simp), h1.diagptr hi.1 n (by omega)]; exact hz _
    · rw [h2.rest_diagptr i hi, hs _ (by simp), h1.rest_diagptr i hi]

theorem splitLU_ok {m0 : Mem (CTy R)} {o : Opt} {base : Nat} (hT : 1 ≤ T) (hk : k ≠ kl ∧ k ≠ ku ∧ kl ≠ ku)
    (hwf : A.WF) (hb : base = 0 ∨ base = 1) (hbe : base = 1 → o.extptr = false)
    (hp : HoldsPat m0 k base A) (hv : HoldsVal m0 k A) (hsz : SizesOk sz k A o)
    (he : HoldsExt m0 k base A o.extptr ep) (hx : ∀ i j, i < A.m → ep i ≤ j → j < A.ptr (i + 1) → i < A.col j)
    (hdp : o.diagptr → ∀ i : Nat, i < A.m → ∃ v, m0 (.diagptr k) (i : Int) = some v)
    (hd : ∀ i : Nat, i < A.m → ∃ v, m0 (.idiag k) (i : Int) = some v) :
    (splitLU sz T k kl ku A.m o).Ok m0 (fun _ m =>
      HoldsPat m kl base (lowCsr A) ∧ HoldsVal m kl (lowCsr A) ∧
      HoldsPat m ku base (upCsr A) ∧ HoldsVal m ku (upCsr A) ∧
      (∀ i : Nat, i < A.m → m (.idiag kl) (i : Int) = m0 (.idiag k) (i : Int) ∧
        m (.idiag ku) (i : Int) = m0 (.idiag k) (i : Int)) ∧
      (o.extptr = true → ∀ i : Nat, i < A.m →
        m (.extptr ku) (i : Int) = some (((upCsr A).ptr (i + 1) : Int) - ((A.ptr (i + 1) : Int) - ep i))) ∧
      ∀ a, ¬ a.ofObj kl → ¬ a.ofObj ku → a ≠ .itmp 0 → a ≠ .itmp 1 → m a = m0 a) := by
  have hr0 := hp.rowptr 0 (by omega)
  rw [hwf.ptr_zero] at hr0
  unfold splitLU
  refine seq_rule ?_
  rw [wp_read]
  refine ⟨trivial, _, hr0, ?_⟩
  simp only [Script.ok_bind]
  refine Script.Ok.mono (make0Based_ok hwf hp hb hdp hsz) ?_
  rintro _ m1 s1
  have hp1 : HoldsPat m1 k 0 A := s1.holds hp (by omega)
  have hv1 : HoldsVal m1 k A := by
    intro j hj; rw [s1.rest _ (by simp) (by simp) (by simp)]; exact hv j hj
  have he1 : HoldsExt m1 k 0 A o.extptr ep := by
    refine ⟨?_, he.2⟩
    intro h i hi
    rcases hb with rfl | rfl
    · rw [s1.rest _ (by simp) (by simp) (by simp)]; exact he.1 h i hi
    · rw [hbe rfl] at h; cases h
  have hd1 : ∀ i : Nat, i < A.m → ∃ v, m1 (.idiag k) (i : Int) = some v := by
    intro i hi; rw [s1.rest _ (by simp) (by simp) (by simp)]; exact hd i hi
  refine Script.Ok.mono (splitCore_ok hT hk hwf hp1 hv1 he1 hx hd1) ?_
  rintro n m2 ⟨rfl, s2⟩
  have hlow := holds_ofRows (n := A.n) (d := A.val 0) (base := 0) (rows := lowRow A) (m := m2) (k := kl) (mm := A.m)
    (fun i hi => by have := s2.rowl i hi; simpa using this) s2.low
  have hup := holds_ofRows (n := A.n) (d := A.val 0) (base := 0) (rows := upRow A) (m := m2) (k := ku) (mm := A.m)
    (fun i hi => by have := s2.rowu i hi; simpa using this) s2.up
  have s2rest : ∀ a, ¬ a.ofObj kl → ¬ a.ofObj ku → a ≠ .itmp 0 → a ≠ .itmp 1 → m2 a = m1 a := by
    intro a a1 a2 a3 a4
    refine s2.rest a a3 a4 ?_
    rintro q (rfl | rfl)
    · refine ⟨?_, ?_, ?_, ?_, ?_⟩ <;> (rintro rfl; exact a1 rfl)
    · refine ⟨?_, ?_, ?_, ?_, ?_⟩ <;> (rintro rfl; exact a2 rfl)
  rcases hb with rfl | rfl
  · rw [if_neg (by simp)]
    have e10 : ∀ a, m1 a = m0 a := by
      intro a
      have hz : ∀ x : Option Int, x.map (fun v : Int => v + (0 - (0 : Nat))) = x := by
        intro x; cases x <;> simp
      funext i
      by_cases e1 : a = .rowptr k
      · subst e1
        by_cases hi : 0 ≤ i ∧ i < (A.m : Int) + 1
        · obtain ⟨n, rfl⟩ := Int.eq_ofNat_of_zero_le hi.1
          rw [s1.rowptr n (by omega)]; exact hz _
        · exact s1.rest_rowptr i hi
      by_cases e2 : a = .colidx k
      · subst e2
        by_cases hi : 0 ≤ i ∧ i < A.nnz
        · obtain ⟨n, rfl⟩ := Int.eq_ofNat_of_zero_le hi.1
          rw [s1.colidx n (by omega)]; exact hz _
        · exact s1.rest_colidx i hi
      by_cases e3 : a = .diagptr k
      · subst e3
        by_cases hi : o.diagptr = true ∧ 0 ≤ i ∧ i < A.m
        · obtain ⟨n, rfl⟩ := Int.eq_ofNat_of_zero_le hi.2.1
          rw [s1.diagptr hi.1 n (by omega)]; exact hz _
        · exact s1.rest_diagptr i hi
      rw [s1.rest a e1 e2 e3]
    refine ⟨hlow.1, hlow.2, hup.1, hup.2, ?_, ?_, ?_⟩
    · intro i hi; rw [← e10]; exact s2.diag i hi
    · intro h i hi; exact s2.ex h i hi
    · intro a a1 a2 a3 a4; rw [s2rest a a1 a2 a3 a4, e10]
  · rw [if_pos (by simp)]
    simp only [Script.ok_bind]
    have hkl : ¬ (k = kl) := hk.1
    have hku : ¬ (k = ku) := hk.2.1
    have hlu : ¬ (kl = ku) := hk.2.2
    have hkr : ∀ a, CArr.ofObj k a → m2 a = m1 a := by
      intro a ha
      cases a <;> simp only [CArr.ofObj] at ha <;>
        (subst ha; exact s2rest _ (by simpa [CArr.ofObj] using hkl) (by simpa [CArr.ofObj] using hku) (by simp) (by simp))
    have hp2 : HoldsPat m2 k 0 A := by
      refine ⟨?_, ?_⟩
      · intro i hi; rw [hkr (.rowptr k) rfl]; exact hp1.rowptr i hi
      · intro i hi; rw [hkr (.colidx k) rfl]; exact hp1.colidx i hi
    refine Script.Ok.mono (make1Based_ok (base := 0) hwf hp2 (Or.inl rfl) ?_ hsz) ?_
    · intro h i hi
      obtain ⟨v, hv⟩ := hdp h i hi
      rw [hkr (.diagptr k) rfl, s1.diagptr h i hi, hv]; exact ⟨_, rfl⟩
    rintro _ m3 s3
    have b3 : ∀ a, a = .rowptr k ∨ a = .colidx k ∨ a = .diagptr k → m3 a = m0 a := by
      intro a ha
      refine Shifted.back s1 s3 ?_ ha
      rintro b (rfl | rfl | rfl) <;> exact hkr _ rfl
    have hl3 : HoldsPat m3 kl 0 (lowCsr A) := by
      refine ⟨?_, ?_⟩
      · intro i hi; rw [s3.rest _ (by simpa using fun h => hkl h.symm) (by simp) (by simp)]; exact hlow.1.rowptr i hi
      · intro i hi; rw [s3.rest _ (by simp) (by simpa using fun h => hkl h.symm) (by simp)]; exact hlow.1.colidx i hi
    have hu3 : HoldsPat m3 ku 0 (upCsr A) := by
      refine ⟨?_, ?_⟩
      · intro i hi; rw [s3.rest _ (by simpa using fun h => hku h.symm) (by simp) (by simp)]; exact hup.1.rowptr i hi
      · intro i hi; rw [s3.rest _ (by simp) (by simpa using fun h => hku h.symm) (by simp)]; exact hup.1.colidx i hi
    have hul : ¬ (ku = kl) := fun h => hlu h.symm
    refine Script.Ok.mono (make1Based_ok (A := lowCsr A) (base := 0) (lowCsr_wf hwf) hl3 (Or.inl rfl) (by simp) ?_) ?_
    · refine ⟨?_, ?_, ?_, by simp, ?_, by simp, by simp⟩
      · show (A.m : Int) + 1 ≤ if kl = kl ∨ kl = ku then (A.m : Int) + 1 else _
        rw [if_pos (Or.inl rfl)]
      · show (lowPtr A A.m : Int) ≤ if kl = kl then (lowPtr A A.m : Int) else _
        rw [if_pos rfl]
      · intro _
        show (lowPtr A A.m : Int) ≤ if kl = kl then (lowPtr A A.m : Int) else _
        rw [if_pos rfl]
      · intro _
        show (A.m : Int) ≤ if kl = kl ∨ kl = ku then (A.m : Int) else _
        rw [if_pos (Or.inl rfl)]
    rintro _ m4 s4
    have hu4 : HoldsPat m4 ku 0 (upCsr A) := by
      refine ⟨?_, ?_⟩
      · intro i hi; rw [s4.rest _ (by simpa using hul) (by simp) (by simp)]; exact hu3.rowptr i hi
      · intro i hi; rw [s4.rest _ (by simp) (by simpa using hul) (by simp)]; exact hu3.colidx i hi
    refine Script.Ok.mono (make1Based_ok (A := upCsr A) (base := 0) (upCsr_wf hwf) hu4 (Or.inl rfl) (by simp) ?_) ?_
    · refine ⟨?_, ?_, ?_, by simp, ?_, by simp, by simp [hbe rfl]⟩
      · show (A.m : Int) + 1 ≤ if ku = kl ∨ ku = ku then (A.m : Int) + 1 else _
        rw [if_pos (Or.inr rfl)]
      · show (upPtr A A.m : Int) ≤ if ku = kl then _ else if ku = ku then (upPtr A A.m : Int) else _
        rw [if_neg hul, if_pos rfl]
      · intro _
        show (upPtr A A.m : Int) ≤ if ku = kl then _ else if ku = ku then (upPtr A A.m : Int) else _
        rw [if_neg hul, if_pos rfl]
      · intro _
        show (A.m : Int) ≤ if ku = kl ∨ ku = ku then (A.m : Int) else _
        rw [if_pos (Or.inr rfl)]
    rintro _ m5 s5
    have hl4 : HoldsPat m4 kl 1 (lowCsr A) := s4.holds hl3 (by omega)
    have hl5 : HoldsPat m5 kl 1 (lowCsr A) := by
      refine ⟨?_, ?_⟩
      · intro i hi; rw [s5.rest _ (by simpa using hlu) (by simp) (by simp)]; exact hl4.rowptr i hi
      · intro i hi; rw [s5.rest _ (by simp) (by simpa using hlu) (by simp)]; exact hl4.colidx i hi
    refine ⟨hl5, ?_, s5.holds hu4 (by omega), ?_, ?_, ?_, ?_⟩
    · intro j hj
      rw [s5.rest _ (by simp) (by simp) (by simp), s4.rest _ (by simp) (by simp) (by simp),
        s3.rest _ (by simp) (by simp) (by simp)]
      exact hlow.2 j hj
    · intro j hj
      rw [s5.rest _ (by simp) (by simp) (by simp), s4.rest _ (by simp) (by simp) (by simp),
        s3.rest _ (by simp) (by simp) (by simp)]
      exact hup.2 j hj
    · intro i hi
      simp only [s5.rest (.idiag _) (by simp) (by simp) (by simp), s4.rest (.idiag _) (by simp) (by simp) (by simp),
        s3.rest (.idiag _) (by simp) (by simp) (by simp)]
      rw [← s1.rest (.idiag k) (by simp) (by simp) (by simp)]
      exact s2.diag i hi
    · intro h; rw [hbe rfl] at h; cases h
    · intro a a1 a2 a3 a4
      have g5 : m5 a = m4 a := s5.rest a (by rintro rfl; exact a2 rfl) (by rintro rfl; exact a2 rfl) (by rintro rfl; exact a2 rfl)
      have g4 : m4 a = m3 a := s4.rest a (by rintro rfl; exact a1 rfl) (by rintro rfl; exact a1 rfl) (by rintro rfl; exact a1 rfl)
      rw [g5, g4]
      by_cases ha : a = .rowptr k ∨ a = .colidx k ∨ a = .diagptr k
      · exact b3 a ha
      · simp only [not_or] at ha
        rw [s3.rest a ha.1 ha.2.1 ha.2.2, s2rest a a1 a2 a3 a4, s1.rest a ha.1 ha.2.1 ha.2.2]

end

end SpMP
