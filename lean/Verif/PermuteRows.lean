import Verif.PermuteMain
/-
Proofs about permuteRowsMain_ (/repo/Permute.cpp:373-407) and permuteRows (427-432).
-/

namespace SpMP
open Spec

set_option linter.unusedSectionVars false

variable {R : Type} [Races CArr]

section
variable {sz : CArr → Int} {W Rd : CArr → Int → Prop} {T k k2 base nl : Nat} {A : Csr R} {o : Opt} {hasRow sort : Bool} {ep ri cp : Nat → Nat}
  {m0 : Mem (CTy R)}

theorem wp_copySeg {dst src : CArr} {cv : CTy R src → CTy R dst} {s f n : Nat} (hne : dst ≠ src) (v : Nat → CTy R src)
    (hv : ∀ x : Nat, x < n → m0 src ((f : Int) + x) = some (v x))
    (hR : ∀ x : Nat, x < n → Rd src ((f : Int) + x)) (hW : ∀ x : Nat, x < n → W dst ((s : Int) + x))
    (hz : (s : Int) + n ≤ sz dst) {at_ from_ len : Int} (e1 : at_ = s) (e2 : from_ = f) (e3 : len = n)
    {Q : Unit → Mem (CTy R) → Prop}
    (hQ : ∀ m', (∀ x : Nat, x < n → m' dst ((s : Int) + x) = some (cv (v x))) →
      (∀ a i, ¬ (a = dst ∧ (s : Int) ≤ i ∧ i < (s : Int) + n) → m' a i = m0 a i) → Q () m') :
    wp sz W Rd (copySeg dst src cv at_ from_ len) m0 Q := by
  subst e1 e2 e3
  unfold copySeg
  refine wp_forN (b := 0) (lo := 0) (hi := n)
    (fun q _ m' => (∀ x : Nat, x < q → m' dst ((s : Int) + x) = some (cv (v x))) ∧
      (∀ a i, ¬ (a = dst ∧ (s : Int) ≤ i ∧ i < (s : Int) + n) → m' a i = m0 a i))
    (by omega) ⟨by intro x hx; omega, fun _ _ _ => rfl⟩ ?_ ?_ (by omega) (by omega)
  · rintro q _ m1 h1 h2 ⟨p1, p2⟩
    have hr : m1 src ((f : Int) + ((q : Int) + (0 : Nat))) = some (v q) := by
      rw [p2 _ _ (by rintro ⟨rfl, _⟩; exact hne rfl), show (f : Int) + ((q : Int) + (0 : Nat)) = (f : Int) + q by omega]
      exact hv q h2
    refine wp_rd _ (by have := hR q h2; simpa using this) hr ?_
    refine wp_wr1 (by have := hW q h2; simpa using this) ⟨by omega, by omega⟩ ?_
    refine ⟨?_, ?_⟩
    · intro x hx
      by_cases hxq : x = q
      · subst hxq
        have he : (s : Int) + ((x : Int) + (0 : Int)) = (s : Int) + x := by omega
        rw [he]
        exact Mem.get_same _ _ _ _
      · rw [Mem.get_ne _ _ _ _ _ (by omega)]
        exact p1 x (by omega)
    · intro a i hi
      by_cases ha : a = dst
      · subst ha
        rw [Mem.get_ne _ _ _ _ _ (by rintro rfl; exact hi ⟨rfl, by omega, by omega⟩)]
        exact p2 a i hi
      · rw [Mem.set_other _ _ _ _ _ ha]
        exact p2 a i hi
  · rintro _ m1 ⟨p1, p2⟩
    exact hQ m1 p1 p2
/-- What the caller of permuteRows provides, for a matrix with base 0; `dp i` is the position of the diagonal entry
recorded for row `i`. -/
structure PermRowsHyp (m : Mem (CTy R)) (k k2 : Nat) (A : Csr R) (o : Opt) (hasRow : Bool) (ep dp ri : Nat → Nat) : Prop where
  hk : k ≠ k2
  wf : A.WF
  pat : HoldsPat m k 0 A
  val : o.values = true → HoldsVal m k A
  ext : HoldsExt m k 0 A o.extptr ep
  sel : HoldsSel m hasRow A.m ri
  perm : IsPermFn A.m ri
  dgp : o.diagptr = true → ∀ i : Nat, i < A.m → A.ptr i ≤ dp i ∧ m (.diagptr k) (i : Int) = some (dp i : Int)
  idg : o.idiag = true → ∀ i : Nat, i < A.m → ∃ v, m (.idiag k) (i : Int) = some v

theorem PermRowsHyp.transfer {dp : Nat → Nat} {m : Mem (CTy R)} (h : PermRowsHyp m0 k k2 A o hasRow ep dp ri)
    (hf : ∀ a, a ≠ .rowptr k2 → a ≠ .extptr k2 → m a = m0 a) : PermRowsHyp m k k2 A o hasRow ep dp ri := by
  have hk := h.hk
  refine ⟨hk, h.wf, ⟨?_, ?_⟩, ?_, ⟨?_, h.ext.2⟩, ⟨?_, h.sel.2⟩, h.perm, ?_, ?_⟩
  · rw [hf _ (by simpa using hk) (by simp)]; exact h.pat.rowptr
  · rw [hf _ (by simp) (by simp)]; exact h.pat.colidx
  · intro hv; unfold HoldsVal; rw [hf _ (by simp) (by simp)]; exact h.val hv
  · rw [hf _ (by simp) (by simpa using hk)]; exact h.ext.1
  · rw [hf _ (by simp) (by simp)]; exact h.sel.1
  · rw [hf _ (by simp) (by simp)]; exact h.dgp
  · rw [hf _ (by simp) (by simp)]; exact h.idg

/-- One row of the result of permuteRows. -/
def RowsRowOk (m : Mem (CTy R)) (k2 : Nat) (A : Csr R) (o : Opt) (dp : Nat → Nat) (m0 : Mem (CTy R)) (k s i r : Nat) : Prop :=
  RowAtV m k2 0 o.values s (A.row r) ∧
  (o.diagptr = true → m (.diagptr k2) (i : Int) = some ((s + (dp r - A.ptr r) : Nat) : Int)) ∧
  (o.idiag = true → m (.idiag k2) (i : Int) = m0 (.idiag k) (r : Int))

theorem wp_permRowsRow {dp : Nat → Nat} (h : PermRowsHyp m0 k k2 A o hasRow ep dp ri) {i s : Nat} (hi : i < A.m)
    (hs : m0 (.rowptr k2) (i : Int) = some (s : Int))
    (hR : ∀ a x, permSrc k k2 a ∨ a = .diagptr k ∨ permRW k2 s (A.ptr (ri i + 1) - A.ptr (ri i)) i a x → Rd a x)
    (hW : ∀ a x, permRW k2 s (A.ptr (ri i + 1) - A.ptr (ri i)) i a x → W a x)
    (hz1 : (s : Int) + (A.ptr (ri i + 1) - A.ptr (ri i) : Nat) ≤ sz (.colidx k2))
    (hz2 : o.values = true → (s : Int) + (A.ptr (ri i + 1) - A.ptr (ri i) : Nat) ≤ sz (.values k2))
    (hz3 : o.idiag = true → (i : Int) < sz (.idiag k2)) (hz4 : o.diagptr = true → (i : Int) < sz (.diagptr k2)) :
    wp sz W Rd (permRowsRow k k2 0 o hasRow ((i : Int) + (0 : Nat))) m0
      (fun _ m => RowsRowOk m k2 A o dp m0 k s i (ri i)) := by
  have hk := h.hk
  have hrm := h.perm.1 i hi
  have hle := h.wf.ptr_mono (i := ri i) (j := ri i + 1) (by omega) hrm
  have hnn := h.wf.ptr_le_nnz (i := ri i + 1) hrm
  generalize hr : ri i = r at *
  generalize hn : A.ptr (r + 1) - A.ptr r = n at *
  unfold permRowsRow
  rw [wp_bind]
  have e0 : (i : Int) + ((0 : Nat) : Int) - ((0 : Nat) : Int) = i := by omega
  rw [e0]
  refine wp_permSel h.sel (fun x => hR _ _ (Or.inl (by simp [permSrc]))) hi ?_
  rw [hr]
  dsimp only
  have e1 : (r : Int) + ((0 : Nat) : Int) - ((0 : Nat) : Int) = r := by omega
  have e2 : (r : Int) + ((0 : Nat) : Int) + 1 - ((0 : Nat) : Int) = ((r + 1 : Nat) : Int) := by omega
  have e3 : (i : Int) + ((0 : Nat) : Int) = i := by omega
  rw [e1, e2, e3]
  refine wp_rd _ (hR _ _ (Or.inl (by simp [permSrc]))) (h.pat.rowptr r (by omega)) ?_
  refine wp_rd _ (hR _ _ (Or.inl (by simp [permSrc]))) (h.pat.rowptr (r + 1) (by omega)) ?_
  refine wp_rd _ (hR _ _ (Or.inl (by simp [permSrc]))) hs ?_
  rw [wp_bind]
  -- the values
  have hvals : wp sz W Rd (if o.values = true then
      copySeg (.values k2) (.values k) id ((s : Int) - (0 : Nat)) (((A.ptr r : Int) + (0 : Nat)) - (0 : Nat))
        (((A.ptr (r + 1) : Int) + (0 : Nat)) - ((A.ptr r : Int) + (0 : Nat)))
      else pure () : Prog (CTy R) Unit) m0 (fun _ m =>
        (o.values = true → ∀ x : Nat, x < n → m (.values k2) ((s : Int) + x) = some (A.val (A.ptr r + x))) ∧
        ∀ a y, a ≠ .values k2 → m a y = m0 a y) := by
    by_cases hv : o.values = true
    · rw [if_pos hv]
      refine wp_copySeg (s := s) (f := A.ptr r) (n := n) (by simpa using hk.symm) (fun x => A.val (A.ptr r + x)) ?_ ?_ ?_ (hz2 hv)
        (by omega) (by omega) (by omega) ?_
      · intro x hx
        have := h.val hv (A.ptr r + x) (by omega)
        push_cast at this
        exact this
      · intro x hx; exact hR _ _ (Or.inl (by simp [permSrc]))
      · intro x hx; exact hW _ _ (Or.inl ⟨Or.inr rfl, by omega, by omega⟩)
      · intro m' q1 q2
        exact ⟨fun _ => q1, fun a y ha => q2 a y (fun hc => ha hc.1)⟩
    · rw [if_neg hv, wp_pure]
      exact ⟨fun hc => absurd hc hv, fun _ _ _ => rfl⟩
  refine wp_mono hvals ?_
  rintro _ m1 ⟨v1, v2⟩
  rw [wp_bind]
  refine wp_copySeg (s := s) (f := A.ptr r) (n := n) (by simpa using hk.symm) (fun x => ((A.col (A.ptr r + x) : Int) + ((0 : Nat) : Int) : Int)) ?_ ?_ ?_ hz1
    (by omega) (by omega) (by omega) ?_
  · intro x hx
    rw [v2 _ _ (by simp)]
    have := h.pat.colidx (A.ptr r + x) (by omega)
    push_cast at this
    exact this
  · intro x hx; exact hR _ _ (Or.inl (by simp [permSrc]))
  · intro x hx; exact hW _ _ (Or.inl ⟨Or.inl rfl, by omega, by omega⟩)
  intro m2 c1 c2
  have f2 : ∀ a y, a ≠ .values k2 → a ≠ .colidx k2 → m2 a y = m0 a y := by
    intro a y h1 h2; rw [c2 _ _ (fun hc => h2 hc.1), v2 _ _ h1]
  have hrow : RowAtV m2 k2 0 o.values s (A.row r) := by
    intro x y hy
    have hx : x < n := by
      by_contra hc; rw [List.getElem?_eq_none (by rw [Csr.row_length]; omega)] at hy; cases hy
    rw [List.getElem?_eq_getElem (by rw [Csr.row_length]; omega), Csr.row_getElem] at hy
    cases hy
    refine ⟨c1 x hx, ?_⟩
    intro hv
    rw [c2 _ _ (by simp)]
    exact v1 hv x hx
  rw [wp_bind]
  have hdp : wp sz W Rd (if o.diagptr = true then do
      let s ← Prog.read (ty := CTy R) (.rowptr k2) (i : Int)
      let d ← Prog.read (ty := CTy R) (.diagptr k) (r : Int)
      let b ← Prog.read (ty := CTy R) (.rowptr k) (r : Int)
      Prog.write (ty := CTy R) (.diagptr k2) (i : Int) ((s : Int) + ((d : Int) - b))
      else pure () : Prog (CTy R) Unit) m2 (fun _ m =>
        (o.diagptr = true → m (.diagptr k2) (i : Int) = some ((s + (dp r - A.ptr r) : Nat) : Int)) ∧
        ∀ a y, a ≠ .diagptr k2 → m a y = m2 a y) := by
    by_cases hv : o.diagptr = true
    · rw [if_pos hv]
      obtain ⟨d1, d2⟩ := h.dgp hv r hrm
      refine wp_rd _ (hR _ _ (Or.inl (by simp [permSrc]))) (by rw [f2 _ _ (by simp) (by simp)]; exact hs) ?_
      refine wp_rd _ (hR _ _ (Or.inr (Or.inl rfl))) (by rw [f2 _ _ (by simp) (by simp)]; exact d2) ?_
      refine wp_rd _ (hR _ _ (Or.inl (by simp [permSrc]))) (by rw [f2 _ _ (by simp) (by simp)]; exact h.pat.rowptr r (by omega)) ?_
      refine wp_wr1 (hW _ _ (Or.inr ⟨Or.inr rfl, rfl⟩)) ⟨by omega, hz4 hv⟩ ⟨?_, ?_⟩
      · intro _
        rw [Mem.get_same]
        exact congrArg some (show (s : Int) + ((dp r : Int) - ((A.ptr r : Int) + (0 : Nat))) = _ by omega)
      · intro a y ha; rw [Mem.set_other _ _ _ _ _ ha]
    · rw [if_neg hv, wp_pure]
      exact ⟨fun hc => absurd hc hv, fun _ _ _ => rfl⟩
  refine wp_mono hdp ?_
  rintro _ m3 ⟨d1, d2⟩
  have hrow3 : RowAtV m3 k2 0 o.values s (A.row r) :=
    hrow.congr (fun x _ _ => d2 _ _ (by simp)) (fun x _ _ => d2 _ _ (by simp))
  by_cases hv : o.idiag = true
  · rw [if_pos hv]
    obtain ⟨v, hvv⟩ := h.idg hv r hrm
    refine wp_rd v (hR _ _ (Or.inl (by simp [permSrc]))) (by rw [d2 _ _ (by simp), f2 _ _ (by simp) (by simp)]; exact hvv) ?_
    refine wp_wr1 (hW _ _ (Or.inr ⟨Or.inl rfl, rfl⟩)) ⟨by omega, hz3 hv⟩ ⟨?_, ?_, ?_⟩
    · refine hrow3.congr ?_ ?_
      · intro x _ _; rw [Mem.set_other _ _ _ _ _ (by simp)]
      · intro x _ _; rw [Mem.set_other _ _ _ _ _ (by simp)]
    · intro hd; rw [Mem.set_other _ _ _ _ _ (by simp)]; exact d1 hd
    · intro _; rw [Mem.get_same, hvv]
  · rw [if_neg hv, wp_pure]
    exact ⟨hrow3, d1, fun hc => absurd hc hv⟩

theorem permuteRowsMainB_ok {dp : Nat → Nat} (h : PermRowsHyp m0 k k2 A o hasRow ep dp ri) (hT : 1 ≤ T) (hz : PermSizes sz k2 A o)
    (hrp : ∀ i : Nat, i ≤ A.m → m0 (.rowptr k2) (i : Int) = some ((rowStart (selRows A ri) i : Int) + (0 : Nat))) :
    (permuteRowsMainB sz T k k2 A.m 0 o hasRow).Ok m0 (fun _ m =>
      (∀ i, i < A.m → RowsRowOk m k2 A o dp m0 k (rowStart (selRows A ri) i) i (ri i)) ∧
      ∀ a, a ≠ .colidx k2 → a ≠ .values k2 → a ≠ .idiag k2 → a ≠ .diagptr k2 → m a = m0 a) := by
  unfold permuteRowsMainB
  generalize hS : rowStart (selRows A ri) = S at *
  have hstep : ∀ i, i < A.m → S (i + 1) = S i + (A.ptr (ri i + 1) - A.ptr (ri i)) := by
    intro i hi; rw [← hS, rowStart_succ]; unfold selRows; rw [Csr.row_length]
  have hmono : ∀ i j, i ≤ j → S i ≤ S j := by intro i j hij; rw [← hS]; exact rowStart_mono _ hij
  have htot : S A.m = A.nnz := by rw [← hS]; exact selRows_total h.wf h.perm
  let B := Csr.ofRows A.m A.n (selRows A ri) (A.val 0)
  have hB : B.WF := selRows_wf h.wf h.perm _
  have hBp : ∀ i, i ≤ B.m → m0 (.rowptr k2) (i : Int) = some ((B.ptr i : Int) + (0 : Nat)) := by
    intro i hi; show _ = some ((rowStart (selRows A ri) i : Int) + (0 : Nat)); rw [hS]; exact hrp i hi
  let len : Nat → Nat := fun i => A.ptr (ri i + 1) - A.ptr (ri i)
  have hlb : ∀ t : Nat, (loadBalanced (fun i => Prog.read (ty := CTy R) (.rowptr k2) (i + ((0 : Nat) : Int))) T t A.m) = lbPart k2 A.m T t := by
    intro t; unfold lbPart; simp
  simp only [hlb]
  refine rows_rule (n := (A.m : Int)) (Rng := CutRng (B.iptr 0) T A.m) (lbRng hB 0 T hT)
    (Rp := fun a _ => a = .rowptr k2)
    (Wr := fun r => permRW k2 (S r.toNat) (len r.toNat) r.toNat)
    (Rr := fun r a x => permSrc k k2 a ∨ a = .diagptr k ∨ permRW k2 (S r.toNat) (len r.toNat) r.toNat a x)
    (Qr := fun r m => RowsRowOk m k2 A o dp m0 k (S r.toNat) r.toNat (ri r.toNat))
    (fun t ht => wp_lbPart (A := B) ht hB hBp) ?_ ?_ ?_ ?_
  · rintro r a x _ _ hw rfl
    rcases hw with ⟨hb | hb, _⟩ | ⟨hb | hb, _⟩ <;> simp at hb
  · rintro r r' a x h1 h2 h3 h4 hne hw hr
    rcases hr with hr | hr | hr
    · rcases hw with hw | ⟨hb | hb, _⟩
      · exact not_seg_src h.hk hr _ _ _ hw
      · subst hb; simp [permSrc] at hr; exact h.hk hr.symm
      · subst hb; simp [permSrc] at hr
    · subst hr
      rcases hw with ⟨hb | hb, _⟩ | ⟨hb | hb, _⟩
      · simp at hb
      · simp at hb
      · simp at hb
      · simp at hb; exact h.hk hb
    · rcases hw with ⟨hb, hb1, hb2⟩ | ⟨hb, hb1⟩
      · rcases hr with ⟨hc, hc1, hc2⟩ | ⟨hc, hc1⟩
        · rcases Nat.lt_trichotomy r.toNat r'.toNat with hlt | he | hlt
          · have := hmono (r.toNat + 1) r'.toNat hlt
            have := hstep r.toNat (by omega)
            have hl : len r.toNat = A.ptr (ri r.toNat + 1) - A.ptr (ri r.toNat) := rfl
            omega
          · omega
          · have := hmono (r'.toNat + 1) r.toNat hlt
            have := hstep r'.toNat (by omega)
            have hl : len r'.toNat = A.ptr (ri r'.toNat + 1) - A.ptr (ri r'.toNat) := rfl
            omega
        · rcases hb with rfl | rfl <;> simp at hc
      · rcases hr with ⟨hc, hc1, hc2⟩ | ⟨hc, hc1⟩
        · rcases hb with rfl | rfl <;> simp at hc
        · omega
  · intro t r ht h1 h2
    obtain ⟨i, rfl⟩ := Int.eq_ofNat_of_zero_le h1
    have hi : i < A.m := by omega
    rw [Int.toNat_natCast]
    have hs := hstep i hi
    have hm1 := hmono (i + 1) A.m hi
    refine wp_permRowsRow h hi ?_ (fun _ _ hx => hx) (fun _ _ hx => hx) ?_ ?_ ?_ ?_
    · simpa using hrp i (by omega)
    · have := hz.colidx; omega
    · intro hv; have := hz.values hv; omega
    · intro hv; have := hz.idiag hv; omega
    · intro hv; have := hz.diagptr hv; omega
  · intro u m hq hf
    refine Script.ok_done_of ⟨?_, ?_⟩
    · intro i hi
      obtain ⟨mt, ⟨l1, l2, l3⟩, q2⟩ := hq i (by omega) (by omega)
      rw [Int.toNat_natCast] at l1 l2 l3 q2
      refine ⟨?_, ?_, ?_⟩
      · refine l1.congr ?_ ?_
        · intro x h1 h2; exact q2 _ _ (Or.inr (Or.inr (Or.inl ⟨Or.inl rfl, h1, by rw [Csr.row_length] at h2; exact h2⟩)))
        · intro x h1 h2; exact q2 _ _ (Or.inr (Or.inr (Or.inl ⟨Or.inr rfl, h1, by rw [Csr.row_length] at h2; exact h2⟩)))
      · intro hdp; rw [q2 _ _ (Or.inr (Or.inr (Or.inr ⟨Or.inr rfl, rfl⟩)))]; exact l2 hdp
      · intro hid; rw [q2 _ _ (Or.inr (Or.inr (Or.inr ⟨Or.inl rfl, rfl⟩)))]; exact l3 hid
    · intro a h1 h2 h3 h4
      funext x
      refine hf a x ?_
      rintro r _ _ (⟨hb | hb, _⟩ | ⟨hb | hb, _⟩)
      · exact h1 hb
      · exact h2 hb
      · exact h3 hb
      · exact h4 hb

/-- permuteRows on a matrix with base 0. -/
theorem permuteRows_ok {dbg : Bool} {dp : Nat → Nat} (htol : Races.tol (CArr.rowptr k2) (A.m : Int))
    (h : PermRowsHyp m0 k k2 A o hasRow ep dp ri) (hT : 1 ≤ T)
    (hd : dbg = true → hasRow = true ∨ A.m = 0) :
    (permuteRows sz T k k2 A.m o dbg hasRow).Ok m0 (fun _ m =>
      (∃ B : Csr R, B.m = A.m ∧ B.n = A.n ∧ B.WF ∧ HoldsPat m k2 0 B ∧ (o.values = true → HoldsVal m k2 B) ∧
      ∀ i, i < A.m → B.row i = A.row (ri i) ∧
        (o.extptr = true → m (.extptr k2) (i : Int) = some ((B.ptr i + (ep (ri i) - A.ptr (ri i)) : Nat) : Int)) ∧
        (o.diagptr = true → m (.diagptr k2) (i : Int) = some ((B.ptr i + (dp (ri i) - A.ptr (ri i)) : Nat) : Int)) ∧
        (o.idiag = true → m (.idiag k2) (i : Int) = m0 (.idiag k) (ri i : Int))) ∧
      ∀ a, ¬ a.ofObj k2 → m a = m0 a) := by
  unfold permuteRows
  refine seq_rule ?_
  rw [wp_read]
  refine ⟨trivial, _, h.pat.rowptr A.m (Nat.le_refl _), ?_⟩
  dsimp only
  rw [Script.ok_bind]
  have hsz : PermSizes (permSize sz k2 A.m ((A.ptr A.m : Int) + (0 : Nat)) o) k2 A o := by
    have : A.ptr A.m = A.nnz := rfl
    refine ⟨?_, ?_, ?_, ?_, ?_, ?_⟩
    · simp [permSize]
    · simp [permSize]; omega
    · intro hv; simp [permSize, hv]; omega
    · intro hv; simp [permSize, hv]
    · intro hv; simp [permSize, hv]
    · intro hv; simp [permSize, hv]
  refine Script.Ok.mono (permuteRowptr_ok htol hT h.hk h.wf h.pat.rowptr h.ext h.sel h.perm hd hsz.rowptr hsz.extptr) ?_
  rintro _ m1 ⟨h1, h2, h3⟩
  have hp1 := h.transfer h3
  unfold permuteRowsMain
  refine seq_rule ?_
  rw [wp_read]
  refine ⟨trivial, (0 : Int), ?_, ?_⟩
  · have := hp1.pat.rowptr 0 (by omega)
    rw [h.wf.ptr_zero] at this
    simpa using this
  rw [if_pos rfl]
  refine Script.Ok.mono (permuteRowsMainB_ok hp1 hT hsz h1) ?_
  rintro _ m ⟨hr, hf⟩
  refine ⟨⟨Csr.ofRows A.m A.n (selRows A ri) (A.val 0), rfl, rfl, selRows_wf h.wf h.perm _, ⟨?_, ?_⟩, ?_, ?_⟩, ?_⟩
  · intro i hi
    rw [hf _ (by simp) (by simp) (by simp) (by simp)]; exact h1 i hi
  · intro j hj
    obtain ⟨i, q, g1, g2, rfl⟩ := rowStart_find (selRows A ri) hj
    rw [show (Csr.ofRows A.m A.n (selRows A ri) (A.val 0)).col _ = _ from Csr.ofRows_col g1 g2]
    have := ((hr i g1).1 q _ (List.getElem?_eq_getElem g2)).1
    push_cast; exact this
  · intro hv j hj
    obtain ⟨i, q, g1, g2, rfl⟩ := rowStart_find (selRows A ri) hj
    rw [show (Csr.ofRows A.m A.n (selRows A ri) (A.val 0)).val _ = _ from Csr.ofRows_val g1 g2]
    have := ((hr i g1).1 q _ (List.getElem?_eq_getElem g2)).2 hv
    push_cast; exact this
  · intro i hi
    refine ⟨Csr.ofRows_row hi, ?_, ?_, ?_⟩
    · intro hx
      rw [hf _ (by simp) (by simp) (by simp) (by simp), h2 hx i hi]
      have := h.ext.2.2 (ri i) (h.perm.1 i hi)
      exact congrArg some (show _ = (((rowStart (selRows A ri) i) + (ep (ri i) - A.ptr (ri i)) : Nat) : Int) by omega)
    · intro hx; exact (hr i hi).2.1 hx
    · intro hx; rw [(hr i hi).2.2 hx, h3 _ (by simp) (by simp)]
  · intro a ha
    rw [hf a, h3 a]
    all_goals (rintro rfl; exact ha (by simp [CArr.ofObj]))
end

end SpMP
