import Verif.SymPat
import Verif.Bucket
/-
Proofs about getSymmetricNnzPattern (/repo/SymGS.cpp:120-314), base 0: the two loops over unpaired entries.
-/

namespace SpMP
open Spec

variable {R : Type}

/-- The local columns of row `i`. -/
def locCols (A : Csr R) (ep : Nat → Nat) (i : Nat) : List Nat := (List.range' (A.ptr i) (ep i - A.ptr i)).map A.col

/-- What the first `q` local entries of row `i` add: (row, column) pairs. -/
def symItemsTo (A : Csr R) (ep : Nat → Nat) (i q : Nat) : List (Nat × Nat) :=
  (((locCols A ep i).take q).filter (fun c => decide (i ∉ locCols A ep c))).map (fun c => (c, i))

/-- What row `i` adds. -/
def symItems (A : Csr R) (ep : Nat → Nat) (i : Nat) : List (Nat × Nat) :=
  ((locCols A ep i).filter (fun c => decide (i ∉ locCols A ep c))).map (fun c => (c, i))

/-- What rows `b .. b+n-1` add. -/
def symItemsRows (A : Csr R) (ep : Nat → Nat) (b n : Nat) : List (Nat × Nat) := (List.range' b n).flatMap (symItems A ep)

/-- What the caller provides: base 0, local columns below the number of rows, rows sorted. -/
structure SymHyp (m : Mem (CTy R)) (k : Nat) (A : Csr R) (ext : Bool) (ep : Nat → Nat) : Prop where
  wf : A.WF
  pat : HoldsPat m k 0 A
  ext : HoldsExt m k 0 A ext ep
  loc : ∀ i j, i < A.m → A.ptr i ≤ j → j < ep i → A.col j < A.m
  srt : ∀ i j j', i < A.m → A.ptr i ≤ j → j < j' → j' < ep i → A.col j ≤ A.col j'

/-- The arrays of the source. -/
def symSrc (k : Nat) (a : CArr) : Prop := a = .rowptr k ∨ a = .extptr k ∨ a = .colidx k

section
variable {sz : CArr → Int} {W Rd : CArr → Int → Prop} {k T : Nat} {A : Csr R} {ext : Bool} {ep : Nat → Nat} {m0 : Mem (CTy R)}

theorem locCols_length (i : Nat) : (locCols A ep i).length = ep i - A.ptr i := by simp [locCols]

theorem locCols_get {i q : Nat} (h : q < (locCols A ep i).length) : (locCols A ep i)[q] = A.col (A.ptr i + q) := by simp [locCols]

theorem SymHyp.transfer {m : Mem (CTy R)} (h : SymHyp m0 k A ext ep) (hm : ∀ a i, symSrc k a → m a i = m0 a i) : SymHyp m k A ext ep where
  wf := h.wf
  pat := ⟨fun i hi => by rw [hm _ _ (Or.inl rfl)]; exact h.pat.rowptr i hi, fun j hj => by rw [hm _ _ (Or.inr (Or.inr rfl))]; exact h.pat.colidx j hj⟩
  ext := ⟨fun he i hi => by rw [hm _ _ (Or.inr (Or.inl rfl))]; exact h.ext.1 he i hi, h.ext.2⟩
  loc := h.loc
  srt := h.srt

theorem SymHyp.col_mem (h : SymHyp m0 k A ext ep) {i c : Nat} (hi : i < A.m) (hc : c ∈ locCols A ep i) : c < A.m := by
  unfold locCols at hc
  obtain ⟨j, h1, rfl⟩ := List.mem_map.1 hc
  rw [List.mem_range'_1] at h1
  exact h.loc i j hi h1.1 (by omega)

theorem wp_binarySearchCol {m : Mem (CTy R)} {s : List Int} {lo hi x : Int} {Q : Bool → Mem (CTy R) → Prop}
    (hlen : hi = lo + s.length) (hs : s.Pairwise (· ≤ ·))
    (h : ∀ q (h : q < s.length), Rd (.colidx k) (lo + q) ∧ m (.colidx k) (lo + q) = some s[q])
    (hQ : Q (decide (x ∈ s)) m) : wp sz W Rd (binarySearchCol k 0 lo hi x) m Q := by
  subst hlen
  unfold binarySearchCol
  simp only [Nat.cast_zero, Int.sub_zero]
  rw [wp_bind]
  let f : Int → Int := fun i => s.getD (i - lo).toNat 0
  have hf : ∀ q (h : q < s.length), f (lo + q) = s[q] := by
    intro q hq
    show s.getD (lo + q - lo).toNat 0 = _
    rw [show (lo + (q : Int) - lo).toNat = q by omega, List.getD_eq_getElem?_getD, List.getElem?_eq_getElem hq]; rfl
  have hget : ∀ i, lo ≤ i → i < lo + s.length → ∃ q : Nat, q < s.length ∧ i = lo + q := by
    intro i h1 h2; exact ⟨(i - lo).toNat, by omega, by omega⟩
  refine wp_lowerBound (f := f) (by omega) ?_ ?_ ?_
  · intro i h1 h2 Q' hQ'
    obtain ⟨q, hq, rfl⟩ := hget i h1 h2
    rw [wp_read]
    refine ⟨(h q hq).1, _, (h q hq).2, ?_⟩
    rw [← hf q hq]; exact hQ'
  · intro i i' h1 h2 h3
    obtain ⟨q, hq, rfl⟩ := hget i h1 (by omega)
    obtain ⟨q', hq', rfl⟩ := hget i' (by omega) h3
    rw [hf q hq, hf q' hq']
    by_cases he : q = q'
    · subst he; omega
    · exact List.pairwise_iff_getElem.mp hs q q' hq hq' (by omega)
  · intro p h1 h2 h3 h4
    by_cases hp : p < lo + s.length
    · rw [if_pos hp]
      obtain ⟨q, hq, rfl⟩ := hget p h1 hp
      refine wp_rd _ (h q hq).1 (h q hq).2 ?_
      rw [wp_pure]
      have h5 := h4 _ (Int.le_refl _) hp
      rw [hf q hq] at h5
      have e : decide (s[q] ≤ x) = decide (x ∈ s) := by
        congr 1
        refine propext ⟨fun h => ?_, fun h => ?_⟩
        · have : s[q] = x := by omega
          exact this ▸ List.getElem_mem hq
        · obtain ⟨q', hq', e⟩ := List.getElem_of_mem h
          by_cases hlt : q' < q
          · have := h3 (lo + q') (by omega) (by omega)
            rw [hf q' hq'] at this; omega
          · have h6 := hf q' hq'
            by_cases he : q = q'
            · subst he; omega
            · have := List.pairwise_iff_getElem.mp hs q q' hq hq' (by omega)
              omega
      exact e.symm ▸ hQ
    · rw [if_neg hp, wp_pure]
      have e : decide (x ∈ s) = false := by
        refine decide_eq_false fun h => ?_
        obtain ⟨q', hq', e⟩ := List.getElem_of_mem h
        have := h3 (lo + q') (by omega) (by omega)
        rw [hf q' hq'] at this; omega
      exact e ▸ hQ

theorem wp_symBounds {m : Mem (CTy R)} (h : SymHyp m k A ext ep) (hR : ∀ a i, symSrc k a → Rd a i) {i : Nat} (hi : i < A.m) {Q : Int × Int → Mem (CTy R) → Prop}
    (hQ : Q ((A.ptr i : Int), (ep i : Int)) m) : wp sz W Rd (symBounds k 0 ext (i : Int)) m Q := by
  unfold symBounds
  refine wp_rd (A.ptr i : Int) (hR _ _ (Or.inl rfl)) (by simpa using h.pat.rp0 (i := i) (by omega)) ?_
  rw [wp_bind]
  have := wp_extOf' (sz := sz) (W := W) (Rd := Rd) (Q := fun r m => wp sz W Rd (pure ((A.ptr i : Int), r)) m Q) h.pat h.ext
    (fun i => hR _ i (Or.inl rfl)) (fun i => hR _ i (Or.inr (Or.inl rfl))) hi
  simp only [Nat.cast_zero, Int.add_zero] at this
  refine this ?_
  rw [wp_pure]; exact hQ

theorem wp_symProbe {m : Mem (CTy R)} (h : SymHyp m k A ext ep) (hR : ∀ a i, symSrc k a → Rd a i) {i j : Nat} (hi : i < A.m)
    (h1 : A.ptr i ≤ j) (h2 : j < ep i) {Q : Int × Bool → Mem (CTy R) → Prop}
    (hQ : Q ((A.col j : Int), decide (i ∈ locCols A ep (A.col j))) m) : wp sz W Rd (symProbe k 0 ext (i : Int) (j : Int)) m Q := by
  have hx := h.ext.2.2 i hi
  have hnn := h.wf.ptr_le_nnz (i := i + 1) (by omega)
  have hc := h.loc i j hi h1 h2
  unfold symProbe
  refine wp_rd (A.col j : Int) (hR _ _ (Or.inr (Or.inr rfl))) (by simpa using h.pat.col0 (j := j) (by omega)) ?_
  rw [wp_bind]
  refine wp_symBounds h hR hc ?_
  rw [wp_bind]
  have hxc := h.ext.2.2 _ hc
  have hnc := h.wf.ptr_le_nnz (i := A.col j + 1) (by omega)
  refine wp_binarySearchCol (s := (locCols A ep (A.col j)).map (fun c : Nat => (c : Int))) ?_ ?_ ?_ ?_
  · rw [List.length_map, locCols_length]; dsimp only; omega
  · rw [List.pairwise_iff_getElem]
    intro a b ha hb hab
    rw [List.length_map] at ha hb
    rw [List.getElem_map, List.getElem_map, locCols_get ha, locCols_get hb]
    rw [locCols_length] at ha hb
    have := h.srt _ (A.ptr (A.col j) + a) (A.ptr (A.col j) + b) hc (by omega) (by omega) (by omega)
    omega
  · intro q hq
    rw [List.length_map] at hq
    refine ⟨hR _ _ (Or.inr (Or.inr rfl)), ?_⟩
    rw [List.getElem_map, locCols_get hq]
    rw [locCols_length] at hq
    have := h.pat.col0 (j := A.ptr (A.col j) + q) (by omega)
    rw [← this]
    exact congrArg (m (.colidx k)) (by push_cast; rfl)
  · rw [wp_pure]
    have e : decide ((i : Int) ∈ (locCols A ep (A.col j)).map (fun c : Nat => (c : Int))) = decide (i ∈ locCols A ep (A.col j)) := by
      congr 1
      refine propext ⟨fun hh => ?_, fun hh => List.mem_map_of_mem hh⟩
      obtain ⟨c, hc1, hc2⟩ := List.mem_map.1 hh
      have : c = i := by omega
      exact this ▸ hc1
    rw [e]; exact hQ

theorem symItemsTo_succ {i q : Nat} (hq : q < ep i - A.ptr i) : symItemsTo A ep i (q + 1) =
    symItemsTo A ep i q ++ (if i ∈ locCols A ep (A.col (A.ptr i + q)) then [] else [(A.col (A.ptr i + q), i)]) := by
  unfold symItemsTo
  have hl : q < (locCols A ep i).length := by rw [locCols_length]; exact hq
  rw [List.take_succ_eq_append_getElem hl, List.filter_append, List.map_append, locCols_get hl]
  congr 1
  by_cases h : i ∈ locCols A ep (A.col (A.ptr i + q)) <;> simp [h]

theorem symItemsTo_all (i : Nat) : symItemsTo A ep i (ep i - A.ptr i) = symItems A ep i := by
  unfold symItemsTo symItems
  rw [List.take_of_length_le (by rw [locCols_length])]

theorem symItemsTo_pre (i q : Nat) : symItemsTo A ep i q <+: symItems A ep i :=
  ((List.take_prefix _ _).filter _).map _

theorem symItemsRows_succ (b n : Nat) : symItemsRows A ep b (n + 1) = symItemsRows A ep b n ++ symItems A ep (b + n) := by
  unfold symItemsRows
  rw [List.range'_concat, List.flatMap_append]; simp

theorem symItemsRows_pre (b : Nat) {n n' : Nat} (h : n ≤ n') : symItemsRows A ep b n <+: symItemsRows A ep b n' := by
  induction n' with
  | zero => rw [show n = 0 by omega]
  | succ n' ih =>
    by_cases hn : n = n' + 1
    · rw [hn]
    · exact (ih (by omega)).trans (by rw [symItemsRows_succ]; exact List.prefix_append _ _)

/-- The loop over unpaired entries. -/
theorem wpRG_symLoop {Inv : Bk → Mem (CTy R) → Prop} {t b n : Nat} {act : Int → Int → Prog (CTy R) Unit} {m1 : Mem (CTy R)}
    (h : SymHyp m1 k A ext ep) (hbn : b + n ≤ A.m)
    (hst : ∀ g m, Inv g m → ∀ a i, symSrc k a → m a i = m1 a i)
    (hact : ∀ (g : Bk) (m : Mem (CTy R)) (c i : Nat), Inv g m → g.pend t = none → g.of t ++ [(c, i)] <+: symItemsRows A ep b n →
      wpRG sz Inv (fun g _ g' _ => BkRely t g g') (fun g _ g' _ => BkGuar t g g') (act (c : Int) (i : Int)) g m
        (fun _ g' _ => g'.of t = g.of t ++ [(c, i)] ∧ g'.pend t = none))
    {g0 : Bk} {m0 : Mem (CTy R)} (hI : Inv g0 m0) (h1 : g0.of t = []) (h2 : g0.pend t = none) :
    wpRG sz Inv (fun g _ g' _ => BkRely t g g') (fun g _ g' _ => BkGuar t g g')
      (symLoop k 0 ext act (b : Int) ((b + n : Nat) : Int)) g0 m0
      (fun s g _ => g.of t = symItemsRows A ep b n ∧ g.pend t = none ∧ s = decide (symItemsRows A ep b n = [])) := by
  have hrefl : ∀ (g : Bk) (m : Mem (CTy R)), BkRely t g g := fun g _ => BkRely.refl t g
  have htrans : ∀ (g1 : Bk) (m1 : Mem (CTy R)) (g2 : Bk) (m2 : Mem (CTy R)) (g3 : Bk) (m3 : Mem (CTy R)),
      BkRely t g1 g2 → BkRely t g2 g3 → BkRely t g1 g3 := fun _ _ _ _ _ _ h1 h2 => h1.trans h2
  have hG : ∀ (g : Bk) (m : Mem (CTy R)), BkGuar t g g := fun g _ => BkGuar.refl t g
  have hst' : ∀ g m, Inv g m → ∀ a i, (fun a (_ : Int) => symSrc k a) a i → m a i = m1 a i := fun g m hI a i ha => hst g m hI a i ha
  unfold symLoop
  refine wpRG_forUp hrefl htrans (fun z s g _ => ∃ q : Nat, z = (b : Int) + q ∧ q ≤ n ∧ g.of t = symItemsRows A ep b q ∧ g.pend t = none ∧
    s = decide (symItemsRows A ep b q = [])) ?_ hI ?_ ?_ ?_
  · rintro z s g m g' m' ⟨q, e1, e2, e3, e4, e5⟩ hR _
    exact ⟨q, e1, e2, hR.1.trans e3, hR.2.1.trans e4, e5⟩
  · exact ⟨0, by simp, by omega, by rw [h1]; rfl, h2, by simp [symItemsRows]⟩
  · rintro z s g m hz1 hz2 hIg ⟨q, rfl, hq, e3, e4, e5⟩
    have hqn : q < n := by omega
    have hi : b + q < A.m := by omega
    have hx := h.ext.2.2 _ hi
    refine wpRG_bind hrefl htrans hIg ?_
    rw [show (b : Int) + (q : Int) = ((b + q : Nat) : Int) by omega]
    refine wpRG_mono (wpRG_ro htrans hG hst' (Q := fun x => x = ((A.ptr (b + q) : Int), (ep (b + q) : Int)))
      (wp_symBounds (sz := sz) h (fun a i ha => ha) hi rfl)) ?_
    rintro _ g1 m2 hIg1 ⟨rfl, hr1⟩
    dsimp only
    have hpreRow : symItemsRows A ep b q ++ symItems A ep (b + q) <+: symItemsRows A ep b n := by
      rw [← symItemsRows_succ]; exact symItemsRows_pre b (by omega)
    refine wpRG_forUp hrefl htrans (fun z s g _ => ∃ r : Nat, z = (A.ptr (b + q) : Int) + r ∧ r ≤ ep (b + q) - A.ptr (b + q) ∧
      g.of t = symItemsRows A ep b q ++ symItemsTo A ep (b + q) r ∧ g.pend t = none ∧
      s = decide (symItemsRows A ep b q ++ symItemsTo A ep (b + q) r = [])) ?_ hIg1 ?_ ?_ ?_
    · rintro z s g m g' m' ⟨r, e1, e2, e3, e4, e5⟩ hR _
      exact ⟨r, e1, e2, hR.1.trans e3, hR.2.1.trans e4, e5⟩
    · have e0 : symItemsTo A ep (b + q) 0 = [] := by simp [symItemsTo]
      refine ⟨0, by simp, by omega, ?_, ?_, ?_⟩
      · rw [hr1.1, e3, e0, List.append_nil]
      · rw [hr1.2.1, e4]
      · rw [e5, e0, List.append_nil]
    · rintro z s1 g2 m3 hz1 hz2 hIg2 ⟨r, rfl, hr, f3, f4, f5⟩
      have hrn : r < ep (b + q) - A.ptr (b + q) := by omega
      refine wpRG_bind hrefl htrans hIg2 ?_
      have ej : (A.ptr (b + q) : Int) + (r : Int) = ((A.ptr (b + q) + r : Nat) : Int) := by omega
      rw [ej]
      refine wpRG_mono (wpRG_ro htrans hG hst' (Q := fun x => x = ((A.col (A.ptr (b + q) + r) : Int),
          decide (b + q ∈ locCols A ep (A.col (A.ptr (b + q) + r)))))
        (wp_symProbe (sz := sz) h (fun a i ha => ha) hi (by omega) (by omega) rfl)) ?_
      rintro _ g3 m4 hIg3 ⟨rfl, hr3⟩
      dsimp only
      have hsucc := symItemsTo_succ (A := A) (ep := ep) (i := b + q) hrn
      have f3' := hr3.1.trans f3
      have f4' := hr3.2.1.trans f4
      by_cases hm : b + q ∈ locCols A ep (A.col (A.ptr (b + q) + r))
      · rw [if_pos hm, List.append_nil] at hsucc
        rw [if_pos (by simpa using hm)]
        refine wpRG_pure fun g' m' hR _ => ⟨r + 1, by push_cast; omega, hrn, ?_, ?_, ?_⟩
        · rw [hR.1, f3', hsucc]
        · rw [hR.2.1, f4']
        · rw [f5, hsucc]
      · rw [if_neg hm] at hsucc
        rw [if_neg (by simpa using hm)]
        refine wpRG_bind hrefl htrans hIg3 ?_
        refine wpRG_mono (hact g3 m4 _ _ hIg3 f4' ?_) ?_
        · rw [f3', List.append_assoc, ← hsucc]
          refine List.IsPrefix.trans ?_ hpreRow
          exact (List.prefix_append_right_inj _).2 (symItemsTo_pre _ _)
        · rintro _ g4 m5 hIg4 ⟨k1, k2⟩
          refine wpRG_pure fun g' m' hR _ => ⟨r + 1, by push_cast; omega, hrn, ?_, ?_, ?_⟩
          · rw [hR.1, k1, f3', hsucc, List.append_assoc]
          · rw [hR.2.1, k2]
          · rw [hsucc]; simp
    · rintro s1 g2 m3 ⟨r, hz, hr, f3, f4, f5⟩
      have hre : r = ep (b + q) - A.ptr (b + q) := by omega
      subst hre
      rw [symItemsTo_all, ← symItemsRows_succ] at f3 f5
      exact ⟨q + 1, by push_cast; omega, by omega, f3, f4, f5⟩
  · rintro s g m ⟨q, hz, hq, e3, e4, e5⟩
    have : q = n := by push_cast at hz; omega
    subst this
    exact ⟨e3, e4, e5⟩

end

end SpMP
