import Verif.PermuteProof
import Verif.InsSort
/-
Proofs about permuteMain_ (/repo/Permute.cpp:235-371) and permute (420-425).
-/

namespace SpMP
open Spec

set_option linter.unusedSectionVars false

variable {R : Type} [Races CArr]

/-- The local part of row `r` with relabelled columns; `ep r` is the position of its first external entry. -/
def locRow (A : Csr R) (ep cp : Nat → Nat) (r : Nat) : List (Nat × R) :=
  ((A.row r).take (ep r - A.ptr r)).map fun x => (cp x.1, x.2)

/-- The external part of row `r`. -/
def extRow (A : Csr R) (ep : Nat → Nat) (r : Nat) : List (Nat × R) := (A.row r).drop (ep r - A.ptr r)

theorem RowAtV.snoc {m m' : Mem (CTy R)} {k base s : Nat} {vals : Bool} {l : List (Nat × R)} (h : RowAtV m k base vals s l)
    {y : Nat × R}
    (hc : m' (.colidx k) ((s : Int) + l.length) = some ((y.1 : Int) + base))
    (hv : vals = true → m' (.values k) ((s : Int) + l.length) = some y.2)
    (hf : ∀ a i, i ≠ (s : Int) + l.length → m' a i = m a i) : RowAtV m' k base vals s (l ++ [y]) := by
  intro z w hz
  by_cases hzx : z < l.length
  · rw [List.getElem?_append_left hzx] at hz
    rw [hf _ _ (by omega), hf _ _ (by omega)]
    exact h z w hz
  · have : z = l.length := by
      by_contra hc
      rw [List.getElem?_eq_none (by simp; omega)] at hz; cases hz
    subst this
    simp at hz
    subst hz
    exact ⟨hc, hv⟩

/-- What the caller of permute provides. `nl` is the number of local columns, `cp` the column permutation, `ri` the inverse row
permutation, `ep i` the end of the local part of row `i`. -/
structure PermHyp (m : Mem (CTy R)) (k k2 base nl : Nat) (A : Csr R) (o : Opt) (hasRow sort : Bool) (ep ri cp : Nat → Nat) : Prop where
  hk : k ≠ k2
  wf : A.WF
  pat : HoldsPat m k base A
  val : o.values = true → HoldsVal m k A
  ext : HoldsExt m k base A o.extptr ep
  sel : HoldsSel m hasRow A.m ri
  perm : IsPermFn A.m ri
  cpm : ∀ c : Nat, c < nl → m (.itmp 1) (c : Int) = some (cp c : Int)
  cpp : IsPermFn nl cp
  nle : nl ≤ A.n
  loc : ∀ i j, i < A.m → A.ptr i ≤ j → j < ep i → A.col j < nl
  dg : o.diagptr = true → ∀ i, i < A.m → ∃ j, A.ptr i ≤ j ∧ j < ep i ∧ A.col j = i
  idg : o.idiag = true → ∀ i : Nat, i < A.m → ∃ v, m (.idiag k) (i : Int) = some v
  noext : o.values = false → ∀ i, i < A.m → ep i = A.ptr (i + 1)
  srt : sort = true → o.values = true

/-- Arrays read by permuteMain_ and written by nobody in it. -/
def permSrc (k k2 : Nat) (a : CArr) : Prop :=
  a = .rowptr k ∨ a = .extptr k ∨ a = .colidx k ∨ a = .values k ∨ a = .idiag k ∨ a = .itmp 0 ∨ a = .itmp 1 ∨
    a = .rowptr k2 ∨ a = .extptr k2

section
variable {sz : CArr → Int} {W Rd : CArr → Int → Prop} {T k k2 base nl : Nat} {A : Csr R} {o : Opt} {hasRow sort : Bool} {ep ri cp : Nat → Nat}
  {m0 : Mem (CTy R)}

theorem locRow_length (h : PermHyp m0 k k2 base nl A o hasRow sort ep ri cp) {r : Nat} (hr : r < A.m) :
    (locRow A ep cp r).length = ep r - A.ptr r := by
  have := h.ext.2.2 r hr
  unfold locRow; rw [List.length_map, List.length_take, Csr.row_length]; omega

theorem extRow_length {r : Nat} : (extRow A ep r).length = A.ptr (r + 1) - A.ptr r - (ep r - A.ptr r) := by
  unfold extRow; rw [List.length_drop, Csr.row_length]

theorem locRow_get (h : PermHyp m0 k k2 base nl A o hasRow sort ep ri cp) {r q : Nat} (hr : r < A.m) (hq : q < ep r - A.ptr r) :
    (locRow A ep cp r)[q]? = some (cp (A.col (A.ptr r + q)), A.val (A.ptr r + q)) := by
  have := h.ext.2.2 r hr
  unfold locRow
  rw [List.getElem?_map, List.getElem?_take, if_pos hq, List.getElem?_eq_getElem (by rw [Csr.row_length]; omega), Csr.row_getElem]
  rfl

theorem extRow_get {r q : Nat} (hq : ep r - A.ptr r + q < A.ptr (r + 1) - A.ptr r) :
    (extRow A ep r)[q]? = some (A.col (A.ptr r + (ep r - A.ptr r) + q), A.val (A.ptr r + (ep r - A.ptr r) + q)) := by
  unfold extRow
  rw [List.getElem?_drop, List.getElem?_eq_getElem (by rw [Csr.row_length]; omega), Csr.row_getElem]
  simp [Nat.add_assoc]

theorem take_snoc {α : Type} {l : List α} {q : Nat} {y : α} (h : l[q]? = some y) : l.take (q + 1) = l.take q ++ [y] := by
  rw [List.take_add_one, h]; rfl

/-- Two writes at the same position change nothing elsewhere. -/
theorem set2_ne {m : Mem (CTy R)} {a b : CArr} {p : Int} {u : CTy R a} {v : CTy R b} {c : CArr} {i : Int} (h : i ≠ p) :
    (m.set a p u).set b p v c i = m c i := by
  rcases Mem.set_cases (m.set a p u) b p v c i with ⟨rfl, rfl⟩ | h'
  · exact absurd rfl h
  · rw [h']
    rcases Mem.set_cases m a p u c i with ⟨rfl, rfl⟩ | h'
    · exact absurd rfl h
    · exact h'

theorem set1_ne {m : Mem (CTy R)} {a : CArr} {p : Int} {u : CTy R a} {c : CArr} {i : Int} (h : i ≠ p) :
    m.set a p u c i = m c i := by
  rcases Mem.set_cases m a p u c i with ⟨rfl, rfl⟩ | h'
  · exact absurd rfl h
  · exact h'

/-- A write to the cells of a segment changes nothing outside. -/
theorem seg_set2 {m m0 : Mem (CTy R)} {s n : Nat} {p : Int} {u : Int} {v : R}
    (h : ∀ a i, ¬ SegCell k2 s n a i → m a i = m0 a i) (hp : (s : Int) ≤ p ∧ p < (s : Int) + n) :
    ∀ a i, ¬ SegCell k2 s n a i → (m.set (.colidx k2) p u).set (.values k2) p v a i = m0 a i := by
  intro a i hai
  rcases Mem.set_cases (m.set (.colidx k2) p u) (.values k2) p v a i with ⟨rfl, rfl⟩ | h'
  · exact absurd ⟨Or.inr rfl, hp⟩ hai
  · rw [h']
    rcases Mem.set_cases m (.colidx k2) p u a i with ⟨rfl, rfl⟩ | h'
    · exact absurd ⟨Or.inl rfl, hp⟩ hai
    · rw [h']; exact h a i hai

theorem seg_set1 {m m0 : Mem (CTy R)} {s n : Nat} {p : Int} {u : Int}
    (h : ∀ a i, ¬ SegCell k2 s n a i → m a i = m0 a i) (hp : (s : Int) ≤ p ∧ p < (s : Int) + n) :
    ∀ a i, ¬ SegCell k2 s n a i → m.set (.colidx k2) p u a i = m0 a i := by
  intro a i hai
  rcases Mem.set_cases m (.colidx k2) p u a i with ⟨rfl, rfl⟩ | h'
  · exact absurd ⟨Or.inl rfl, hp⟩ hai
  · rw [h']; exact h a i hai

theorem not_seg_src (hk : k ≠ k2) {a : CArr} (ha : permSrc k k2 a) (s n : Nat) (i : Int) : ¬ SegCell k2 s n a i := by
  rintro ⟨h | h, _⟩ <;> subst h <;> simp [permSrc] at ha <;> exact hk ha.symm

/-- The copy of the local part (general case). -/
theorem wp_permLoop (h : PermHyp m0 k k2 base nl A o hasRow sort ep ri cp) {r s n : Nat} (hr : r < A.m) (hn : A.ptr (r + 1) - A.ptr r ≤ n)
    (hR : ∀ a i, permSrc k k2 a → Rd a i) (hW : ∀ a i, SegCell k2 s n a i → W a i)
    (hz : (s : Int) + n ≤ sz (.colidx k2)) (hz2 : o.values = true → (s : Int) + n ≤ sz (.values k2))
    {Q : Int × Int → Mem (CTy R) → Prop}
    (hQ : ∀ d m', (o.diagptr = true → d = (cp r : Int) + base) → RowAtV m' k2 base o.values s (locRow A ep cp r) →
      (∀ a i, ¬ SegCell k2 s n a i → m' a i = m0 a i) → Q ((s : Int) + (locRow A ep cp r).length + base, d) m') :
    wp sz W Rd (Prog.forUp (ty := CTy R) ((A.ptr r : Int) + base) ((ep r : Int) + base) ((s : Int) + base, (-1 : Int)) fun j s => do
      let c ← Prog.read (ty := CTy R) (.colidx k) (j - base)
      let nc ← Prog.read (ty := CTy R) (.itmp 1) ((c : Int) - base)
      Prog.write (ty := CTy R) (.colidx k2) (s.1 - base) ((nc : Int) + base)
      let _ ← (if o.values then do
          let v ← Prog.read (ty := CTy R) (.values k) (j - base)
          Prog.write (ty := CTy R) (.values k2) (s.1 - base) v
        else pure () : Prog (CTy R) Unit)
      if o.diagptr then do
        let c ← Prog.read (ty := CTy R) (.colidx k) (j - base)
        pure (s.1 + 1, if (c : Int) = (r : Int) + base then (nc : Int) + base else s.2)
      else pure (s.1 + 1, s.2)) m0 Q := by
  obtain ⟨he1, he2⟩ := h.ext.2.2 r hr
  have hll := locRow_length h hr
  have hnn := h.wf.ptr_le_nnz (i := r + 1) (by omega)
  refine wp_forN (b := base) (lo := A.ptr r) (hi := ep r)
    (fun q st m' => st.1 = (s : Int) + (q - A.ptr r : Nat) + base ∧
      (o.diagptr = true → (∃ j, A.ptr r ≤ j ∧ j < q ∧ A.col j = r) → st.2 = (cp r : Int) + base) ∧
      RowAtV m' k2 base o.values s ((locRow A ep cp r).take (q - A.ptr r)) ∧
      (∀ a i, ¬ SegCell k2 s n a i → m' a i = m0 a i)) he1 ?_ ?_ ?_ rfl rfl
  · refine ⟨by simp, ?_, ?_, fun _ _ _ => rfl⟩
    · rintro _ ⟨j, h1, h2, _⟩; omega
    · intro x y hxy; simp at hxy
  · rintro q ⟨s1, d⟩ m1 h1 h2 ⟨i1, i2, i3, i4⟩
    dsimp only at i1 i2 ⊢
    subst i1
    have hsrc : ∀ a, permSrc k k2 a → m1 a = m0 a := fun a ha => by funext i; exact i4 a i (not_seg_src h.hk ha _ _ _)
    have hcl := h.loc r q hr h1 h2
    have hcol : m1 (.colidx k) (q : Int) = some ((A.col q : Int) + base) := by
      rw [hsrc _ (by simp [permSrc])]; exact h.pat.colidx q (by omega)
    rw [Int.add_sub_cancel]
    refine wp_rd _ (hR _ _ (by simp [permSrc])) hcol ?_
    have hcp : m1 (.itmp 1) ((A.col q : Int) + base - base) = some (cp (A.col q) : Int) := by
      rw [hsrc _ (by simp [permSrc]), Int.add_sub_cancel]; exact h.cpm _ hcl
    refine wp_rd _ (hR _ _ (by simp [permSrc])) hcp ?_
    have e1 : (s : Int) + (q - A.ptr r : Nat) + base - base = (s : Int) + (q - A.ptr r : Nat) := by omega
    rw [e1]
    have hpos : (s : Int) ≤ (s : Int) + (q - A.ptr r : Nat) ∧ (s : Int) + (q - A.ptr r : Nat) < (s : Int) + n := by omega
    refine wp_wr (hW _ _ ⟨Or.inl rfl, hpos⟩) ⟨by omega, by omega⟩ ?_
    have htk : (locRow A ep cp r).take (q + 1 - A.ptr r) = (locRow A ep cp r).take (q - A.ptr r) ++ [(cp (A.col q), A.val q)] := by
      rw [show q + 1 - A.ptr r = (q - A.ptr r) + 1 by omega]
      refine take_snoc ?_
      rw [locRow_get h hr (by omega), show A.ptr r + (q - A.ptr r) = q by omega]
    have hlen : ((locRow A ep cp r).take (q - A.ptr r)).length = q - A.ptr r := by rw [List.length_take]; omega
    have hdiag : ∀ (P : Int × Int → Prop), (∀ d' : Int,
        (o.diagptr = true → (∃ j, A.ptr r ≤ j ∧ j < q + 1 ∧ A.col j = r) → d' = (cp r : Int) + base) →
        P ((s : Int) + (q - A.ptr r : Nat) + base + 1, d')) →
        P ((s : Int) + (q - A.ptr r : Nat) + base + 1, if (A.col q : Int) + base = (r : Int) + base then (cp (A.col q) : Int) + base else d) := by
      intro P hP
      refine hP _ ?_
      rintro hd ⟨j, g1, g2, g3⟩
      by_cases hc : A.col q = r
      · have hc' : (A.col q : Int) + base = (r : Int) + base := by omega
        rw [if_pos hc', hc]
      · have hc' : ¬ ((A.col q : Int) + base = (r : Int) + base) := by omega
        rw [if_neg hc']
        refine i2 hd ⟨j, g1, ?_, g3⟩
        have : j ≠ q := by rintro rfl; exact hc g3
        omega
    have hfin : ∀ m2 : Mem (CTy R), RowAtV m2 k2 base o.values s ((locRow A ep cp r).take (q + 1 - A.ptr r)) →
        (∀ a i, ¬ SegCell k2 s n a i → m2 a i = m0 a i) →
        wp sz W Rd (if o.diagptr then do
          let c ← Prog.read (ty := CTy R) (.colidx k) (q : Int)
          pure ((s : Int) + (q - A.ptr r : Nat) + base + 1, if (c : Int) = (r : Int) + base then (cp (A.col q) : Int) + base else d)
          else pure ((s : Int) + (q - A.ptr r : Nat) + base + 1, d) : Prog (CTy R) (Int × Int)) m2
        (fun st m' => st.1 = (s : Int) + (q + 1 - A.ptr r : Nat) + base ∧
          (o.diagptr = true → (∃ j, A.ptr r ≤ j ∧ j < q + 1 ∧ A.col j = r) → st.2 = (cp r : Int) + base) ∧
          RowAtV m' k2 base o.values s ((locRow A ep cp r).take (q + 1 - A.ptr r)) ∧
          (∀ a i, ¬ SegCell k2 s n a i → m' a i = m0 a i)) := by
      intro m2 g1 g2
      by_cases hd : o.diagptr = true
      · rw [if_pos hd]
        refine wp_rd ((A.col q : Int) + base) (hR _ _ (by simp [permSrc])) ?_ ?_
        · rw [g2 _ _ (not_seg_src h.hk (by simp [permSrc]) _ _ _)]; exact h.pat.colidx q (by omega)
        rw [wp_pure]
        refine hdiag (fun st => st.1 = (s : Int) + (q + 1 - A.ptr r : Nat) + base ∧
          (o.diagptr = true → (∃ j, A.ptr r ≤ j ∧ j < q + 1 ∧ A.col j = r) → st.2 = (cp r : Int) + base) ∧ _) ?_
        intro d' hd'
        exact ⟨by dsimp only; omega, hd', g1, g2⟩
      · rw [if_neg hd, wp_pure]
        exact ⟨by dsimp only; omega, fun h => absurd h hd, g1, g2⟩
    rw [wp_bind]
    by_cases hv : o.values = true
    · rw [if_pos hv]
      refine wp_rd (A.val q) (hR _ _ (by simp [permSrc])) ?_ ?_
      · rw [Mem.set_other _ _ _ _ _ (by simp), hsrc _ (by simp [permSrc])]; exact h.val hv q (by omega)
      refine wp_wr1 (hW _ _ ⟨Or.inr rfl, hpos⟩) ⟨by omega, by have := hz2 hv; omega⟩ ?_
      refine hfin _ ?_ (seg_set2 i4 hpos)
      rw [htk]
      refine RowAtV.snoc i3 ?_ ?_ ?_
      · rw [hlen, Mem.set_other _ _ _ _ _ (by simp), Mem.get_same]
      · intro _; rw [hlen, Mem.get_same]
      · intro a i hi; rw [hlen] at hi; exact set2_ne hi
    · rw [if_neg hv, wp_pure]
      refine hfin _ ?_ (seg_set1 i4 hpos)
      rw [htk]
      refine RowAtV.snoc i3 ?_ (fun h => absurd h hv) ?_
      · rw [hlen, Mem.get_same]
      · intro a i hi; rw [hlen] at hi; exact set1_ne hi
  · rintro ⟨s1, d⟩ m1 ⟨i1, i2, i3, i4⟩
    dsimp only at i1 i2
    subst i1
    rw [← hll]
    rw [← hll, List.take_length] at i3
    refine hQ d m1 ?_ i3 i4
    intro hd
    exact i2 hd (h.dg hd r hr)

/-- The copy of the local part (common case). -/
theorem wp_permLoopCommon (h : PermHyp m0 k k2 base nl A o hasRow sort ep ri cp) (hv : o.values = true) {r s n : Nat} (hr : r < A.m)
    (hn : A.ptr (r + 1) - A.ptr r ≤ n)
    (hR : ∀ a i, permSrc k k2 a → Rd a i) (hW : ∀ a i, SegCell k2 s n a i → W a i)
    (hz : (s : Int) + n ≤ sz (.colidx k2)) (hz2 : o.values = true → (s : Int) + n ≤ sz (.values k2))
    {Q : Int → Mem (CTy R) → Prop}
    (hQ : ∀ m', RowAtV m' k2 base o.values s (locRow A ep cp r) →
      (∀ a i, ¬ SegCell k2 s n a i → m' a i = m0 a i) → Q ((s : Int) + (locRow A ep cp r).length + base) m') :
    wp sz W Rd (Prog.forUp (ty := CTy R) ((A.ptr r : Int) + base) ((ep r : Int) + base) ((s : Int) + base) fun j kk => do
      let c ← Prog.read (ty := CTy R) (.colidx k) (j - base)
      let nc ← Prog.read (ty := CTy R) (.itmp 1) ((c : Int) - base)
      Prog.write (ty := CTy R) (.colidx k2) (kk - base) ((nc : Int) + base)
      let v ← Prog.read (ty := CTy R) (.values k) (j - base)
      Prog.write (ty := CTy R) (.values k2) (kk - base) v
      pure (kk + 1)) m0 Q := by
  obtain ⟨he1, he2⟩ := h.ext.2.2 r hr
  have hll := locRow_length h hr
  have hnn := h.wf.ptr_le_nnz (i := r + 1) (by omega)
  refine wp_forN (b := base) (lo := A.ptr r) (hi := ep r)
    (fun q st m' => st = (s : Int) + (q - A.ptr r : Nat) + base ∧
      RowAtV m' k2 base o.values s ((locRow A ep cp r).take (q - A.ptr r)) ∧
      (∀ a i, ¬ SegCell k2 s n a i → m' a i = m0 a i)) he1 ?_ ?_ ?_ rfl rfl
  · refine ⟨by simp, ?_, fun _ _ _ => rfl⟩
    intro x y hxy; simp at hxy
  · rintro q _ m1 h1 h2 ⟨rfl, i3, i4⟩
    have hsrc : ∀ a, permSrc k k2 a → m1 a = m0 a := fun a ha => by funext i; exact i4 a i (not_seg_src h.hk ha _ _ _)
    have hcl := h.loc r q hr h1 h2
    have hcol : m1 (.colidx k) (q : Int) = some ((A.col q : Int) + base) := by
      rw [hsrc _ (by simp [permSrc])]; exact h.pat.colidx q (by omega)
    rw [Int.add_sub_cancel]
    refine wp_rd _ (hR _ _ (by simp [permSrc])) hcol ?_
    have hcp : m1 (.itmp 1) ((A.col q : Int) + base - base) = some (cp (A.col q) : Int) := by
      rw [hsrc _ (by simp [permSrc]), Int.add_sub_cancel]; exact h.cpm _ hcl
    refine wp_rd _ (hR _ _ (by simp [permSrc])) hcp ?_
    have e1 : (s : Int) + (q - A.ptr r : Nat) + base - base = (s : Int) + (q - A.ptr r : Nat) := by omega
    rw [e1]
    have hpos : (s : Int) ≤ (s : Int) + (q - A.ptr r : Nat) ∧ (s : Int) + (q - A.ptr r : Nat) < (s : Int) + n := by omega
    refine wp_wr (hW _ _ ⟨Or.inl rfl, hpos⟩) ⟨by omega, by omega⟩ ?_
    have htk : (locRow A ep cp r).take (q + 1 - A.ptr r) = (locRow A ep cp r).take (q - A.ptr r) ++ [(cp (A.col q), A.val q)] := by
      rw [show q + 1 - A.ptr r = (q - A.ptr r) + 1 by omega]
      refine take_snoc ?_
      rw [locRow_get h hr (by omega), show A.ptr r + (q - A.ptr r) = q by omega]
    have hlen : ((locRow A ep cp r).take (q - A.ptr r)).length = q - A.ptr r := by rw [List.length_take]; omega
    refine wp_rd (A.val q) (hR _ _ (by simp [permSrc])) ?_ ?_
    · rw [Mem.set_other _ _ _ _ _ (by simp), hsrc _ (by simp [permSrc])]; exact h.val hv q (by omega)
    refine wp_wr (hW _ _ ⟨Or.inr rfl, hpos⟩) ⟨by omega, by have := hz2 hv; omega⟩ ?_
    rw [wp_pure]
    refine ⟨by omega, ?_, seg_set2 i4 hpos⟩
    rw [htk]
    refine RowAtV.snoc i3 ?_ ?_ ?_
    · rw [hlen, Mem.set_other _ _ _ _ _ (by simp), Mem.get_same]
    · intro _; rw [hlen, Mem.get_same]
    · intro a i hi; rw [hlen] at hi; exact set2_ne hi
  · rintro _ m1 ⟨rfl, i3, i4⟩
    rw [← hll]
    rw [← hll, List.take_length] at i3
    exact hQ m1 i3 i4

/-- The copy of the external part. -/
theorem wp_permCopyExt (h : PermHyp m0 k k2 base nl A o hasRow sort ep ri cp) {r s n : Nat} (hr : r < A.m) (hn : A.ptr (r + 1) - A.ptr r ≤ n)
    (hR : ∀ a i, permSrc k k2 a → Rd a i) (hW : ∀ a i, SegCell k2 s n a i → W a i)
    (hz : (s : Int) + n ≤ sz (.colidx k2)) (hz2 : o.values = true → (s : Int) + n ≤ sz (.values k2))
    {m1 : Mem (CTy R)} (h1 : RowAtV m1 k2 base o.values s (locRow A ep cp r))
    (h2 : ∀ a i, ¬ SegCell k2 s n a i → m1 a i = m0 a i)
    {Q : Unit → Mem (CTy R) → Prop}
    (hQ : ∀ m', RowAtV m' k2 base o.values s (locRow A ep cp r ++ extRow A ep r) →
      (∀ a i, ¬ SegCell k2 s n a i → m' a i = m0 a i) → Q () m') :
    wp sz W Rd (permCopyExt k k2 base o.extptr ((r : Int) + base) ((ep r : Int) + base) ((s : Int) + (locRow A ep cp r).length + base)) m1 Q := by
  obtain ⟨he1, he2⟩ := h.ext.2.2 r hr
  have hll := locRow_length h hr
  have hel := extRow_length (A := A) (ep := ep) (r := r)
  have hnn := h.wf.ptr_le_nnz (i := r + 1) (by omega)
  unfold permCopyExt
  by_cases hx : o.extptr = true
  · rw [if_pos hx]
    have hsrc1 : ∀ a, permSrc k k2 a → m1 a = m0 a := fun a ha => by funext i; exact h2 a i (not_seg_src h.hk ha _ _ _)
    refine wp_rd ((A.ptr (r + 1) : Int) + base) (hR _ _ (by simp [permSrc])) ?_ ?_
    · rw [hsrc1 _ (by simp [permSrc]), show (r : Int) + base + 1 - base = ((r + 1 : Nat) : Int) by omega]; exact h.pat.rowptr (r + 1) hr
    rw [wp_bind]
    refine wp_forN (b := base) (lo := ep r) (hi := A.ptr (r + 1))
      (fun q st m' => st = (s : Int) + (q - A.ptr r : Nat) + base ∧
        RowAtV m' k2 base o.values s (locRow A ep cp r ++ (extRow A ep r).take (q - ep r)) ∧
        (∀ a i, ¬ SegCell k2 s n a i → m' a i = m0 a i)) he2 ?_ ?_ ?_ rfl rfl
    · refine ⟨by rw [hll], by simpa using h1, h2⟩
    · rintro q _ m2 g1 g2 ⟨rfl, i3, i4⟩
      have hsrc : ∀ a, permSrc k k2 a → m2 a = m0 a := fun a ha => by funext i; exact i4 a i (not_seg_src h.hk ha _ _ _)
      have hcol : m2 (.colidx k) (q : Int) = some ((A.col q : Int) + base) := by
        rw [hsrc _ (by simp [permSrc])]; exact h.pat.colidx q (by omega)
      have hv : o.values = true := by
        by_contra hc
        have := h.noext (by simpa using hc) r hr
        omega
      rw [Int.add_sub_cancel]
      refine wp_rd _ (hR _ _ (by simp [permSrc])) hcol ?_
      have e1 : (s : Int) + (q - A.ptr r : Nat) + base - base = (s : Int) + (q - A.ptr r : Nat) := by omega
      rw [e1]
      have hpos : (s : Int) ≤ (s : Int) + (q - A.ptr r : Nat) ∧ (s : Int) + (q - A.ptr r : Nat) < (s : Int) + n := by omega
      refine wp_wr (hW _ _ ⟨Or.inl rfl, hpos⟩) ⟨by omega, by omega⟩ ?_
      refine wp_rd (A.val q) (hR _ _ (by simp [permSrc])) ?_ ?_
      · rw [Mem.set_other _ _ _ _ _ (by simp), hsrc _ (by simp [permSrc])]; exact h.val hv q (by omega)
      refine wp_wr (hW _ _ ⟨Or.inr rfl, hpos⟩) ⟨by omega, by have := hz2 hv; omega⟩ ?_
      rw [wp_pure]
      refine ⟨by omega, ?_, seg_set2 i4 hpos⟩
      have htk : (extRow A ep r).take (q + 1 - ep r) = (extRow A ep r).take (q - ep r) ++ [(A.col q, A.val q)] := by
        rw [show q + 1 - ep r = (q - ep r) + 1 by omega]
        refine take_snoc ?_
        rw [extRow_get (by omega), show A.ptr r + (ep r - A.ptr r) + (q - ep r) = q by omega]
      have hlen : (locRow A ep cp r ++ (extRow A ep r).take (q - ep r)).length = q - A.ptr r := by
        rw [List.length_append, List.length_take, hll, hel]; omega
      rw [htk, ← List.append_assoc]
      refine RowAtV.snoc i3 ?_ ?_ ?_
      · rw [hlen, Mem.set_other _ _ _ _ _ (by simp), Mem.get_same]
      · intro _; rw [hlen, Mem.get_same]
      · intro a i hi; rw [hlen] at hi; exact set2_ne hi
    · rintro _ m2 ⟨rfl, i3, i4⟩
      rw [wp_pure]
      rw [List.take_of_length_le (by rw [hel]; omega)] at i3
      exact hQ m2 i3 i4
  · rw [if_neg hx, wp_pure]
    have : extRow A ep r = [] := List.eq_nil_of_length_eq_zero (by
      rw [hel]; have := h.ext.2.1 (by simpa using hx) r hr; omega)
    refine hQ m1 ?_ h2
    rw [this, List.append_nil]; exact h1

/-- The result of permuteMain_ for row `i`, whose entries start at position `s`. -/
def PermRowOk (m : Mem (CTy R)) (k2 base : Nat) (A : Csr R) (o : Opt) (sort : Bool) (ep cp : Nat → Nat) (m0 : Mem (CTy R)) (k s i r : Nat) : Prop :=
  ∃ L : List (Nat × R), L.Perm (locRow A ep cp r) ∧ (sort = false → L = locRow A ep cp r) ∧ (sort = true → ColSorted L) ∧
    RowAtV m k2 base o.values s (L ++ extRow A ep r) ∧
    (o.idiag = true → m (.idiag k2) (i : Int) = m0 (.idiag k) (r : Int)) ∧
    (o.diagptr = true → ∃ x : Nat, (∃ y, L[x]? = some y ∧ y.1 = cp r) ∧ (∀ z, z < x → ∀ y, L[z]? = some y → y.1 ≠ cp r) ∧
      m (.diagptr k2) (i : Int) = some ((s : Int) + x + base))

/-- The cells written for row `i`. -/
def permRW (k2 s n i : Nat) (a : CArr) (x : Int) : Prop :=
  SegCell k2 s n a x ∨ ((a = .idiag k2 ∨ a = .diagptr k2) ∧ x = (i : Int))

/-- The rest of a row after the copy. -/
theorem wp_permRow_tail (h : PermHyp m0 k k2 base nl A o hasRow sort ep ri cp) {i r s n : Nat} (hi : i < A.m) (hr : r = ri i)
    (hn : n = A.ptr (r + 1) - A.ptr r)
    (hrp2 : m0 (.rowptr k2) ((i : Int) + 1) = some ((s : Int) + n + base))
    (hxp2 : o.extptr = true → m0 (.extptr k2) (i : Int) = some ((s : Int) + (ep r - A.ptr r : Nat) + base))
    (hR : ∀ a x, permSrc k k2 a ∨ permRW k2 s n i a x → Rd a x) (hW : ∀ a x, permRW k2 s n i a x → W a x)
    (hz : (s : Int) + n ≤ sz (.colidx k2)) (hz2 : o.values = true → (s : Int) + n ≤ sz (.values k2))
    (hz3 : o.idiag = true → (i : Int) < sz (.idiag k2)) (hz4 : o.diagptr = true → (i : Int) < sz (.diagptr k2))
    {m1 : Mem (CTy R)} (h1 : RowAtV m1 k2 base o.values s (locRow A ep cp r ++ extRow A ep r))
    (h2 : ∀ a x, ¬ SegCell k2 s n a x → m1 a x = m0 a x) {d : Int} (hd : o.diagptr = true → d = (cp r : Int) + base) :
    wp sz W Rd (do
      Prog.assert (ty := CTy R) (o.diagptr = false ∨ d ≠ -1)
      let _ ← (if sort then do
          let ne ← extOf k2 base o.extptr ((i : Int) + base)
          insSort k2 true ((s : Int) + base - base) (ne - base)
        else pure () : Prog (CTy R) Unit)
      let _ ← (if o.idiag then do
          let d ← Prog.read (ty := CTy R) (.idiag k) ((r : Int) + base - base)
          Prog.write (ty := CTy R) (.idiag k2) ((i : Int) + base - base) d
        else pure () : Prog (CTy R) Unit)
      if o.diagptr then do
        let ne ← extOf k2 base o.extptr ((i : Int) + base)
        storeDiag k2 base ((i : Int) + base - base) d (ne - ((s : Int) + base)).toNat ((s : Int) + base - base)
      else pure ()) m1
      (fun _ m => PermRowOk m k2 base A o sort ep cp m0 k s i r) := by
  have hrm : r < A.m := by rw [hr]; exact h.perm.1 i hi
  obtain ⟨he1, he2⟩ := h.ext.2.2 r hrm
  have hll := locRow_length h hrm
  have hnn := h.wf.ptr_le_nnz (i := r + 1) (by omega)
  have hnext : ∀ {m : Mem (CTy R)}, (∀ a x, ¬ permRW k2 s n i a x → m a x = m0 a x) → ∀ {Q : Int → Mem (CTy R) → Prop},
      Q ((s : Int) + (ep r - A.ptr r : Nat) + base) m → wp sz W Rd (extOf k2 base o.extptr ((i : Int) + base)) m Q := by
    intro m hm Q hQ
    unfold extOf
    have hno : ∀ a x, a = .extptr k2 ∨ a = .rowptr k2 → ¬ permRW k2 s n i a x := by
      rintro a x ha (⟨hb | hb, _⟩ | ⟨hb | hb, _⟩) <;> subst hb <;> simp at ha
    by_cases hx : o.extptr = true
    · rw [if_pos hx, wp_read]
      refine ⟨hR _ _ (Or.inl (by simp [permSrc])), _, ?_, hQ⟩
      rw [hm _ _ (hno _ _ (Or.inl rfl)), Int.add_sub_cancel]; exact hxp2 hx
    · rw [if_neg hx, wp_read]
      refine ⟨hR _ _ (Or.inl (by simp [permSrc])), _, ?_, hQ⟩
      rw [hm _ _ (hno _ _ (Or.inr rfl)), show (i : Int) + base + 1 - base = (i : Int) + 1 by omega, hrp2]
      have := h.ext.2.1 (by simpa using hx) r hrm
      rw [hn, this]
  rw [wp_bind, wp_assert]
  refine ⟨?_, ?_⟩
  · by_cases hdp : o.diagptr = true
    · right; rw [hd hdp]; omega
    · left; simpa using hdp
  rw [Int.add_sub_cancel, Int.add_sub_cancel, Int.add_sub_cancel]
  -- the sort
  have key : ∀ (m2 : Mem (CTy R)) (L : List (Nat × R)), L.Perm (locRow A ep cp r) → (sort = false → L = locRow A ep cp r) →
      (sort = true → ColSorted L) → RowAtV m2 k2 base o.values s (L ++ extRow A ep r) →
      (∀ a x, ¬ SegCell k2 s n a x → m2 a x = m0 a x) →
      wp sz W Rd (do
        let _ ← (if o.idiag then do
            let d ← Prog.read (ty := CTy R) (.idiag k) (r : Int)
            Prog.write (ty := CTy R) (.idiag k2) (i : Int) d
          else pure () : Prog (CTy R) Unit)
        if o.diagptr then do
          let ne ← extOf k2 base o.extptr ((i : Int) + base)
          storeDiag k2 base (i : Int) d (ne - ((s : Int) + base)).toNat (s : Int)
        else pure ()) m2
        (fun _ m => PermRowOk m k2 base A o sort ep cp m0 k s i r) := by
    intro m2 L l1 l2 l3 l4 l5
    have fin : ∀ m3 : Mem (CTy R), RowAtV m3 k2 base o.values s (L ++ extRow A ep r) →
        (∀ a x, ¬ permRW k2 s n i a x → m3 a x = m0 a x) → (o.idiag = true → m3 (.idiag k2) (i : Int) = m0 (.idiag k) (r : Int)) →
        wp sz W Rd (if o.diagptr then do
          let ne ← extOf k2 base o.extptr ((i : Int) + base)
          storeDiag k2 base (i : Int) d (ne - ((s : Int) + base)).toNat (s : Int)
          else pure () : Prog (CTy R) Unit) m3
        (fun _ m => PermRowOk m k2 base A o sort ep cp m0 k s i r) := by
      intro m3 g1 g2 g3
      by_cases hdp : o.diagptr = true
      · rw [if_pos hdp, wp_bind]
        refine hnext g2 ?_
        have e1 : ((s : Int) + (ep r - A.ptr r : Nat) + base - ((s : Int) + base)).toNat = L.length := by
          rw [l1.length_eq, hll]; omega
        rw [e1, hd hdp]
        refine wp_storeDiag (vals := o.values) (hz4 hdp) (hW _ _ (Or.inr ⟨Or.inr rfl, rfl⟩)) L s ?_ ?_ ?_ ?_
        · intro x y hxy
          have hx : x < L.length := by
            by_contra hc; rw [List.getElem?_eq_none (by omega)] at hxy; cases hxy
          exact g1 x y (by rw [List.getElem?_append_left hx]; exact hxy)
        · rintro a x ⟨a1, a2, a3⟩
          rw [l1.length_eq, hll] at a3
          exact hR _ _ (Or.inr (Or.inl ⟨a1, a2, by omega⟩))
        · obtain ⟨j, j1, j2, j3⟩ := h.dg hdp r hrm
          have := locRow_get h hrm (q := j - A.ptr r) (by omega)
          rw [show A.ptr r + (j - A.ptr r) = j by omega, j3] at this
          exact ⟨_, l1.mem_iff.2 (List.mem_of_getElem? this), rfl⟩
        · intro x hx hmin
          refine ⟨L, l1, l2, l3, ?_, ?_, fun _ => ⟨x, hx, hmin, Mem.get_same _ _ _ _⟩⟩
          · exact g1.congr (fun _ _ _ => by rw [Mem.set_other _ _ _ _ _ (by simp)]) (fun _ _ _ => by rw [Mem.set_other _ _ _ _ _ (by simp)])
          · intro hid; rw [Mem.set_other _ _ _ _ _ (by simp)]; exact g3 hid
      · rw [if_neg hdp, wp_pure]
        exact ⟨L, l1, l2, l3, g1, g3, fun hc => absurd hc hdp⟩
    rw [wp_bind]
    by_cases hid : o.idiag = true
    · rw [if_pos hid]
      obtain ⟨v, hv⟩ := h.idg hid r hrm
      refine wp_rd v (hR _ _ (Or.inl (by simp [permSrc]))) ?_ ?_
      · rw [l5 _ _ (not_seg_src h.hk (by simp [permSrc]) _ _ _)]; exact hv
      refine wp_wr1 (hW _ _ (Or.inr ⟨Or.inl rfl, rfl⟩)) ⟨by omega, hz3 hid⟩ ?_
      refine fin _ ?_ ?_ ?_
      · exact l4.congr (fun _ _ _ => by rw [Mem.set_other _ _ _ _ _ (by simp)]) (fun _ _ _ => by rw [Mem.set_other _ _ _ _ _ (by simp)])
      · intro a x hax
        rcases Mem.set_cases m2 (.idiag k2) (i : Int) v a x with ⟨rfl, rfl⟩ | h'
        · exact absurd (Or.inr ⟨Or.inl rfl, rfl⟩) hax
        · rw [h']; exact l5 a x (fun hc => hax (Or.inl hc))
      · intro _; rw [Mem.get_same, hv]
    · rw [if_neg hid, wp_pure]
      exact fin m2 l4 (fun a x hax => l5 a x (fun hc => hax (Or.inl hc))) (fun hc => absurd hc hid)
  rw [wp_bind]
  cases sort with
  | false =>
    rw [if_neg (by simp), wp_pure]
    exact key m1 _ (List.Perm.refl _) (fun _ => rfl) (by simp) h1 h2
  | true =>
    rw [if_pos rfl, wp_bind]
    refine hnext (fun a x hax => h2 a x (fun hc => hax (Or.inl hc))) ?_
    have hv := h.srt rfl
    have hL : RowAtV m1 k2 base true s (locRow A ep cp r) := by
      intro x y hxy
      have hx : x < (locRow A ep cp r).length := by
        by_contra hc; rw [List.getElem?_eq_none (by omega)] at hxy; cases hxy
      have := h1 x y (by rw [List.getElem?_append_left hx]; exact hxy)
      rwa [hv] at this
    have hsub : ∀ a x, SegCell k2 s (locRow A ep cp r).length a x → SegCell k2 s n a x := by
      rintro a x ⟨a1, a2, a3⟩
      exact ⟨a1, a2, by rw [hll] at a3; omega⟩
    refine wp_insSort hL (fun a x hx => hW a x (Or.inl (hsub a x hx))) (fun a x hx => hR a x (Or.inr (Or.inl (hsub a x hx))))
      (by rw [hll]; omega) (fun _ => by have := hz2 hv; rw [hll]; omega) (by rw [hll]; omega) ?_
    intro m2 L l1 l2 l3 l4
    refine key m2 L l1 (by simp) (fun _ => l2) ?_ ?_
    · intro x y hxy
      by_cases hx : x < L.length
      · rw [List.getElem?_append_left hx] at hxy
        rw [hv]; exact l3 x y hxy
      · have hlen := l1.length_eq
        have hno : ∀ a, ¬ SegCell k2 s (locRow A ep cp r).length a ((s : Int) + x) := by
          rintro a ⟨_, _, a3⟩; omega
        rw [l4 _ _ (hno _), l4 _ _ (hno _)]
        refine h1 x y ?_
        rw [List.getElem?_append_right (by omega)] at hxy ⊢
        rw [hlen] at hxy; exact hxy
    · intro a x hax
      rw [l4 a x (fun hc => hax (hsub a x hc))]; exact h2 a x hax

/-- One row of permuteMain_. -/
theorem wp_permRow (h : PermHyp m0 k k2 base nl A o hasRow sort ep ri cp) {i s n : Nat} (hi : i < A.m)
    (hn : n = A.ptr (ri i + 1) - A.ptr (ri i))
    (hrp1 : m0 (.rowptr k2) (i : Int) = some ((s : Int) + base))
    (hrp2 : m0 (.rowptr k2) ((i : Int) + 1) = some ((s : Int) + n + base))
    (hxp2 : o.extptr = true → m0 (.extptr k2) (i : Int) = some ((s : Int) + (ep (ri i) - A.ptr (ri i) : Nat) + base))
    (hR : ∀ a x, permSrc k k2 a ∨ permRW k2 s n i a x → Rd a x) (hW : ∀ a x, permRW k2 s n i a x → W a x)
    (hz : (s : Int) + n ≤ sz (.colidx k2)) (hz2 : o.values = true → (s : Int) + n ≤ sz (.values k2))
    (hz3 : o.idiag = true → (i : Int) < sz (.idiag k2)) (hz4 : o.diagptr = true → (i : Int) < sz (.diagptr k2)) :
    wp sz W Rd (permRowSel k k2 base o hasRow sort ((i : Int) + base)) m0
      (fun _ m => PermRowOk m k2 base A o sort ep cp m0 k s i (ri i)) := by
  have hrm : ri i < A.m := h.perm.1 i hi
  have hRs : ∀ a x, permSrc k k2 a → Rd a x := fun a x ha => hR a x (Or.inl ha)
  have hWs : ∀ a x, SegCell k2 s n a x → W a x := fun a x ha => hW a x (Or.inl ha)
  unfold permRowSel
  by_cases hc : hasRow = true ∧ o.values = true ∧ o.idiag = false ∧ o.diagptr = false ∧ sort = false
  · rw [if_pos hc]
    obtain ⟨c1, c2, c3, c4, c5⟩ := hc
    unfold permRowCommon
    rw [Int.add_sub_cancel]
    refine wp_rd _ (hRs _ _ (by simp [permSrc])) (h.sel.1 c1 i hi) ?_
    dsimp only
    refine wp_rd _ (hRs _ _ (by simp [permSrc])) (by rw [Int.add_sub_cancel]; exact h.pat.rowptr (ri i) (by omega)) ?_
    rw [wp_bind]
    refine wp_extOf' h.pat h.ext (fun i => hRs _ _ (by simp [permSrc])) (fun i => hRs _ _ (by simp [permSrc])) hrm ?_
    refine wp_rd _ (hRs _ _ (by simp [permSrc])) hrp1 ?_
    rw [wp_bind]
    refine wp_permLoopCommon h c2 hrm (by omega) hRs hWs hz hz2 ?_
    intro m1 g1 g2
    refine wp_permCopyExt h hrm (by omega) hRs hWs hz hz2 g1 g2 ?_
    intro m2 q1 q2
    exact ⟨_, List.Perm.refl _, fun _ => rfl, by simp [c5], q1, by simp [c3], by simp [c4]⟩
  · rw [if_neg hc]
    unfold permRow
    rw [wp_bind, Int.add_sub_cancel]
    refine wp_permSel h.sel (fun _ => hRs _ _ (by simp [permSrc])) hi ?_
    dsimp only
    refine wp_rd _ (hRs _ _ (by simp [permSrc])) (by rw [Int.add_sub_cancel]; exact h.pat.rowptr (ri i) (by omega)) ?_
    rw [wp_bind]
    refine wp_extOf' h.pat h.ext (fun i => hRs _ _ (by simp [permSrc])) (fun i => hRs _ _ (by simp [permSrc])) hrm ?_
    refine wp_rd _ (hRs _ _ (by simp [permSrc])) hrp1 ?_
    rw [wp_bind]
    refine wp_permLoop h hrm (by omega) hRs hWs hz hz2 ?_
    intro d m1 g0 g1 g2
    dsimp only
    rw [wp_bind]
    refine wp_permCopyExt h hrm (by omega) hRs hWs hz hz2 g1 g2 ?_
    intro m2 q1 q2
    have := wp_permRow_tail h hi rfl hn hrp2 hxp2 hR hW hz hz2 hz3 hz4 q1 q2 g0
    rw [Int.add_sub_cancel (i : Int)] at this
    exact this

/-- Sizes that permute needs for its result. -/
structure PermSizes (sz : CArr → Int) (k2 : Nat) (A : Csr R) (o : Opt) : Prop where
  rowptr : (A.m : Int) + 1 ≤ sz (.rowptr k2)
  colidx : (A.nnz : Int) ≤ sz (.colidx k2)
  values : o.values = true → (A.nnz : Int) ≤ sz (.values k2)
  idiag : o.idiag = true → (A.m : Int) ≤ sz (.idiag k2)
  diagptr : o.diagptr = true → (A.m : Int) ≤ sz (.diagptr k2)
  extptr : o.extptr = true → (A.m : Int) ≤ sz (.extptr k2)

theorem selRows_total (hwf : A.WF) (hp : IsPermFn A.m ri) : rowStart (selRows A ri) A.m = A.nnz := by
  have := rowStart_perm hp A.row
  rw [hwf.rowStart_row (Nat.le_refl _)] at this
  exact this

theorem selRows_wf (hwf : A.WF) (hp : IsPermFn A.m ri) (d : R) : (Csr.ofRows A.m A.n (selRows A ri) d).WF := by
  refine Csr.ofRows_wf ?_
  intro i hi x hx
  obtain ⟨j, h1, h2, rfl⟩ := Csr.mem_row.1 hx
  have := hwf.ptr_le_nnz (i := ri i + 1) (hp.1 i hi)
  exact hwf.col_lt j (by omega)

/-- permuteMain_ on a result whose row pointers are already there. -/
theorem permuteMainB_ok (h : PermHyp m0 k k2 base nl A o hasRow sort ep ri cp) (hT : 1 ≤ T) (hz : PermSizes sz k2 A o)
    (hrp : ∀ i : Nat, i ≤ A.m → m0 (.rowptr k2) (i : Int) = some ((rowStart (selRows A ri) i : Int) + base))
    (hxp : o.extptr = true → ∀ i : Nat, i < A.m → m0 (.extptr k2) (i : Int) =
        some ((rowStart (selRows A ri) i : Int) + ep (ri i) - A.ptr (ri i) + base)) :
    (permuteMainB sz T k k2 A.m base o hasRow sort).Ok m0 (fun _ m =>
      (∀ i, i < A.m → PermRowOk m k2 base A o sort ep cp m0 k (rowStart (selRows A ri) i) i (ri i)) ∧
      ∀ a, a ≠ .colidx k2 → a ≠ .values k2 → a ≠ .idiag k2 → a ≠ .diagptr k2 → m a = m0 a) := by
  unfold permuteMainB
  generalize hS : rowStart (selRows A ri) = S at *
  have hstep : ∀ i, i < A.m → S (i + 1) = S i + (A.ptr (ri i + 1) - A.ptr (ri i)) := by
    intro i hi; rw [← hS, rowStart_succ]; unfold selRows; rw [Csr.row_length]
  have hmono : ∀ i j, i ≤ j → S i ≤ S j := by intro i j hij; rw [← hS]; exact rowStart_mono _ hij
  have htot : S A.m = A.nnz := by rw [← hS]; exact selRows_total h.wf h.perm
  let B := Csr.ofRows A.m A.n (selRows A ri) (A.val 0)
  have hB : B.WF := selRows_wf h.wf h.perm _
  have hBp : ∀ i, i ≤ B.m → m0 (.rowptr k2) (i : Int) = some ((B.ptr i : Int) + base) := by
    intro i hi; show _ = some ((rowStart (selRows A ri) i : Int) + base); rw [hS]; exact hrp i hi
  let len : Nat → Nat := fun i => A.ptr (ri i + 1) - A.ptr (ri i)
  refine rows_rule (n := (A.m : Int)) (Rng := CutRng (B.iptr base) T A.m) (lbRng hB base T hT)
    (Rp := fun a _ => a = .rowptr k2)
    (Wr := fun r => permRW k2 (S r.toNat) (len r.toNat) r.toNat)
    (Rr := fun r a x => permSrc k k2 a ∨ permRW k2 (S r.toNat) (len r.toNat) r.toNat a x)
    (Qr := fun r m => PermRowOk m k2 base A o sort ep cp m0 k (S r.toNat) r.toNat (ri r.toNat))
    (fun t ht => wp_lbPart (A := B) ht hB hBp) ?_ ?_ ?_ ?_
  · rintro r a x _ _ hw rfl
    rcases hw with ⟨hb | hb, _⟩ | ⟨hb | hb, _⟩ <;> simp at hb
  · rintro r r' a x h1 h2 h3 h4 hne hw hr
    rcases hr with hr | hr
    · rcases hw with hw | ⟨hb | hb, _⟩
      · exact not_seg_src h.hk hr _ _ _ hw
      · subst hb; simp [permSrc] at hr; exact h.hk hr.symm
      · subst hb; simp [permSrc] at hr
    · rcases hw with ⟨hb, hb1, hb2⟩ | ⟨hb, hb1⟩
      · rcases hr with ⟨hc, hc1, hc2⟩ | ⟨hc, hc1⟩
        · rcases Nat.lt_trichotomy r.toNat r'.toNat with hlt | he | hlt
          · have := hmono (r.toNat + 1) r'.toNat hlt
            have := hstep r.toNat (by omega)
            have hl : len r.toNat = A.ptr (ri r.toNat + 1) - A.ptr (ri r.toNat) := rfl
            omega
          · omega
          · have := hmono (r'.toNat + 1) r.toNat hlt
            have := hstep r'.toNat (by omega)
            have hl : len r'.toNat = A.ptr (ri r'.toNat + 1) - A.ptr (ri r'.toNat) := rfl
            omega
        · rcases hb with rfl | rfl <;> simp at hc
      · rcases hr with ⟨hc, hc1, hc2⟩ | ⟨hc, hc1⟩
        · rcases hb with rfl | rfl <;> simp at hc
        · omega
  · intro t r ht h1 h2
    obtain ⟨i, rfl⟩ := Int.eq_ofNat_of_zero_le h1
    have hi : i < A.m := by omega
    rw [Int.toNat_natCast]
    have hs := hstep i hi
    have hm1 := hmono (i + 1) A.m hi
    have hxx := h.ext.2.2 (ri i) (h.perm.1 i hi)
    refine wp_permRow h hi rfl (hrp i (by omega)) ?_ ?_ (fun _ _ hx => hx) (fun _ _ hx => hx) ?_ ?_ ?_ ?_
    · have := hrp (i + 1) (by omega)
      push_cast at this
      rw [this, hs]
      have hl : len i = A.ptr (ri i + 1) - A.ptr (ri i) := rfl
      exact congrArg some (by push_cast; omega)
    · intro hx
      rw [hxp hx i hi]
      exact congrArg some (by omega)
    · have hl : len i = A.ptr (ri i + 1) - A.ptr (ri i) := rfl
      have := hz.colidx; omega
    · intro hv
      have hl : len i = A.ptr (ri i + 1) - A.ptr (ri i) := rfl
      have := hz.values hv; omega
    · intro hv; have := hz.idiag hv; omega
    · intro hv; have := hz.diagptr hv; omega
  · intro u m hq hf
    refine Script.ok_done_of ⟨?_, ?_⟩
    · intro i hi
      obtain ⟨mt, ⟨L, l1, l2, l3, l4, l5, l6⟩, q2⟩ := hq i (by omega) (by omega)
      rw [Int.toNat_natCast] at l1 l2 l4 l5 l6 q2
      have hs := hstep i hi
      have hlen : (L ++ extRow A ep (ri i)).length = len i := by
        have hl : len i = A.ptr (ri i + 1) - A.ptr (ri i) := rfl
        have := h.ext.2.2 (ri i) (h.perm.1 i hi)
        rw [List.length_append, l1.length_eq, locRow_length h (h.perm.1 i hi), extRow_length]; omega
      refine ⟨L, l1, l2, l3, ?_, ?_, ?_⟩
      · refine l4.congr ?_ ?_
        · intro x h1 h2; exact q2 _ _ (Or.inr (Or.inl ⟨Or.inl rfl, h1, by rw [← hlen]; exact h2⟩))
        · intro x h1 h2; exact q2 _ _ (Or.inr (Or.inl ⟨Or.inr rfl, h1, by rw [← hlen]; exact h2⟩))
      · intro hid; rw [q2 _ _ (Or.inr (Or.inr ⟨Or.inl rfl, rfl⟩))]; exact l5 hid
      · intro hdp; rw [q2 _ _ (Or.inr (Or.inr ⟨Or.inr rfl, rfl⟩))]; exact l6 hdp
    · intro a h1 h2 h3 h4
      funext x
      refine hf a x ?_
      rintro r _ _ (⟨hb | hb, _⟩ | ⟨hb | hb, _⟩)
      · exact h1 hb
      · exact h2 hb
      · exact h3 hb
      · exact h4 hb

theorem PermHyp.transfer {m : Mem (CTy R)} (h : PermHyp m0 k k2 base nl A o hasRow sort ep ri cp)
    (hf : ∀ a, a ≠ .rowptr k2 → a ≠ .extptr k2 → m a = m0 a) : PermHyp m k k2 base nl A o hasRow sort ep ri cp := by
  have hk := h.hk
  refine ⟨hk, h.wf, ⟨?_, ?_⟩, ?_, ⟨?_, h.ext.2⟩, ⟨?_, h.sel.2⟩, h.perm, ?_, h.cpp, h.nle, h.loc, h.dg, ?_, h.noext, h.srt⟩
  · rw [hf _ (by simpa using hk) (by simp)]; exact h.pat.rowptr
  · rw [hf _ (by simp) (by simp)]; exact h.pat.colidx
  · intro hv; unfold HoldsVal; rw [hf _ (by simp) (by simp)]; exact h.val hv
  · rw [hf _ (by simp) (by simpa using hk)]; exact h.ext.1
  · rw [hf _ (by simp) (by simp)]; exact h.sel.1
  · rw [hf _ (by simp) (by simp)]; exact h.cpm
  · rw [hf _ (by simp) (by simp)]; exact h.idg

/-- The rows of the result as a matrix. -/
theorem permResult (h : PermHyp m0 k k2 base nl A o hasRow sort ep ri cp) {m : Mem (CTy R)}
    (hrp : ∀ i : Nat, i ≤ A.m → m (.rowptr k2) (i : Int) = some ((rowStart (selRows A ri) i : Int) + base))
    (hxp : o.extptr = true → ∀ i : Nat, i < A.m → m (.extptr k2) (i : Int) =
        some ((rowStart (selRows A ri) i : Int) + ep (ri i) - A.ptr (ri i) + base))
    (hrow : ∀ i, i < A.m → PermRowOk m k2 base A o sort ep cp m0 k (rowStart (selRows A ri) i) i (ri i)) :
    ∃ B : Csr R, B.m = A.m ∧ B.n = A.n ∧ B.WF ∧ HoldsPat m k2 base B ∧ (o.values = true → HoldsVal m k2 B) ∧
      ∀ i, i < A.m → ∃ L : List (Nat × R), B.row i = L ++ extRow A ep (ri i) ∧ L.Perm (locRow A ep cp (ri i)) ∧
        (sort = false → L = locRow A ep cp (ri i)) ∧ (sort = true → ColSorted L) ∧
        (o.extptr = true → m (.extptr k2) (i : Int) = some ((B.ptr i : Int) + L.length + base)) ∧
        (o.idiag = true → m (.idiag k2) (i : Int) = m0 (.idiag k) (ri i : Int)) ∧
        (o.diagptr = true → ∃ p : Nat, B.ptr i ≤ p ∧ p < B.ptr i + L.length ∧ B.col p = cp (ri i) ∧
          (∀ p', B.ptr i ≤ p' → p' < p → B.col p' ≠ cp (ri i)) ∧ m (.diagptr k2) (i : Int) = some ((p : Int) + base)) := by
  choose! L l1 l2 l3 l4 l5 l6 using hrow
  let rows : Nat → List (Nat × R) := fun i => L i ++ extRow A ep (ri i)
  have hxx : ∀ i, i < A.m → _ := fun i hi => h.ext.2.2 (ri i) (h.perm.1 i hi)
  have hlen : ∀ i, i < A.m → (rows i).length = (selRows A ri i).length := by
    intro i hi
    have := hxx i hi
    show (L i ++ extRow A ep (ri i)).length = (A.row (ri i)).length
    rw [List.length_append, (l1 i hi).length_eq, locRow_length h (h.perm.1 i hi), extRow_length, Csr.row_length]; omega
  have hst : ∀ i, i ≤ A.m → rowStart rows i = rowStart (selRows A ri) i := by
    intro i
    induction i with
    | zero => intro _; rfl
    | succ i ih => intro hi; rw [rowStart_succ, rowStart_succ, ih (by omega), hlen i hi]
  let B := Csr.ofRows A.m A.n rows (A.val 0)
  have hrowB : ∀ i, i < A.m → B.row i = rows i := fun i hi => Csr.ofRows_row hi
  have hcol : ∀ i x y, i < A.m → (L i)[x]? = some y → B.col (B.ptr i + x) = y.1 := by
    intro i x y hi hy
    have hx : x < (L i).length := by
      by_contra hc; rw [List.getElem?_eq_none (by omega)] at hy; cases hy
    have hx2 : x < (rows i).length := by show x < (L i ++ _).length; rw [List.length_append]; omega
    have : B.col (B.ptr i + x) = (rows i)[x].1 := Csr.ofRows_col hi hx2
    rw [this]
    show ((L i ++ extRow A ep (ri i))[x]).1 = _
    rw [List.getElem_append_left hx]
    rw [List.getElem?_eq_getElem hx] at hy
    cases hy; rfl
  refine ⟨B, rfl, rfl, ?_, ⟨?_, ?_⟩, ?_, ?_⟩
  · refine Csr.ofRows_wf ?_
    intro i hi x hx
    have hrm := h.perm.1 i hi
    rcases List.mem_append.1 hx with hx | hx
    · have hx := (l1 i hi).mem_iff.1 hx
      obtain ⟨q, hq⟩ := List.getElem?_of_mem hx
      have hq1 : q < (locRow A ep cp (ri i)).length := by
        by_contra hc; rw [List.getElem?_eq_none (by omega)] at hq; cases hq
      rw [locRow_length h hrm] at hq1
      rw [locRow_get h hrm hq1] at hq
      cases hq
      have := h.cpp.1 _ (h.loc (ri i) (A.ptr (ri i) + q) hrm (by omega) (by omega))
      have := h.nle
      show cp (A.col (A.ptr (ri i) + q)) < A.n
      omega
    · have hx : x ∈ A.row (ri i) := List.mem_of_mem_drop hx
      obtain ⟨j, h1, h2, rfl⟩ := Csr.mem_row.1 hx
      have := h.wf.ptr_le_nnz (i := ri i + 1) hrm
      exact h.wf.col_lt j (by omega)
  · intro i hi; show _ = some ((rowStart rows i : Int) + base); rw [hst i hi]; exact hrp i hi
  · intro j hj
    obtain ⟨i, q, g1, g2, rfl⟩ := rowStart_find rows hj
    rw [show B.col _ = _ from Csr.ofRows_col g1 g2]
    have := (l4 i g1 q _ (List.getElem?_eq_getElem g2)).1
    rw [hst i (Nat.le_of_lt g1)]
    push_cast; exact this
  · intro hv j hj
    obtain ⟨i, q, g1, g2, rfl⟩ := rowStart_find rows hj
    rw [show B.val _ = _ from Csr.ofRows_val g1 g2]
    have := (l4 i g1 q _ (List.getElem?_eq_getElem g2)).2 hv
    rw [hst i (Nat.le_of_lt g1)]
    push_cast; exact this
  · intro i hi
    have hp : B.ptr i = rowStart (selRows A ri) i := hst i (by omega)
    refine ⟨L i, hrowB i hi, l1 i hi, l2 i hi, l3 i hi, ?_, l5 i hi, ?_⟩
    · intro hx
      rw [hxp hx i hi, hp, (l1 i hi).length_eq, locRow_length h (h.perm.1 i hi)]
      have := hxx i hi
      exact congrArg some (by omega)
    · intro hd
      obtain ⟨x, ⟨y, hy, hyc⟩, hmin, hm⟩ := l6 i hi hd
      have hx : x < (L i).length := by
        by_contra hc; rw [List.getElem?_eq_none (by omega)] at hy; cases hy
      refine ⟨B.ptr i + x, by omega, by omega, by rw [hcol i x y hi hy]; exact hyc, ?_, ?_⟩
      · intro p' h1 h2
        have hp' : p' - B.ptr i < (L i).length := by omega
        have := hcol i (p' - B.ptr i) _ hi (List.getElem?_eq_getElem hp')
        rw [show B.ptr i + (p' - B.ptr i) = p' by omega] at this
        rw [this]
        exact hmin (p' - B.ptr i) (by omega) _ (List.getElem?_eq_getElem hp')
      · rw [hm, hp]; push_cast; rfl

/-- permute. -/
theorem permute_ok {dbg : Bool} (htol : Races.tol (CArr.rowptr k2) (A.m : Int))
    (h : PermHyp m0 k k2 base nl A o hasRow sort ep ri cp) (hT : 1 ≤ T) (hb : base = 0 ∨ base = 1)
    (hd : dbg = true → hasRow = true ∨ A.m = 0) :
    (permute sz T k k2 A.m o dbg hasRow sort).Ok m0 (fun _ m =>
      (∃ B : Csr R, B.m = A.m ∧ B.n = A.n ∧ B.WF ∧ HoldsPat m k2 base B ∧ (o.values = true → HoldsVal m k2 B) ∧
      ∀ i, i < A.m → ∃ L : List (Nat × R), B.row i = L ++ extRow A ep (ri i) ∧ L.Perm (locRow A ep cp (ri i)) ∧
        (sort = false → L = locRow A ep cp (ri i)) ∧ (sort = true → ColSorted L) ∧
        (o.extptr = true → m (.extptr k2) (i : Int) = some ((B.ptr i : Int) + L.length + base)) ∧
        (o.idiag = true → m (.idiag k2) (i : Int) = m0 (.idiag k) (ri i : Int)) ∧
        (o.diagptr = true → ∃ p : Nat, B.ptr i ≤ p ∧ p < B.ptr i + L.length ∧ B.col p = cp (ri i) ∧
          (∀ p', B.ptr i ≤ p' → p' < p → B.col p' ≠ cp (ri i)) ∧ m (.diagptr k2) (i : Int) = some ((p : Int) + base))) ∧
      ∀ a, ¬ a.ofObj k2 → m a = m0 a) := by
  unfold permute
  refine seq_rule ?_
  rw [wp_read]
  refine ⟨trivial, _, h.pat.rowptr A.m (Nat.le_refl _), ?_⟩
  dsimp only
  rw [Script.ok_bind]
  have hsz : PermSizes (permSize sz k2 A.m ((A.ptr A.m : Int) + base) o) k2 A o := by
    have : A.ptr A.m = A.nnz := rfl
    refine ⟨?_, ?_, ?_, ?_, ?_, ?_⟩
    · simp [permSize]
    · simp [permSize]; omega
    · intro hv; simp [permSize, hv]; omega
    · intro hv; simp [permSize, hv]
    · intro hv; simp [permSize, hv]
    · intro hv; simp [permSize, hv]
  refine Script.Ok.mono (permuteRowptr_ok htol hT h.hk h.wf h.pat.rowptr h.ext h.sel h.perm hd hsz.rowptr hsz.extptr) ?_
  rintro _ m1 ⟨h1, h2, h3⟩
  have hp1 := h.transfer h3
  have hmain := permuteMainB_ok hp1 hT hsz h1 h2
  have hfin : ∀ m, (∀ i, i < A.m → PermRowOk m k2 base A o sort ep cp m1 k (rowStart (selRows A ri) i) i (ri i)) ∧
      (∀ a, a ≠ .colidx k2 → a ≠ .values k2 → a ≠ .idiag k2 → a ≠ .diagptr k2 → m a = m1 a) → _ :=
    fun m hm => permResult (m := m) hp1 (by rw [hm.2 _ (by simp) (by simp) (by simp) (by simp)]; exact h1)
      (by rw [hm.2 _ (by simp) (by simp) (by simp) (by simp)]; exact h2) hm.1
  have hwrap : ∀ (m : Mem (CTy R)), (∀ i, i < A.m → PermRowOk m k2 base A o sort ep cp m1 k (rowStart (selRows A ri) i) i (ri i)) ∧
      (∀ a, a ≠ .colidx k2 → a ≠ .values k2 → a ≠ .idiag k2 → a ≠ .diagptr k2 → m a = m1 a) → _ := fun m hm => And.intro (hfin m hm) (show ∀ a : CArr, ¬ a.ofObj k2 → m a = m0 a by
    intro a ha
    rw [hm.2 a, h3 a]
    all_goals (rintro rfl; exact ha (by simp [CArr.ofObj])))
  have hid : m1 (.idiag k) = m0 (.idiag k) := h3 _ (by simp) (by simp)
  rw [hid] at hwrap
  unfold permuteMain
  refine seq_rule ?_
  rw [wp_read]
  refine ⟨trivial, (base : Int), ?_, ?_⟩
  · have := hp1.pat.rowptr 0 (by omega)
    rw [h.wf.ptr_zero] at this
    simpa using this
  rcases hb with rfl | rfl
  · rw [if_pos (by simp)]
    exact Script.Ok.mono hmain (fun _ m hm => hwrap m hm)
  · rw [if_neg (by simp)]
    refine seq_rule ?_
    rw [wp_assert]
    exact ⟨by simp, Script.Ok.mono hmain (fun _ m hm => hwrap m hm)⟩

end

end SpMP
