import Verif.PermuteRows
/-
Proofs about permuteColsInPlace_ (/repo/Permute.cpp:114-222) and permuteColsInPlace (224-233).
-/

namespace SpMP
open Spec

set_option linter.unusedSectionVars false

variable {R : Type} [Races CArr]

/-- What the caller of permuteColsInPlace provides: `nl` local columns, relabelled by `cp`. -/
structure PermColsHyp (m : Mem (CTy R)) (k base nl : Nat) (A : Csr R) (o : Opt) (dbg : Bool) (ep cp : Nat → Nat) : Prop where
  wf : A.WF
  pat : HoldsPat m k base A
  val : o.values = true → HoldsVal m k A
  ext : HoldsExt m k base A o.extptr ep
  cpm : ∀ c : Nat, c < nl → m (.itmp 1) (c : Int) = some (cp c : Int)
  cpp : IsPermFn nl cp
  nle : nl ≤ A.n
  loc : ∀ i j, i < A.m → A.ptr i ≤ j → j < ep i → A.col j < nl
  dg : o.diagptr = true → ∀ i, i < A.m → ∃ j, A.ptr i ≤ j ∧ j < ep i ∧ A.col j = i
  dbg0 : dbg = true → base = 0 ∧ nl ≤ A.m
  srt : o.diagptr = false ∨ base = 1 → o.values = true

/-- What one row holds afterwards; `L` is its local part. -/
def PermColsRow (A : Csr R) (o : Opt) (ep cp : Nat → Nat) (i : Nat) (L : List (Nat × R)) (dptr : Option Int) (base : Nat) : Prop :=
  (o.diagptr = false → L.Perm (locRow A ep cp i) ∧ ColSorted L) ∧
  (o.diagptr = true → ∃ x L1 L2 v, (A.row i)[x]? = some (i, v) ∧ (∀ z, z < x → ∀ y, (A.row i)[z]? = some y → y.1 ≠ i) ∧
    L = L1 ++ (cp i, v) :: L2 ∧ L1.Perm ((locRow A ep cp i).take x) ∧ ColSorted L1 ∧
    L2.Perm ((locRow A ep cp i).drop (x + 1)) ∧ ColSorted L2 ∧ dptr = some (((A.ptr i + x : Nat) : Int) + base))

section
variable {sz : CArr → Int} {W Rd : CArr → Int → Prop} {k base nl : Nat} {A : Csr R} {o : Opt} {dbg : Bool} {ep cp : Nat → Nat}
  {m0 : Mem (CTy R)}

theorem locRow_length' {r : Nat} (hx : A.ptr r ≤ ep r ∧ ep r ≤ A.ptr (r + 1)) : (locRow A ep cp r).length = ep r - A.ptr r := by
  unfold locRow; rw [List.length_map, List.length_take, Csr.row_length]; omega

theorem locRow_get' {r q : Nat} (hx : A.ptr r ≤ ep r ∧ ep r ≤ A.ptr (r + 1)) (hq : q < ep r - A.ptr r) :
    (locRow A ep cp r)[q]? = some (cp (A.col (A.ptr r + q)), A.val (A.ptr r + q)) := by
  unfold locRow
  rw [List.getElem?_map, List.getElem?_take, if_pos hq, List.getElem?_eq_getElem (by rw [Csr.row_length]; omega), Csr.row_getElem]
  rfl

theorem RowAtV.split {m : Mem (CTy R)} {s : Nat} {vals : Bool} {l1 l2 : List (Nat × R)} :
    RowAtV m k base vals s (l1 ++ l2) ↔ RowAtV m k base vals s l1 ∧ RowAtV m k base vals (s + l1.length) l2 := by
  constructor
  · intro h
    refine ⟨?_, ?_⟩
    · intro x y hxy
      have hx : x < l1.length := by
        by_contra hc; rw [List.getElem?_eq_none (by omega)] at hxy; cases hxy
      exact h x y (by rw [List.getElem?_append_left hx]; exact hxy)
    · intro x y hxy
      have := h (l1.length + x) y (by rw [List.getElem?_append_right (by omega), Nat.add_sub_cancel_left]; exact hxy)
      have e : (s : Int) + ((l1.length + x : Nat) : Int) = ((s + l1.length : Nat) : Int) + x := by omega
      rw [e] at this
      exact this
  · rintro ⟨h1, h2⟩ x y hxy
    by_cases hx : x < l1.length
    · rw [List.getElem?_append_left hx] at hxy; exact h1 x y hxy
    · rw [List.getElem?_append_right (by omega)] at hxy
      have := h2 _ y hxy
      have e : ((s + l1.length : Nat) : Int) + ((x - l1.length : Nat) : Int) = (s : Int) + x := by omega
      rw [e] at this
      exact this

/-- Cells of row `i` that permuteColsInPlace_ uses. -/
def colsRW (k : Nat) (A : Csr R) (ep : Nat → Nat) (i : Nat) (a : CArr) (x : Int) : Prop :=
  SegCell k (A.ptr i) (ep i - A.ptr i) a x ∨ (a = .diagptr k ∧ x = (i : Int))

/-- Arrays it only reads. -/
def colsSrc (k : Nat) (a : CArr) : Prop := a = .rowptr k ∨ a = .extptr k ∨ a = .itmp 1

theorem wp_permColsRow (h : PermColsHyp m0 k base nl A o dbg ep cp) {i : Nat} (hi : i < A.m)
    (hR : ∀ a x, colsSrc k a ∨ colsRW k A ep i a x → Rd a x) (hW : ∀ a x, colsRW k A ep i a x → W a x)
    (hz : (A.nnz : Int) ≤ sz (.colidx k)) (hz2 : o.values = true → (A.nnz : Int) ≤ sz (.values k))
    (hz3 : o.diagptr = true → (A.m : Int) ≤ sz (.diagptr k)) :
    wp sz W Rd (permColsRow k base A.m o dbg (i : Int)) m0 (fun _ m => ∃ L : List (Nat × R), L.length = ep i - A.ptr i ∧
      RowAtV m k base o.values (A.ptr i) L ∧ PermColsRow A o ep cp i L (m (.diagptr k) (i : Int)) base) := by
  have hx := h.ext.2.2 i hi
  have hnn := h.wf.ptr_le_nnz (i := i + 1) (by omega)
  have hll := locRow_length' (cp := cp) hx
  have hsrc : ∀ {m : Mem (CTy R)} {lo hi' : Int}, (∀ a y, ¬ (a = .colidx k ∧ lo ≤ y ∧ y < hi') → m a y = m0 a y) →
      ∀ a y, a ≠ .colidx k → m a y = m0 a y := fun hm a y ha => hm a y (fun hc => ha hc.1)
  unfold permColsRow
  refine wp_rd _ (hR _ _ (Or.inl (by simp [colsSrc]))) (h.pat.rowptr i (by omega)) ?_
  rw [wp_bind]
  refine wp_extOf' h.pat h.ext (fun x => hR _ _ (Or.inl (by simp [colsSrc]))) (fun x => hR _ _ (Or.inl (by simp [colsSrc]))) hi ?_
  rw [wp_bind]
  refine wp_forN (b := base) (lo := A.ptr i) (hi := ep i)
    (fun q d m' => ((∃ j, A.ptr i ≤ j ∧ j < q ∧ A.col j = i) → d = (cp i : Int) + base) ∧
      (∀ j : Nat, A.ptr i ≤ j → j < q → m' (.colidx k) (j : Int) = some ((cp (A.col j) : Int) + base)) ∧
      (∀ a y, ¬ (a = .colidx k ∧ (A.ptr i : Int) ≤ y ∧ y < (q : Int)) → m' a y = m0 a y)) hx.1 ?_ ?_ ?_ rfl rfl
  · exact ⟨by rintro ⟨j, h1, h2, _⟩; omega, by intro j h1 h2; omega, fun _ _ _ => rfl⟩
  · rintro q d m1 h1 h2 ⟨i1, i2, i3⟩
    have hcl := h.loc i q hi h1 h2
    have hcp := h.cpp.1 _ hcl
    rw [Int.add_sub_cancel]
    have hseg : SegCell k (A.ptr i) (ep i - A.ptr i) (.colidx k) (q : Int) := ⟨Or.inl rfl, by omega, by omega⟩
    refine wp_rd _ (hR _ _ (Or.inr (Or.inl hseg))) (by rw [i3 _ _ (by rintro ⟨_, _, hc⟩; omega)]; exact h.pat.colidx q (by omega)) ?_
    rw [wp_bind]
    have hass : ∀ (c : Int) (Q : Unit → Mem (CTy R) → Prop), (dbg = true → 0 ≤ c ∧ c < A.m) → Q () m1 →
        wp sz W Rd (if dbg = true then Prog.assert (ty := CTy R) (0 ≤ c ∧ c < A.m) else pure () : Prog (CTy R) Unit) m1 Q := by
      intro c Q hc hQ
      by_cases hd : dbg = true
      · rw [if_pos hd, wp_assert]; exact ⟨hc hd, hQ⟩
      · rw [if_neg hd, wp_pure]; exact hQ
    refine hass _ _ (by intro hd; have := h.dbg0 hd; omega) ?_
    have hit : m1 (.itmp 1) ((A.col q : Int) + base - base) = some (cp (A.col q) : Int) := by
      rw [hsrc i3 _ _ (by simp), Int.add_sub_cancel]; exact h.cpm _ hcl
    refine wp_rd _ (hR _ _ (Or.inl (by simp [colsSrc]))) hit ?_
    refine wp_wr (hW _ _ (Or.inl hseg)) ⟨by omega, by omega⟩ ?_
    rw [wp_bind]
    have hnew : (∀ j : Nat, A.ptr i ≤ j → j < q + 1 → (m1.set (.colidx k) (q : Int) ((cp (A.col q) : Int) + base)) (.colidx k) (j : Int)
          = some ((cp (A.col j) : Int) + base)) ∧
        (∀ a y, ¬ (a = .colidx k ∧ (A.ptr i : Int) ≤ y ∧ y < ((q + 1 : Nat) : Int)) →
          (m1.set (.colidx k) (q : Int) ((cp (A.col q) : Int) + base)) a y = m0 a y) := by
      refine ⟨?_, ?_⟩
      · intro j g1 g2
        by_cases hj : j = q
        · subst hj; rw [Mem.get_same]
        · rw [Mem.get_ne _ _ _ _ _ (by omega)]; exact i2 j g1 (by omega)
      · intro a y hay
        by_cases ha : a = .colidx k
        · subst ha
          rw [Mem.get_ne _ _ _ _ _ (by rintro rfl; exact hay ⟨rfl, by omega, by omega⟩)]
          exact i3 _ _ (fun hc => hay ⟨rfl, hc.2.1, by omega⟩)
        · rw [Mem.set_other _ _ _ _ _ ha]; exact i3 _ _ (fun hc => ha hc.1)
    have hass2 : ∀ (c : Int) (m2 : Mem (CTy R)) (Q : Unit → Mem (CTy R) → Prop), (dbg = true → 0 ≤ c ∧ c < A.m) → Q () m2 →
        wp sz W Rd (if dbg = true then Prog.assert (ty := CTy R) (0 ≤ c ∧ c < A.m) else pure () : Prog (CTy R) Unit) m2 Q := by
      intro c m2 Q hc hQ
      by_cases hd : dbg = true
      · rw [if_pos hd, wp_assert]; exact ⟨hc hd, hQ⟩
      · rw [if_neg hd, wp_pure]; exact hQ
    refine hass2 _ _ _ (by intro hd; have := h.dbg0 hd; omega) ?_
    by_cases hci : A.col q = i
    · have q1 : (A.col q : Int) + base = (i : Int) + base := by omega
      rw [if_pos q1]
      refine wp_rd _ (hR _ _ (Or.inl (by simp [colsSrc]))) (by rw [Mem.set_other _ _ _ _ _ (by simp)]; exact hit) ?_
      rw [wp_pure]
      exact ⟨fun _ => by rw [hci], hnew⟩
    · have q1 : ¬ (A.col q : Int) + base = (i : Int) + base := by omega
      rw [if_neg q1, wp_pure]
      refine ⟨?_, hnew⟩
      rintro ⟨j, g1, g2, g3⟩
      refine i1 ⟨j, g1, ?_, g3⟩
      rcases Nat.lt_succ_iff_lt_or_eq.1 g2 with hlt | he
      · exact hlt
      · subst he; exact absurd g3 hci
  · rintro d m1 ⟨i1, i2, i3⟩
    have hrow : RowAtV m1 k base o.values (A.ptr i) (locRow A ep cp i) := by
      intro x y hxy
      have hxl : x < ep i - A.ptr i := by
        by_contra hc; rw [List.getElem?_eq_none (by omega)] at hxy; cases hxy
      rw [locRow_get' hx hxl] at hxy
      cases hxy
      refine ⟨?_, ?_⟩
      · have := i2 (A.ptr i + x) (by omega) (by omega)
        push_cast at this; exact this
      · intro hv
        rw [hsrc i3 _ _ (by simp)]
        have := h.val hv (A.ptr i + x) (by omega)
        push_cast at this; exact this
    have hsegR : ∀ s n, A.ptr i ≤ s → s + n ≤ ep i → ∀ a x, SegCell k s n a x → colsRW k A ep i a x := by
      rintro s n g1 g2 a x ⟨ha, g3, g4⟩
      exact Or.inl ⟨ha, by omega, by omega⟩
    by_cases hdp : o.diagptr = true
    · rw [if_pos hdp]
      obtain ⟨jd, jd1, jd2, jd3⟩ := h.dg hdp i hi
      have hd := i1 ⟨jd, jd1, jd2, jd3⟩
      subst hd
      rw [wp_bind]
      have e1 : (A.ptr i : Int) + base - base = A.ptr i := by omega
      have e2 : ((ep i : Int) + base - ((A.ptr i : Int) + base)).toNat = (locRow A ep cp i).length := by omega
      have e1' : ((A.ptr i : Int) + base : Int) - base = A.ptr i := e1
      rw [e2, e1']
      refine wp_storeDiag (vals := o.values) (by have := hz3 hdp; omega) (hW _ _ (Or.inr ⟨rfl, rfl⟩)) (locRow A ep cp i) (A.ptr i) hrow ?_ ?_ ?_
      · intro a x hs; exact hR _ _ (Or.inr (hsegR _ _ (by omega) (by omega) _ _ hs))
      · refine ⟨(cp (A.col jd), A.val jd), ?_, by rw [jd3]⟩
        have := locRow_get' (A := A) (ep := ep) (cp := cp) (r := i) (q := jd - A.ptr i) hx (by omega)
        rw [show A.ptr i + (jd - A.ptr i) = jd by omega] at this
        exact List.mem_of_getElem? this
      · rintro x ⟨y, hy, hyc⟩ hmin
        have hxl : x < ep i - A.ptr i := by
          by_contra hc; rw [List.getElem?_eq_none (by omega)] at hy; cases hy
        have hget : ∀ z, z < ep i - A.ptr i → (A.row i)[z]? = some (A.col (A.ptr i + z), A.val (A.ptr i + z)) := by
          intro z hz
          rw [List.getElem?_eq_getElem (by rw [Csr.row_length]; omega), Csr.row_getElem]
        have hinj : ∀ z, z < ep i - A.ptr i → cp (A.col (A.ptr i + z)) = cp i → A.col (A.ptr i + z) = i := by
          intro z hz he
          have hjl : i < nl := by have := h.loc i jd hi jd1 jd2; omega
          exact h.cpp.2 _ _ (h.loc i _ hi (by omega) (by omega)) hjl he
        rw [locRow_get' hx hxl] at hy
        cases hy
        have hxi := hinj x hxl hyc
        generalize hm2 : m1.set (.diagptr k) (i : Int) ((A.ptr i : Int) + x + base) = m2
        have hrow2 : RowAtV m2 k base o.values (A.ptr i) (locRow A ep cp i) := by
          subst hm2
          refine hrow.congr ?_ ?_ <;> (intro z _ _; rw [Mem.set_other _ _ _ _ _ (by simp)])
        have hdv : m2 (.diagptr k) (i : Int) = some ((A.ptr i : Int) + x + base) := by subst hm2; exact Mem.get_same _ _ _ _
        refine wp_rd _ (hR _ _ (Or.inr (Or.inr ⟨rfl, rfl⟩))) hdv ?_
        dsimp only
        have hvals : (o.values || decide (base = 1)) = o.values := by
          by_cases hb : base = 1
          · rw [h.srt (Or.inr hb)]; rfl
          · rw [decide_eq_false hb, Bool.or_false]
        rw [hvals, wp_bind]
        have hsplit : locRow A ep cp i = (locRow A ep cp i).take x ++ ([(cp i, A.val (A.ptr i + x))] ++ (locRow A ep cp i).drop (x + 1)) := by
          conv_lhs => rw [← List.take_append_drop x (locRow A ep cp i)]
          congr 1
          rw [List.drop_eq_getElem_cons (by omega)]
          have := locRow_get' (A := A) (ep := ep) (cp := cp) hx hxl
          rw [List.getElem?_eq_getElem (by omega)] at this
          rw [Option.some.inj this, hxi]; rfl
        have ht : ((locRow A ep cp i).take x).length = x := by rw [List.length_take]; omega
        have hdl : ((locRow A ep cp i).drop (x + 1)).length = ep i - A.ptr i - (x + 1) := by rw [List.length_drop]; omega
        rw [hsplit, RowAtV.split, RowAtV.split] at hrow2
        obtain ⟨r1, r2, r3⟩ := hrow2
        rw [ht] at r2 r3
        rw [List.length_singleton] at r3
        refine wp_insSort (s := A.ptr i) (base := base) r1 ?_ ?_ (by rw [ht]; omega) (by intro hv; have := hz2 hv; rw [ht]; omega) (by rw [ht]; omega) ?_
        · rw [ht]; intro a z hs; exact hW _ _ (hsegR _ _ (by omega) (by omega) _ _ hs)
        · rw [ht]; intro a z hs; exact hR _ _ (Or.inr (hsegR _ _ (by omega) (by omega) _ _ hs))
        intro m3 L1 p1 p2 p3 p4
        rw [ht] at p4
        have hL1 : L1.length = x := by rw [p1.length_eq, ht]
        have r2' : RowAtV m3 k base o.values (A.ptr i + x) [(cp i, A.val (A.ptr i + x))] := by
          refine r2.congr ?_ ?_ <;> (intro z g1 g2; rw [p4 _ _ (by rintro ⟨_, _, hc⟩; omega)])
        have r3' : RowAtV m3 k base o.values (A.ptr i + x + 1) ((locRow A ep cp i).drop (x + 1)) := by
          refine r3.congr ?_ ?_ <;> (intro z g1 g2; rw [p4 _ _ (by rintro ⟨_, _, hc⟩; omega)])
        have e5 : ((A.ptr i : Int) + x + base : Int) + 1 - base = ((A.ptr i + x + 1 : Nat) : Int) := by omega
        rw [e5]
        refine wp_insSort (s := A.ptr i + x + 1) (base := base) r3' ?_ ?_ (by rw [hdl]; omega) (by intro hv; have := hz2 hv; rw [hdl]; omega)
          (by rw [hdl]; omega) ?_
        · rw [hdl]; intro a z hs; exact hW _ _ (hsegR _ _ (by omega) (by omega) _ _ hs)
        · rw [hdl]; intro a z hs; exact hR _ _ (Or.inr (hsegR _ _ (by omega) (by omega) _ _ hs))
        intro m4 L2 s1 s2 s3 s4
        rw [hdl] at s4
        have hL2 : L2.length = ep i - A.ptr i - (x + 1) := by rw [s1.length_eq, hdl]
        refine ⟨L1 ++ ([(cp i, A.val (A.ptr i + x))] ++ L2), by simp; omega, ?_, by simp [hdp], ?_⟩
        · rw [RowAtV.split, RowAtV.split, hL1, List.length_singleton]
          refine ⟨?_, ?_, s3⟩
          · refine p3.congr ?_ ?_ <;> (intro z g1 g2; rw [s4 _ _ (by rintro ⟨_, hc, _⟩; rw [hL1] at g2; omega)])
          · refine r2'.congr ?_ ?_ <;> (intro z g1 g2; rw [List.length_singleton] at g2; rw [s4 _ _ (by rintro ⟨_, hc, _⟩; omega)])
        · intro _
          refine ⟨x, L1, L2, A.val (A.ptr i + x), ?_, ?_, by simp, p1, p2, s1, s2, ?_⟩
          · rw [hget x hxl, hxi]
          · intro z hz y hy
            rw [hget z (by omega)] at hy
            cases hy
            intro hc
            refine hmin z hz _ (locRow_get' hx (by omega)) ?_
            show cp (A.col (A.ptr i + z)) = cp i
            exact congrArg cp hc
          · rw [s4 _ _ (by rintro ⟨hc | hc, _⟩ <;> simp at hc), p4 _ _ (by rintro ⟨hc | hc, _⟩ <;> simp at hc), hdv]
            exact congrArg some (by omega)
    · rw [if_neg hdp]
      have hv := h.srt (Or.inl (by simpa using hdp))
      have e1' : ((A.ptr i : Int) + base : Int) - base = A.ptr i := by omega
      rw [e1']
      rw [hv] at hrow
      refine wp_insSort (s := A.ptr i) (base := base) hrow ?_ ?_ (by rw [hll]; omega) (by intro _; have := hz2 hv; rw [hll]; omega) (by rw [hll]; omega) ?_
      · rw [hll]; intro a z hs; exact hW _ _ (hsegR _ _ (by omega) (by omega) _ _ hs)
      · rw [hll]; intro a z hs; exact hR _ _ (Or.inr (hsegR _ _ (by omega) (by omega) _ _ hs))
      intro m4 L2 s1 s2 s3 s4
      refine ⟨L2, by rw [s1.length_eq, hll], by rw [hv]; exact s3, fun _ => ⟨s1, s2⟩, fun hc => absurd hc hdp⟩

/-- permuteColsInPlace. -/
theorem permuteColsInPlace_ok (h : PermColsHyp m0 k base nl A o dbg ep cp) (hb : base = 0 ∨ base = 1)
    (hz : (A.nnz : Int) ≤ sz (.colidx k)) (hz2 : o.values = true → (A.nnz : Int) ≤ sz (.values k))
    (hz3 : o.diagptr = true → (A.m : Int) ≤ sz (.diagptr k)) :
    (permuteColsInPlace sz k A.m o dbg).Ok m0 (fun _ m =>
      (∃ B : Csr R, B.m = A.m ∧ B.n = A.n ∧ B.WF ∧ HoldsPat m k base B ∧ (o.values = true → HoldsVal m k B) ∧
        (∀ i, i ≤ A.m → B.ptr i = A.ptr i) ∧
        ∀ i, i < A.m → ∃ L : List (Nat × R), B.row i = L ++ extRow A ep i ∧
          PermColsRow A o ep cp i L (m (.diagptr k) (i : Int)) base) ∧
      ∀ a, a ≠ .colidx k → a ≠ .values k → a ≠ .diagptr k → m a = m0 a) := by
  have hphase : (permuteColsInPlaceB sz k base A.m o dbg).Ok m0 (fun _ m =>
      (∀ i, i < A.m → ∃ L : List (Nat × R), L.length = ep i - A.ptr i ∧
        RowAtV m k base o.values (A.ptr i) (L ++ extRow A ep i) ∧ PermColsRow A o ep cp i L (m (.diagptr k) (i : Int)) base) ∧
      ∀ a, a ≠ .colidx k → a ≠ .values k → a ≠ .diagptr k → m a = m0 a) := by
    unfold permuteColsInPlaceB
    have hdis : ∀ t u : Nat, t < A.m → u < A.m → t ≠ u → A.ptr (t + 1) ≤ A.ptr u ∨ A.ptr (u + 1) ≤ A.ptr t := by
      intro t u ht hu hne
      rcases Nat.lt_or_gt_of_ne hne with hlt | hlt
      · exact Or.inl (h.wf.ptr_mono hlt (by omega))
      · exact Or.inr (h.wf.ptr_mono hlt (by omega))
    refine par_rule (W := fun i => colsRW k A ep i) (R := fun i a x => colsSrc k a ∨ colsRW k A ep i a x)
      (Q := fun i _ m => ∃ L : List (Nat × R), L.length = ep i - A.ptr i ∧
        RowAtV m k base o.values (A.ptr i) L ∧ PermColsRow A o ep cp i L (m (.diagptr k) (i : Int)) base) ?_ ?_ ?_
    · rintro t u a x ht hu hne hw (hr | hr)
      · rcases hw with ⟨hc | hc, _⟩ | ⟨hc, _⟩ <;> subst hc <;> simp [colsSrc] at hr
      · have h1 := h.ext.2.2 t ht
        have h2 := h.ext.2.2 u hu
        have h3 := hdis t u ht hu hne
        rcases hw with ⟨hc, c1, c2⟩ | ⟨hc, c1⟩ <;> rcases hr with ⟨hd, d1, d2⟩ | ⟨hd, d1⟩
        · omega
        · subst hd; rcases hc with hc | hc <;> simp at hc
        · subst hc; rcases hd with hc | hc <;> simp at hc
        · omega
    · intro i hi
      exact wp_permColsRow h hi (fun _ _ hx => hx) (fun _ _ hx => hx) hz hz2 hz3
    · intro u m hq hf
      refine Script.ok_done_of ⟨?_, ?_⟩
      · intro i hi
        obtain ⟨mt, ⟨L, l1, l2, l3⟩, q2⟩ := hq i hi
        have hx := h.ext.2.2 i hi
        have hnn := h.wf.ptr_le_nnz (i := i + 1) (by omega)
        refine ⟨L, l1, RowAtV.split.2 ⟨?_, ?_⟩, ?_⟩
        · refine l2.congr ?_ ?_
          · intro x g1 g2; exact q2 _ _ (Or.inr (Or.inl ⟨Or.inl rfl, g1, by omega⟩))
          · intro x g1 g2; exact q2 _ _ (Or.inr (Or.inl ⟨Or.inr rfl, g1, by omega⟩))
        · intro x y hxy
          have hxl : ep i - A.ptr i + x < A.ptr (i + 1) - A.ptr i := by
            by_contra hc; rw [List.getElem?_eq_none (by rw [extRow_length]; omega)] at hxy; cases hxy
          rw [extRow_get hxl] at hxy
          cases hxy
          have hfr : ∀ a, (a = .colidx k ∨ a = .values k) → m a (((A.ptr i + L.length : Nat) : Int) + x) = m0 a (((A.ptr i + L.length : Nat) : Int) + x) := by
            intro a ha
            refine hf _ _ ?_
            rintro t ht (⟨_, g1, g2⟩ | ⟨hc, _⟩)
            · have h1 := h.ext.2.2 t ht
              by_cases hti : t = i
              · subst hti; omega
              · have := hdis t i ht hi hti; omega
            · subst hc; rcases ha with ha | ha <;> simp at ha
          rw [hfr _ (Or.inl rfl), hfr _ (Or.inr rfl)]
          have e : ((A.ptr i + L.length : Nat) : Int) + x = ((ep i + x : Nat) : Int) := by omega
          have e' : A.ptr i + (ep i - A.ptr i) + x = ep i + x := by omega
          rw [e]
          simp only [e']
          exact ⟨h.pat.colidx (ep i + x) (by omega), fun hv => h.val hv (ep i + x) (by omega)⟩
        · rw [q2 _ _ (Or.inr (Or.inr ⟨rfl, rfl⟩))]; exact l3
      · intro a h1 h2 h3
        funext x
        refine hf a x ?_
        rintro t _ (⟨hc | hc, _⟩ | ⟨hc, _⟩)
        · exact h1 hc
        · exact h2 hc
        · exact h3 hc
  have hfin : ∀ m : Mem (CTy R), ((∀ i, i < A.m → ∃ L : List (Nat × R), L.length = ep i - A.ptr i ∧
        RowAtV m k base o.values (A.ptr i) (L ++ extRow A ep i) ∧ PermColsRow A o ep cp i L (m (.diagptr k) (i : Int)) base) ∧
      ∀ a, a ≠ .colidx k → a ≠ .values k → a ≠ .diagptr k → m a = m0 a) → (∃ B : Csr R, B.m = A.m ∧ B.n = A.n ∧ B.WF ∧ HoldsPat m k base B ∧ (o.values = true → HoldsVal m k B) ∧
        (∀ i, i ≤ A.m → B.ptr i = A.ptr i) ∧
        ∀ i, i < A.m → ∃ L : List (Nat × R), B.row i = L ++ extRow A ep i ∧
          PermColsRow A o ep cp i L (m (.diagptr k) (i : Int)) base) ∧
      ∀ a, a ≠ .colidx k → a ≠ .values k → a ≠ .diagptr k → m a = m0 a := by
    rintro m ⟨hr, hf⟩
    refine ⟨?_, hf⟩
    choose! L l1 l2 l3 using hr
    let rows : Nat → List (Nat × R) := fun i => L i ++ extRow A ep i
    have hlen : ∀ i, i < A.m → (rows i).length = (A.row i).length := by
      intro i hi
      have := h.ext.2.2 i hi
      show (L i ++ extRow A ep i).length = _
      rw [List.length_append, l1 i hi, extRow_length, Csr.row_length]; omega
    have hst : ∀ i, i ≤ A.m → rowStart rows i = A.ptr i := by
      intro i
      induction i with
      | zero => intro _; rw [h.wf.ptr_zero]; rfl
      | succ i ih =>
        intro hi
        have := h.wf.ptr_mono (i := i) (j := i + 1) (by omega) hi
        rw [rowStart_succ, ih (by omega), hlen i hi, Csr.row_length]; omega
    refine ⟨Csr.ofRows A.m A.n rows (A.val 0), rfl, rfl, ?_, ⟨?_, ?_⟩, ?_, hst, fun i hi => ⟨L i, Csr.ofRows_row hi, l3 i hi⟩⟩
    · refine Csr.ofRows_wf ?_
      intro i hi x hx
      have hxx := h.ext.2.2 i hi
      rcases List.mem_append.1 hx with hx | hx
      · have hx : x ∈ locRow A ep cp i := by
          by_cases hd : o.diagptr = true
          · obtain ⟨p, L1, L2, v, g1, g2, g3, g4, g5, g6, g7, g8⟩ := (l3 i hi).2 hd
            rw [g3] at hx
            rcases List.mem_append.1 hx with hx | hx
            · exact List.mem_of_mem_take (g4.mem_iff.1 hx)
            · rcases List.mem_cons.1 hx with hx | hx
              · subst hx
                have hlen' := congrArg List.length g3
                rw [l1 i hi, List.length_append, List.length_cons, g4.length_eq, g6.length_eq, List.length_take, List.length_drop,
                  locRow_length' hxx] at hlen'
                have hp : p < ep i - A.ptr i := by
                  by_contra hc; omega
                have hq := locRow_get' (cp := cp) hxx hp
                rw [List.getElem?_eq_getElem (by rw [Csr.row_length]; omega), Csr.row_getElem] at g1
                have g1' := Prod.mk.inj (Option.some.inj g1)
                rw [g1'.1, g1'.2] at hq
                exact List.mem_of_getElem? hq
              · exact List.mem_of_mem_drop (g6.mem_iff.1 hx)
          · exact ((l3 i hi).1 (by simpa using hd)).1.mem_iff.1 hx
        obtain ⟨q, hq⟩ := List.getElem?_of_mem hx
        have hq1 : q < (locRow A ep cp i).length := by
          by_contra hc; rw [List.getElem?_eq_none (by omega)] at hq; cases hq
        rw [locRow_length' hxx] at hq1
        rw [locRow_get' hxx hq1] at hq
        cases hq
        have := h.cpp.1 _ (h.loc i (A.ptr i + q) hi (by omega) (by omega))
        have := h.nle
        show cp (A.col (A.ptr i + q)) < A.n
        omega
      · have hx : x ∈ A.row i := List.mem_of_mem_drop hx
        obtain ⟨j, h1, h2, rfl⟩ := Csr.mem_row.1 hx
        have := h.wf.ptr_le_nnz (i := i + 1) hi
        exact h.wf.col_lt j (by omega)
    · intro i hi
      rw [hf _ (by simp) (by simp) (by simp)]
      show _ = some ((rowStart rows i : Int) + base)
      rw [hst i hi]; exact h.pat.rowptr i hi
    · intro j hj
      obtain ⟨i, q, g1, g2, rfl⟩ := rowStart_find rows hj
      rw [show (Csr.ofRows A.m A.n rows (A.val 0)).col _ = _ from Csr.ofRows_col g1 g2]
      have := (l2 i g1 q _ (List.getElem?_eq_getElem g2)).1
      rw [hst i (Nat.le_of_lt g1)]
      push_cast; exact this
    · intro hv j hj
      obtain ⟨i, q, g1, g2, rfl⟩ := rowStart_find rows hj
      rw [show (Csr.ofRows A.m A.n rows (A.val 0)).val _ = _ from Csr.ofRows_val g1 g2]
      have := (l2 i g1 q _ (List.getElem?_eq_getElem g2)).2 hv
      rw [hst i (Nat.le_of_lt g1)]
      push_cast; exact this
  unfold permuteColsInPlace
  refine seq_rule ?_
  rw [wp_read]
  refine ⟨trivial, (base : Int), ?_, ?_⟩
  · have := h.pat.rowptr 0 (by omega)
    rw [h.wf.ptr_zero] at this
    simpa using this
  rcases hb with rfl | rfl
  · rw [if_pos (by simp)]
    exact Script.Ok.mono hphase (fun _ m hm => hfin m hm)
  · rw [if_neg (by simp)]
    refine seq_rule ?_
    rw [wp_assert]
    exact ⟨by simp, Script.Ok.mono hphase (fun _ m hm => hfin m hm)⟩
end

end SpMP
