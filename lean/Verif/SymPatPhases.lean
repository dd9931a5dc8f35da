import Verif.SymPatProof
/-
Proofs about getSymmetricNnzPattern, continued: the two parallel loops with atomic counters.
-/

namespace SpMP
open Spec

variable {R : Type}

/-- What thread `t` adds. -/
def symThr (T : Nat) (A : Csr R) (ep : Nat → Nat) (t : Nat) : List (Nat × Nat) :=
  symItemsRows A ep (rowCut T A.m t) (rowCut T A.m (t + 1) - rowCut T A.m t)

/-- All added (row, column) pairs. -/
def symAll (A : Csr R) (ep : Nat → Nat) : List (Nat × Nat) := symItemsRows A ep 0 A.m

/-- Columns added to row `c`. -/
def symMiss (A : Csr R) (ep : Nat → Nat) (c : Nat) : List Nat := ((symAll A ep).filter (fun x => decide (x.1 = c))).map (·.2)

section
variable {sz : CArr → Int} {k T : Nat} {A : Csr R} {ext : Bool} {ep : Nat → Nat} {m0 m1 : Mem (CTy R)}

theorem symItemsRows_add (b n n' : Nat) : symItemsRows A ep b n ++ symItemsRows A ep (b + n) n' = symItemsRows A ep b (n + n') := by
  induction n' with
  | zero => simp [symItemsRows]
  | succ n' ih => rw [symItemsRows_succ, ← List.append_assoc, ih, ← Nat.add_assoc, symItemsRows_succ, Nat.add_assoc]

theorem symThr_all (hT : 1 ≤ T) : (List.range T).flatMap (symThr T A ep) = symAll A ep := by
  have : ∀ t, (List.range t).flatMap (symThr T A ep) = symItemsRows A ep 0 (rowCut T A.m t) := by
    intro t
    induction t with
    | zero => rw [rowCut_zero]; rfl
    | succ t ih =>
      rw [List.range_succ, List.flatMap_append, ih, List.flatMap_singleton]
      unfold symThr
      have h1 := rowCut_mono hT A.m (show t ≤ t + 1 by omega)
      have := symItemsRows_add (A := A) (ep := ep) 0 (rowCut T A.m t) (rowCut T A.m (t + 1) - rowCut T A.m t)
      rw [Nat.zero_add] at this
      rw [this]
      congr 1; omega
  rw [this T, rowCut_last hT]; rfl

theorem bkN_sym (hT : 1 ≤ T) (c : Nat) : bkN T (symThr T A ep) c = (symMiss A ep c).length := by
  unfold bkN symMiss
  rw [symThr_all hT, List.length_map, List.countP_eq_length_filter]

theorem mem_symItems {i c x : Nat} : (c, x) ∈ symItems A ep i ↔ x = i ∧ c ∈ locCols A ep i ∧ i ∉ locCols A ep c := by
  unfold symItems
  simp only [List.mem_map, List.mem_filter, decide_eq_true_eq, Prod.mk.injEq]
  constructor
  · rintro ⟨c', ⟨h1, h2⟩, rfl, rfl⟩; exact ⟨rfl, h1, h2⟩
  · rintro ⟨rfl, h1, h2⟩; exact ⟨c, ⟨h1, h2⟩, rfl, rfl⟩

theorem mem_symItemsRows {b n c x : Nat} : (c, x) ∈ symItemsRows A ep b n ↔
    b ≤ x ∧ x < b + n ∧ c ∈ locCols A ep x ∧ x ∉ locCols A ep c := by
  unfold symItemsRows
  simp only [List.mem_flatMap, List.mem_range'_1, mem_symItems]
  constructor
  · rintro ⟨i, ⟨h1, h2⟩, rfl, h3, h4⟩; exact ⟨h1, by omega, h3, h4⟩
  · rintro ⟨h1, h2, h3, h4⟩; exact ⟨x, ⟨h1, by omega⟩, rfl, h3, h4⟩

theorem mem_symMiss {c x : Nat} : x ∈ symMiss A ep c ↔ x < A.m ∧ c ∈ locCols A ep x ∧ x ∉ locCols A ep c := by
  unfold symMiss symAll
  simp only [List.mem_map, List.mem_filter, decide_eq_true_eq]
  constructor
  · rintro ⟨⟨c', x'⟩, ⟨h1, rfl⟩, rfl⟩
    have := mem_symItemsRows.1 h1
    exact ⟨by simpa using this.2.1, this.2.2⟩
  · rintro ⟨h1, h2⟩
    exact ⟨(c, x), ⟨mem_symItemsRows.2 ⟨by omega, by omega, h2⟩, rfl⟩, rfl⟩

/-- Both loops: the general form. -/
theorem symLoop_par {jc off js : Nat} {slots : Bool} {D Sl : Nat → Nat} {act : Int → Int → Prog (CTy R) Unit} (hT : 1 ≤ T)
    (h : SymHyp m1 k A ext ep)
    (h0 : ∀ c : Nat, c < A.m → m1 (.itmp jc) ((c : Int) + off) = some (D c : Int))
    (hact : ∀ (t : Nat) (g : Bk) (m : Mem (CTy R)) (c i : Nat), t < T → c < A.m → BkInv T jc off js A.m slots D Sl (symThr T A ep) m1 g m → g.pend t = none →
      g.of t ++ [(c, i)] <+: symThr T A ep t →
      wpRG sz (BkInv T jc off js A.m slots D Sl (symThr T A ep) m1) (fun g _ g' _ => BkRely t g g') (fun g _ g' _ => BkGuar t g g')
        (act (c : Int) (i : Int)) g m (fun _ g' _ => g'.of t = g.of t ++ [(c, i)] ∧ g'.pend t = none)) :
    ParOk sz T (fun r m => BkDone T jc off js A.m slots D Sl (symThr T A ep) m1 m ∧ ((List.range T).all r = true ↔ symAll A ep = []))
      (fun t => symLoop k 0 ext act (simpleBegin T t A.m + ((0 : Nat) : Int)) (simpleEnd T t A.m + ((0 : Nat) : Int))) m1 := by
  refine rg_rule (BkInv T jc off js A.m slots D Sl (symThr T A ep) m1) (fun t g _ g' _ => BkRely t g g') (fun t g _ g' _ => BkGuar t g g')
    (fun t s g _ => g.of t = symThr T A ep t ∧ g.pend t = none ∧ s = decide (symThr T A ep t = [])) ⟨[], fun _ => none⟩
    (BkInv.init h0) (fun t g _ => BkRely.refl t g) (fun t _ _ _ _ _ _ h1 h2 => h1.trans h2) ?_ ?_ ?_
  · intro t u g m g' m' _ _ htu _ _ hG
    exact ⟨(hG.1 u (Ne.symm htu)).1, (hG.1 u (Ne.symm htu)).2, hG.2⟩
  · intro t ht
    have hm := rowCut_mono hT A.m (show t ≤ t + 1 by omega)
    have hl := rowCut_le hT A.m (t + 1)
    rw [rowCut_eq hT, rowCut_end hT]
    simp only [Nat.cast_zero, Int.add_zero]
    have e : rowCut T A.m (t + 1) = rowCut T A.m t + (rowCut T A.m (t + 1) - rowCut T A.m t) := by omega
    rw [e]
    refine wpRG_symLoop (t := t) h (by omega) ?_ ?_ (BkInv.init h0) (by simp [Bk.of]) rfl
    · intro g m hI a i ha
      refine hI.frame a i ?_ ?_
      · rintro ⟨rfl, _⟩; simp [symSrc] at ha
      · rintro ⟨_, rfl, _⟩; simp [symSrc] at ha
    · intro g m c i hI hpd hpre
      refine hact t g m c i ht ?_ hI hpd hpre
      have : (c, i) ∈ symItemsRows A ep (rowCut T A.m t) (rowCut T A.m (t + 1) - rowCut T A.m t) := hpre.subset (by simp)
      have := mem_symItemsRows.1 this
      exact h.col_mem (by omega) this.2.2.1
  · intro r g m hI hq
    refine ⟨hI.final (fun t ht => (hq t ht).1) (fun t ht => (hq t ht).2.1), ?_⟩
    rw [List.all_eq_true, ← symThr_all hT, List.flatMap_eq_nil_iff]
    constructor
    · intro hh t ht
      have h1 := hh t ht
      rw [(hq t (List.mem_range.1 ht)).2.2] at h1
      simpa using h1
    · intro hh t ht
      rw [(hq t (List.mem_range.1 ht)).2.2]
      simpa using hh t ht

/-- SymGS.cpp:167-177. -/
theorem symCount_par {D : Nat → Nat} (hT : 1 ≤ T) (h : SymHyp m1 k A ext ep)
    (h0 : ∀ c : Nat, c < A.m → m1 (.itmp 0) ((c : Int) + (1 : Nat)) = some (D c : Int)) (hz : (A.m : Int) + 1 ≤ sz (.itmp 0)) :
    ParOk sz T (fun r m => BkDone T 0 1 3 A.m false D (fun _ => 0) (symThr T A ep) m1 m ∧ ((List.range T).all r = true ↔ symAll A ep = []))
      (fun t => symLoop k 0 ext (symCountAct 0) (simpleBegin T t A.m + ((0 : Nat) : Int)) (simpleEnd T t A.m + ((0 : Nat) : Int))) m1 := by
  refine symLoop_par hT h h0 ?_
  intro t g m c i ht hc hI hpd hpre g' m' hR hI'
  have hR' : BkRely t g g' := hR
  have e : (c : Int) + 1 - ((0 : Nat) : Int) = (c : Int) + (1 : Nat) := by simp
  have hpre' : g'.of t ++ [(c, i)] <+: symThr T A ep t := by rw [hR'.1]; exact hpre
  have hn := hI'.reserve (by simp) ht hc hpre' (hR'.2.1.trans hpd)
  rw [← e] at hn
  refine ⟨by omega, by omega, _, by rw [e]; exact hI'.ctr c hc, g'.push t (c, i) false, Bk.push_guar _ _ _ _, hn, ?_⟩
  intro g2 m2 hR2 _
  refine ⟨?_, ?_⟩
  · rw [hR2.1, Bk.push_of, if_pos rfl, hR'.1]
  · rw [hR2.2.1]
    unfold Bk.push
    dsimp only
    rw [if_neg (by simp)]
    exact hR'.2.1.trans hpd

/-- SymGS.cpp:238-247. -/
theorem symPut_par {D Sl : Nat → Nat} (hT : 1 ≤ T) (h : SymHyp m1 k A ext ep)
    (h0 : ∀ c : Nat, c < A.m → m1 (.itmp 4) ((c : Int) + (0 : Nat)) = some (D c : Int))
    (hS : ∀ c : Nat, c < A.m → m1 (.itmp 0) (c : Int) = some (Sl c : Int)) (hz : (A.m : Int) ≤ sz (.itmp 4))
    (hdis : SlotsDisj A.m Sl D (bkN T (symThr T A ep)))
    (hz3 : ∀ c s : Nat, c < A.m → s < bkN T (symThr T A ep) c → (Sl c : Int) + (D c : Nat) + s < sz (.itmp 3)) :
    ParOk sz T (fun r m => BkDone T 4 0 3 A.m true D Sl (symThr T A ep) m1 m ∧ ((List.range T).all r = true ↔ symAll A ep = []))
      (fun t => symLoop k 0 ext (symPutAct 0) (simpleBegin T t A.m + ((0 : Nat) : Int)) (simpleEnd T t A.m + ((0 : Nat) : Int))) m1 := by
  refine symLoop_par hT h h0 ?_
  intro t g m c i ht hc hI hpd hpre g' m' hR hI'
  have hR' : BkRely t g g' := hR
  have e : (c : Int) + ((0 : Nat) : Int) = (c : Int) := by simp
  have hpre' : g'.of t ++ [(c, i)] <+: symThr T A ep t := by rw [hR'.1]; exact hpre
  have hpd' := hR'.2.1.trans hpd
  have hn := hI'.reserve (by simp) ht hc hpre' hpd'
  have hroom := hI'.room ht hpre'
  have hct := hI'.ctr c hc
  rw [e] at hn hct
  refine ⟨by omega, by omega, _, hct, g'.push t (c, i) true, Bk.push_guar _ _ _ _, hn, ?_⟩
  intro g2 m2 hR2' hI2
  have hR2 : BkRely t (g'.push t (c, i) true) g2 := hR2'
  refine ⟨(Sl c : Int), ?_, g2, BkGuar.refl _ _, hI2, ?_⟩
  · rw [hI2.frame _ _ (by rintro ⟨h, _⟩; cases h) (by rintro ⟨_, h, _⟩; cases h)]
    rw [show (c : Int) - ((0 : Nat) : Int) = (c : Int) by simp]; exact hS c hc
  intro g3 m3 hR3' hI3
  have hR3 : BkRely t (g'.push t (c, i) true) g3 := hR2.trans hR3'
  -- the reserved item
  have hpl : g'.al.length < (g'.push t (c, i) true).al.length := by unfold Bk.push; simp
  have hpl3 : g'.al.length < g3.al.length := Nat.lt_of_lt_of_le hpl hR3.2.2.length_le
  have hg3 : g3.al[g'.al.length] = (t, (c, i)) := by
    rw [← hR3.2.2.getElem hpl]
    show (g'.al ++ [(t, (c, i))])[g'.al.length]'(by simp) = _
    simp
  have htk : g3.al.take g'.al.length = g'.al := by
    obtain ⟨r, hr⟩ := hR3.2.2
    rw [← hr]; unfold Bk.push; simp
  have hp3 : g3.pend t = some g'.al.length := by rw [hR3.2.1]; unfold Bk.push; simp
  have hst := hI3.store (by simp) hdis ?_ hpl3 hp3 hg3
  · rw [htk] at hst
    have ei : (Sl c : Int) + ((D c : Int) + (g'.al.countP (inBk c) : Nat)) - ((0 : Nat) : Int) =
      (Sl c : Int) + (D c : Nat) + (g'.al.countP (inBk c) : Nat) := by simp; omega
    rw [← ei] at hst
    have := hz3 c _ hc hroom
    refine ⟨?_, ?_, _, ?_, hst, ?_⟩
    · show 0 ≤ (Sl c : Int) + ((D c : Int) + (g'.al.countP (inBk c) : Nat)) - ((0 : Nat) : Int)
      omega
    · show (Sl c : Int) + ((D c : Int) + (g'.al.countP (inBk c) : Nat)) - ((0 : Nat) : Int) < _
      rw [ei]; exact this
    · refine ⟨fun u hu => ⟨rfl, ?_⟩, List.prefix_refl _⟩
      dsimp only; rw [if_neg hu]
    · intro g4 m4 hR4' _
      have hR4 : BkRely t (⟨g3.al, fun u => if u = t then none else g3.pend u⟩ : Bk) g4 := hR4'
      refine ⟨?_, ?_⟩
      · rw [hR4.1]
        show g3.of t = _
        rw [hR3.1, Bk.push_of, if_pos rfl, hR'.1]
      · rw [hR4.2.1]; simp
  · intro u hu x hx
    have := mem_symItemsRows.1 (show (x.1, x.2) ∈ symItemsRows A ep _ _ from hx)
    have hm := rowCut_le hT A.m (u + 1)
    exact h.col_mem (by omega) this.2.2.1

end

end SpMP
