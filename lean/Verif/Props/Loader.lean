import Verif.LoaderSym
import Verif.Props.Coo
/-
Property theorems C13, C14, C15 (Matrix Market loader).
-/

namespace SpMP.Props
open SpMP SpMP.Spec

variable {R : Type}

/-- C13 and C15 for a general file that lists the entries `T0` (1-based, or 0-based with at least one zero index and no
padding): the loader returns true, dimensions rounded up to multiples of `pad`, and a coordinate list with exactly the listed
entries (value 1 in a pattern file, transposed on request) followed by the unit diagonal entries of the padded positions. With
`pad = 1` nothing is added. -/
theorem C13_load_general_partial [One R] {F : MMFile R} {trans : Bool} {pad b om on : Nat} {m0 : Mem (CTy R)} {T0 : List (Nat × Nat × R)}
    (hh : F.header = true) (hns : F.symmetric = false) (hp : 1 ≤ pad)
    (hom : om = if trans then F.n else F.m) (hon : on = if trans then F.m else F.n)
    (hE : F.entries = listed b T0) (hlen : T0.length = F.nnz) (hT : ∀ e ∈ T0, e.1 < F.m ∧ e.2.1 < F.n)
    (hb : b = 1 ∨ (b = 0 ∧ (∃ e ∈ T0, e.1 = 0 ∨ e.2.1 = 0) ∧ pad = 1)) :
    (loadMM F false trans pad).Ok m0 (fun r m => ∃ m' n' : Nat,
      (pad ∣ m' ∧ om ≤ m' ∧ m' < om + pad) ∧ (pad ∣ n' ∧ on ≤ n' ∧ n' < on + pad) ∧
      ∃ T, T = T0.map (fileEntry trans F.pattern) ++ padDiag (min om on) (min m' n') ∧
      r = some (m', n', (T.length : Int)) ∧ HoldsCoo m (Coo.ofList m' n' T 1)) := by
  have hV := view_listed trans F.pattern b T0
  rw [← hE] at hV
  have hl : F.entries.length = F.nnz := by rw [hE, listed_length]; exact hlen
  have hb1 : (b : Int) = 1 ∨ (b : Int) = 0 := by rcases hb with rfl | ⟨rfl, _⟩ <;> simp
  have hgood : ∀ e ∈ F.entries.map (ldView trans F.pattern), ¬ ldBad (om : Int) on e := by
    intro e he hbad
    rw [hV] at he
    obtain ⟨f, hf, rfl⟩ := List.mem_map.mp he
    obtain ⟨g, hg, rfl⟩ := List.mem_map.mp hf
    have := hT g hg
    cases trans with
    | false =>
      have hbad : (om : Int) < (g.1 : Int) + b ∨ (on : Int) < (g.2.1 : Int) + b := hbad
      simp only [Bool.false_eq_true, if_false] at hom hon
      omega
    | true =>
      have hbad : (om : Int) < (g.2.1 : Int) + b ∨ (on : Int) < (g.1 : Int) + b := hbad
      simp only [if_true] at hom hon
      omega
  refine loadMM_general hh hns hp (by omega) hom hon ?_ ?_
  · rintro (⟨e, he, hbad⟩ | h) m'
    · exact absurd hbad (hgood e he)
    · omega
  · intro _ _ m' L hL hLH
    have r1 := ldRound_le (m := om) hp
    have r2 := ldRound_le (m := on) hp
    refine ⟨ldRound om pad, ldRound on pad, ⟨r1.2.2, r1.1, r1.2.1⟩, ⟨r2.2.2, r2.1, r2.2.1⟩, _, rfl, ?_, ?_⟩
    · rw [hL, List.length_append, List.length_append, hV, listed_length, listed_length]
    · refine LH.holdsCoo ?_ _ _ _
      rw [listed_append]
      rcases hb with rfl | ⟨rfl, ⟨z, hz, hz0⟩, rfl⟩
      · have hz : ¬ ∃ e ∈ F.entries.map (ldView trans F.pattern), ldZeroIx e := by
          rintro ⟨e, he, hz⟩
          rw [hV] at he
          obtain ⟨f, hf, rfl⟩ := List.mem_map.mp he
          have hz : (f.1 : Int) + 1 = 0 ∨ (f.2.1 : Int) + 1 = 0 := hz
          omega
        rw [if_neg hz, hL, hV] at hLH
        exact hLH
      · have hz : ∃ e ∈ F.entries.map (ldView trans F.pattern), ldZeroIx e := by
          rw [hE]
          refine ⟨_, List.mem_map_of_mem (List.mem_map_of_mem hz), ?_⟩
          cases trans with
          | false => show ((z.1 : Int) + 0 = 0 ∨ (z.2.1 : Int) + 0 = 0); omega
          | true => show ((z.2.1 : Int) + 0 = 0 ∨ (z.1 : Int) + 0 = 0); omega
        have e1 : ldRound om 1 = om := by omega
        have e2 : ldRound on 1 = on := by omega
        have hpd : padDiag (R := R) (min om on) (min (ldRound om 1) (ldRound on 1)) = [] := by
          rw [e1, e2]; unfold padDiag; rw [Nat.sub_self]; rfl
        rw [if_pos hz, hL, hpd, hV] at hLH
        have e3 : listed (1 : Int) ([] : List (Nat × Nat × R)) = [] := rfl
        rw [e3, List.append_nil] at hLH
        rw [hpd, e3, List.append_nil, ← listed_zero_inc]
        exact hLH

/-- C13, malformed input: if some listed coordinate exceeds the stated size, or the file has fewer lines than stated, a general
file (any integers, at most nnz lines) makes the loader return false, with no access outside its own arrays. -/
theorem C13_malformed_partial [One R] {F : MMFile R} {trans : Bool} {pad : Nat} {m0 : Mem (CTy R)} (hns : F.symmetric = false) (hp : 1 ≤ pad)
    (hlen : F.entries.length ≤ F.nnz)
    (hbad : F.header = false ∨ (∃ e ∈ F.entries, (F.m : Int) < e.1 ∨ (F.n : Int) < e.2.1) ∨ F.entries.length < F.nnz) :
    (loadMM F false trans pad).Ok m0 (fun r _ => r = none) := by
  by_cases hh : F.header = true
  · refine loadMM_general hh hns hp hlen rfl rfl (fun _ _ => rfl) ?_
    intro hg hl
    exfalso
    rcases hbad with h | ⟨e, he, hb⟩ | h
    · rw [hh] at h; cases h
    · refine hg _ (List.mem_map_of_mem he) ?_
      cases trans with
      | false => exact hb
      | true => exact hb.symm
    · omega
  · unfold loadMM
    rw [if_neg hh]; rfl

/-- C13 is false for a file with more lines than stated: the loader writes past the end of its arrays. -/
theorem C13_too_many_lines_false :
    ¬ (∀ (F : MMFile Int) (m0 : Mem (CTy Int)), F.header = true → F.symmetric = false →
      (∀ e ∈ F.entries, 1 ≤ e.1 ∧ e.1 ≤ F.m ∧ 1 ≤ e.2.1 ∧ e.2.1 ≤ F.n) →
      (loadMM F false false 1).Ok m0 (fun r _ => F.entries.length ≠ F.nnz → r = none)) := by
  intro h
  have h1 := (h ⟨true, false, false, 2, 2, 1, [(1, 1, 5), (2, 2, 6)]⟩ (fun _ _ => none) rfl rfl (by decide)).not_runUB
  rw [show Script.runUB _ _ = true from rfl] at h1
  cases h1

/-- C14 for a square 1-based symmetric file (or force_symmetric): the result lists every listed entry, the padding entries, and
for every listed off-diagonal entry whose mirror is not listed its mirror, each once, and nothing else. -/
theorem C14_load_symmetric_partial [One R] {F : MMFile R} {force trans : Bool} {pad : Nat} {m0 : Mem (CTy R)} {T0 : List (Nat × Nat × R)}
    (hh : F.header = true) (hs : force = true ∨ F.symmetric = true) (hp : 1 ≤ pad) (hsq : F.n = F.m)
    (hE : F.entries = listed 1 T0) (hlen : T0.length = F.nnz) (hT : ∀ e ∈ T0, e.1 < F.m ∧ e.2.1 < F.m)
    (hne : pad = 1 ∨ T0 ≠ []) :
    (loadMM F force trans pad).Ok m0 (fun r m => ∃ m' : Nat, (pad ∣ m' ∧ F.m ≤ m' ∧ m' < F.m + pad) ∧
      ∃ T1 T, T1 = T0.map (fileEntry trans F.pattern) ∧ T = T1 ++ padDiag F.m m' ++ mirrors T1 ∧
      r = some (m', m', (T.length : Int)) ∧ HoldsCoo m (Coo.ofList m' m' T 1)) := by
  have hV := view_listed trans F.pattern 1 T0
  rw [← hE] at hV
  refine Script.Ok.mono (loadMM_sym (d := 1) (T := T0.map (fileEntry trans F.pattern)) hh (by rcases hs with h | h <;> simp [h]) hp hsq
    (by rw [List.length_map]; exact hlen) hV ?_ ?_) ?_
  · intro e he
    obtain ⟨g, hg, rfl⟩ := List.mem_map.mp he
    have := hT g hg
    cases trans with
    | false => exact this
    | true => exact this.symm
  · intro h
    rcases hne with rfl | h'
    · have := (ldRound_le (m := F.m) hp).2.1; omega
    · intro hc; exact h' (List.map_eq_nil_iff.mp hc)
  · rintro r m ⟨h1, h2⟩
    have hr := ldRound_le (m := F.m) hp
    exact ⟨_, ⟨hr.2.2, hr.1, hr.2.1⟩, _, _, rfl, rfl, h1, h2.holdsCoo _ _ _⟩

/-- The resulting pattern is symmetric. -/
theorem C14_pattern_symmetric (T : List (Nat × Nat × R)) [One R] (lo hi : Nat) :
    ∀ i j, (∃ v, (i, j, v) ∈ T ++ padDiag lo hi ++ mirrors T) → ∃ v, (j, i, v) ∈ T ++ padDiag lo hi ++ mirrors T := by
  rintro i j ⟨v, hv⟩
  rcases List.mem_append.mp hv with hv | hv
  · rcases List.mem_append.mp hv with hv | hv
    · by_cases hij : i = j
      · subst hij; exact ⟨v, by simp [hv]⟩
      by_cases hl : ∃ f ∈ T, f.1 = j ∧ f.2.1 = i
      · obtain ⟨⟨a, b, w⟩, hf, rfl, rfl⟩ := hl
        exact ⟨w, by simp [hf]⟩
      · refine ⟨v, List.mem_append.mpr (Or.inr (List.mem_map.mpr ⟨(i, j, v), List.mem_filter.mpr ⟨hv, ?_⟩, rfl⟩))⟩
        rw [lonely_iff]
        exact ⟨hij, fun f hf h => hl ⟨f, hf, h⟩⟩
    · obtain ⟨x, _, e⟩ := List.mem_map.mp hv
      cases e
      exact ⟨1, List.mem_append.mpr (Or.inl (List.mem_append.mpr (Or.inr hv)))⟩
  · obtain ⟨⟨a, b, w⟩, hf, e⟩ := List.mem_map.mp hv
    cases e
    exact ⟨w, List.mem_append.mpr (Or.inl (List.mem_append.mpr (Or.inl (List.mem_filter.mp hf).1)))⟩

/-- C14 is false for 0-based symmetric files: rowcnt[0] is not reset (COO.cpp:298-300), and the sort reads uninitialised elements. -/
theorem C14_base0_false :
    ¬ (∀ (F : MMFile Int) (T0 : List (Nat × Nat × Int)) (m0 : Mem (CTy Int)), F.header = true → F.symmetric = true → F.n = F.m →
      F.entries = listed 0 T0 → T0.length = F.nnz → (∀ e ∈ T0, e.1 < F.m ∧ e.2.1 < F.m) → (∃ e ∈ T0, e.1 = 0 ∨ e.2.1 = 0) →
      (loadMM F false false 1).Ok m0 (fun r _ => ∃ c, r = some (F.m, F.m, c))) := by
  intro h
  have h1 := (h ⟨true, false, true, 2, 2, 2, [(0, 0, 5), (1, 0, 6)]⟩ [(0, 0, 5), (1, 0, 6)] (fun _ _ => none) rfl rfl rfl rfl rfl
    (by decide) (by decide)).not_runUB
  rw [show Script.runUB _ _ = true from rfl] at h1
  cases h1

/-- C15 for 1-based general files is `C13_load_general_partial`, for 1-based symmetric files `C14_load_symmetric_partial`. It is
false for 0-based files: the padding entries are shifted too (COO.cpp:292-296). -/
theorem C15_base0_false :
    ¬ (∀ (F : MMFile Int) (T0 : List (Nat × Nat × Int)) (m0 : Mem (CTy Int)), F.header = true → F.symmetric = false →
      F.pattern = false → F.entries = listed 0 T0 → T0.length = F.nnz → (∀ e ∈ T0, e.1 < F.m ∧ e.2.1 < F.n) →
      (∃ e ∈ T0, e.1 = 0 ∨ e.2.1 = 0) →
      (loadMM F false false 2).Ok m0 (fun _ m => ∃ m' n' : Nat,
        (2 ∣ m' ∧ F.m ≤ m' ∧ m' < F.m + 2) ∧ (2 ∣ n' ∧ F.n ≤ n' ∧ n' < F.n + 2) ∧
        HoldsCoo m (Coo.ofList m' n' (T0 ++ padDiag (min F.m F.n) (min m' n')) 1))) := by
  intro h
  have h1 := (h ⟨true, false, false, 1, 1, 1, [(0, 0, 5)]⟩ [(0, 0, 5)] (fun _ _ => none) rfl rfl rfl rfl rfl (by decide)
    (by decide)).run
  obtain ⟨r, m', h3, h4⟩ : ∃ r m', (loadMM (R := Int) ⟨true, false, false, 1, 1, 1, [(0, 0, 5)]⟩ false false 2).run
      (fun _ _ => none) = some (r, m') ∧ m' (.itmp 0) 1 = some (3 : Int) := ⟨_, _, rfl, rfl⟩
  obtain ⟨a, b, ⟨d1, a1, a2⟩, ⟨d2, b1, b2⟩, hc⟩ := h1 _ _ h3
  have ha : a = 2 := by have a1 : 1 ≤ a := a1; have a2 : a < 3 := a2; omega
  have hb : b = 2 := by have b1 : 1 ≤ b := b1; have b2 : b < 3 := b2; omega
  subst ha; subst hb
  have := (hc 1 (by decide)).1
  rw [show m' (.itmp 0) ((1 : Nat) : Int) = some (3 : Int) from h4] at this
  exact absurd (Option.some.inj this) (by decide)

/-- C15 is false for a symmetric file without entries: the padding entry is written into an array of length 0 (COO.cpp:317-321). -/
theorem C15_empty_symmetric_false :
    ¬ (∀ (F : MMFile Int) (m0 : Mem (CTy Int)), F.header = true → F.symmetric = true → F.n = F.m → F.entries = [] → F.nnz = 0 →
      (loadMM F false false 2).Ok m0 (fun r _ => r ≠ none)) := by
  intro h
  have h1 := (h ⟨true, false, true, 1, 1, 0, []⟩ (fun _ _ => none) rfl rfl rfl rfl rfl).not_runUB
  rw [show Script.runUB _ _ = true from rfl] at h1
  cases h1

/-- C13 at the level of the CSR constructor: the object holds a matrix whose row `i` is the listed pairs of row `i` sorted by
column (pad 1, 1-based general file). -/
theorem C13_csr_constructor_partial [One R] [Div R] {F : MMFile R} {k ob : Nat} {m0 : Mem (CTy R)} {T0 : List (Nat × Nat × R)}
    (hh : F.header = true) (hns : F.symmetric = false) (hE : F.entries = listed 1 T0) (hlen : T0.length = F.nnz)
    (hT : ∀ e ∈ T0, e.1 < F.m ∧ e.2.1 < F.n) :
    (csrFromFile F false 1 k ob).Ok m0 (fun _ m => ∃ B : Csr R, B.m = F.m ∧ B.n = F.n ∧ B.WF ∧ HoldsPat m k ob B ∧ HoldsVal m k B ∧
      ∀ i, i < F.m → (B.row i).Pairwise (fun x y => x.1 ≤ y.1) ∧
        (B.row i).Perm ((T0.filter fun e => e.1 = i).map fun e => (e.2.1, if F.pattern then 1 else e.2.2))) := by
  unfold csrFromFile
  rw [Script.ok_bind]
  refine Script.Ok.mono (C13_load_general_partial (trans := false) hh hns (Nat.le_refl 1) rfl rfl hE hlen hT (Or.inl rfl)) ?_
  rintro r m ⟨m', n', ⟨_, a1, a2⟩, ⟨_, b1, b2⟩, T, hTe, rfl, hC⟩
  simp only [Bool.false_eq_true, if_false] at a1 a2 b1 b2 hTe
  obtain rfl : m' = F.m := by omega
  obtain rfl : n' = F.n := by omega
  have hpd : padDiag (R := R) (min F.m F.n) (min F.m F.n) = [] := by unfold padDiag; rw [Nat.sub_self]; rfl
  rw [hpd, List.append_nil] at hTe
  show (Script.bind _ _).Ok _ _
  rw [Script.ok_bind]
  have hwf : (Coo.ofList F.m F.n T (1 : R)).WF := by
    refine Coo.ofList_wf ?_
    intro e he
    rw [hTe] at he
    obtain ⟨g, hg, rfl⟩ := List.mem_map.mp he
    exact hT g hg
  refine Script.Ok.mono (C11_dcoo2csr (dp := true) (sep := true) hwf hC (Int.le_refl _) (Int.le_refl _) (Int.le_refl _)
    (fun _ => Int.le_refl _) (fun _ => ⟨Int.le_refl _, Int.le_refl _⟩)) ?_
  rintro _ m1 ⟨B, g1, g2, g3, g4, g5, g6, _⟩
  refine ⟨B, g1, g2, g3, g4, g5, ?_⟩
  intro i hi
  have := g6 i hi
  refine ⟨this.2, ?_⟩
  have h1 := this.1
  rw [Coo.ofList_rowList, hTe, List.filter_map, List.map_map] at h1
  exact h1

example : (loadMM (R := Int) ⟨true, false, true, 3, 3, 3, [(1, 1, 5), (2, 1, 6), (1, 3, 7)]⟩ false false 2).Ok (fun _ _ => none)
    (fun r _ => r = some (4, 4, 6)) := by
  refine Script.Ok.mono (C14_load_symmetric_partial (T0 := [(0, 0, 5), (1, 0, 6), (0, 2, 7)]) rfl (Or.inr rfl) (by omega) rfl rfl rfl
    (by decide) (Or.inr (by decide))) ?_
  rintro r m ⟨m', ⟨h0, h1, h2⟩, T1, T, rfl, rfl, h3, _⟩
  have h1 : 3 ≤ m' := h1
  have h2 : m' < 5 := h2
  obtain rfl : m' = 4 := by omega
  exact h3

example : (csrFromFile (R := Int) ⟨true, false, false, 3, 2, 3, [(3, 2, 5), (1, 1, 6), (3, 1, 7)]⟩ false 1 0 (1 : Nat)).Ok (fun _ _ => none)
    (fun _ m => ∃ B : Csr Int, B.m = 3 ∧ HoldsVal m 0 B) :=
  Script.Ok.mono (C13_csr_constructor_partial (T0 := [(2, 1, 5), (0, 0, 6), (2, 0, 7)]) rfl rfl rfl rfl (by decide))
    (by rintro _ m ⟨B, h1, _, _, _, h5, _⟩; exact ⟨B, h1, h5⟩)

end SpMP.Props
