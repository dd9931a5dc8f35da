import Verif.Props.FileCtor
/-
C72: the conversion of vector files by test/mtx2bin.cpp.
-/

namespace SpMP.Props
open SpMP SpMP.Spec

variable {R : Type}

theorem wp_convRead {sz : CArr → Int} {lg : Txt → Option (R × Txt)} {pr : R → Txt} {fmt : R → R}
    {L : List (R × Txt)} {extra : Txt} {m : Nat} {m0 : Mem (CTy R)} {Q : Unit → Mem (CTy R) → Prop}
    (hlg : ∀ v rest, AtSpace rest → scanLg lg (pr v ++ rest) = .ok (fmt v) rest)
    (hsep : ∀ e ∈ L, e.2 ≠ [] ∧ ∀ c ∈ e.2, cSpace c = true) (hm : m ≤ L.length) (hsz : sz (.vec 0) = m)
    (hQ : ∀ m', (∀ y : Nat, ∀ h : y < L.length, y < m → m' (.vec 0) (y : Int) = some (fmt (L[y].1))) → Q () m') :
    wp sz (fun _ _ => True) (fun _ _ => True) (convRead lg m (valText pr L ++ extra)) m0 Q := by
  unfold convRead
  rw [wp_bind]
  refine wp_forN (b := 0) (lo := 0) (hi := m) (fun i s m' => skipWs s = skipWs (valText pr (L.drop i) ++ extra) ∧
    ∀ y : Nat, ∀ h : y < L.length, y < i → m' (.vec 0) (y : Int) = some (fmt (L[y].1))) (Nat.zero_le _)
    ⟨rfl, fun y _ h => absurd h (by omega)⟩ ?_ ?_ (by simp) (by simp)
  · rintro i s m' _ hi ⟨h2, h3⟩
    have hx : i < L.length := by omega
    have hs := hsep L[i] (List.getElem_mem hx)
    have e : scanLg lg s = .ok (fmt (L[i].1)) (L[i].2 ++ valText pr (L.drop (i + 1)) ++ extra) := by
      rw [scanLg_congr h2, valText_drop hx, List.append_assoc]
      refine (hlg _ _ ?_).trans rfl
      intro c hc
      cases hq : L[i].2 with
      | nil => exact absurd hq hs.1
      | cons d t =>
        rw [hq] at hc
        have : d = c := by simpa using hc
        subst this
        exact hs.2 d (by rw [hq]; exact List.mem_cons_self ..)
    rw [e]
    dsimp only
    rw [Int.add_zero]
    refine wp_wr trivial ⟨by omega, by rw [hsz]; exact_mod_cast hi⟩ ?_
    rw [wp_pure]
    refine ⟨?_, fun y hy hyx => ?_⟩
    · rw [skipWs_skipWs, List.append_assoc, skipWs_app hs.2]
    · by_cases hyx' : y = i
      · subst hyx'; rw [Mem.get_same]
      · rw [Mem.get_ne _ _ _ _ _ (by omega)]
        exact h3 y hy (by omega)
  · rintro s m' ⟨_, h⟩
    rw [wp_pure]
    exact hQ _ h

theorem wp_convWrite {sz : CArr → Int} {l : List R} {m0 : Mem (CTy R)} {Q : VecFile R → Mem (CTy R) → Prop}
    (hl : ∀ y : Nat, ∀ h : y < l.length, m0 (.vec 0) (y : Int) = some (l[y])) (hQ : Q ⟨l.length, l⟩ m0) :
    wp sz (fun _ _ => True) (fun _ _ => True) (convWrite (l.length : Int)) m0 Q := by
  unfold convWrite
  rw [wp_bind]
  refine wp_forN (b := 0) (lo := 0) (hi := l.length) (fun i s m' => s = l.take i ∧ m' = m0) (Nat.zero_le _) ⟨rfl, rfl⟩ ?_ ?_ (by simp) (by simp)
  · rintro i s m' _ hi ⟨rfl, rfl⟩
    rw [Int.add_zero]
    refine wp_rd _ trivial (hl i hi) ?_
    rw [wp_pure]
    exact ⟨by rw [List.take_succ_eq_append_getElem hi], rfl⟩
  · rintro s m' ⟨rfl, rfl⟩
    rw [wp_pure, List.take_length]
    exact hQ

/-- The text of an array file: header, comments, the sizes, and the numbers in `L`, each followed by white space; then `extra`. -/
def arrayText (pr : R → List Char) (h : Header) (cs : List (List Char)) (m n : Nat) (L : List (R × List Char)) (extra : List Char) : List Char :=
  h.line ++ '\n' :: (cs.flatMap (fun s => s ++ ['\n']) ++ (decimalLine [(m : Int), n] ++ (L.flatMap (fun x => pr x.1 ++ x.2) ++ extra)))

theorem array_parse {pr : R → Txt} {h : Header} {cs : List (List Char)} {m n fuel : Nat} {L : List (R × List Char)} {extra : List Char}
    (hc : ∀ s ∈ cs, IsLine s ∧ s.head? = some '%') (hm : m < 2 ^ 31) (hn : n < 2 ^ 31) :
    ∃ s1, mmReadBanner (arrayText pr h cs m n L extra) = some (0, ⟨'M', h.format.letter, h.field.letter, h.symm.letter⟩, s1) ∧
      mmReadSize 2 fuel s1 = some (.ret 0 [(m : Int), n] (L.flatMap (fun x => pr x.1 ++ x.2) ++ extra)) := by
  obtain ⟨str, -, g2, g3⟩ := C50_format_parse h (cs.flatMap (fun s => s ++ ['\n']) ++
        (decimalLine [(m : Int), n] ++ (L.flatMap (fun x => pr x.1 ++ x.2) ++ extra)))
  rw [g2] at g3
  refine ⟨_, g3, ?_⟩
  exact C50_size_partial hc (vs := [(m : Int), (n : Int)]) (Or.inl rfl) (by
    intro v hv
    simp at hv
    rcases hv with rfl | rfl
    · norm_num at hm ⊢; omega
    · norm_num at hn ⊢; omega) (L.flatMap (fun x => pr x.1 ++ x.2) ++ extra) fuel

/-- C72: mtx2bin on an array text with at least as many numbers as rows writes one file: the number of rows and then as many of the
numbers, in the order of the text. Other files are as before. Partial: of an array with several columns only the beginning is written
(`C72_columns_false`), and a text with fewer numbers than rows is undefined behaviour (`C72_short_false`). -/
theorem C72_convert_partial [One R] [Div R] {lg : Txt → Option (R × Txt)} {ofInt : Int → R} {junk d o : R} {fuel k : Nat} {pr : R → Txt} {fmt : R → R}
    {h : Header} {cs : List (List Char)} {m n : Nat} {L : List (R × List Char)} {extra : List Char} {fs : Files R} {src dst : List Char} {m0 : Mem (CTy R)}
    (hlg : ∀ v rest, AtSpace rest → scanLg lg (pr v ++ rest) = .ok (fmt v) rest)
    (hf : h.format = .array) (hp : ¬ Impossible h) (hc : ∀ s ∈ cs, IsLine s ∧ s.head? = some '%') (hm : m < 2 ^ 31) (hn : n < 2 ^ 31)
    (hsep : ∀ e ∈ L, e.2 ≠ [] ∧ ∀ c ∈ e.2, isWhite c = true) (hL : m ≤ L.length)
    (hs : fs.txt src = some (arrayText pr h cs m n L extra)) :
    (mtx2bin lg ofInt junk fuel d o fs src dst k).Ok m0 (fun r _ => ∃ fs', r = some fs' ∧
      fs'.vec dst = some ⟨m, (L.take m).map fun x => fmt x.1⟩ ∧ (∀ x, x ≠ dst → fs'.vec x = fs.vec x) ∧ fs'.txt = fs.txt ∧ fs'.bin = fs.bin) := by
  obtain ⟨s1, g1, g2⟩ := array_parse (pr := pr) (h := h) (fuel := fuel) (L := L) (extra := extra) hc hm hn
  have hv : takesVector fuel (arrayText pr h cs m n L extra) = some true := by
    unfold takesVector
    rw [g1]; dsimp only
    rw [g2]; dsimp only
    have : mmIsValid ⟨'M', h.format.letter, h.field.letter, h.symm.letter⟩ = true := by
      by_contra hx
      exact hp ((C50_is_valid h).1 (by simpa using hx))
    rw [this, hf]; rfl
  unfold mtx2bin
  rw [hs]
  dsimp only
  rw [hv]
  dsimp only
  rw [Script.ok_bind]
  unfold convVec
  rw [g1]; dsimp only
  rw [g2]; dsimp only
  rw [if_neg (by omega)]
  refine seq_rule ?_
  refine wp_convRead (L := L) hlg (fun e he => ⟨(hsep e he).1, fun c hcc => by rw [← isWhite_eq]; exact (hsep e he).2 c hcc⟩) hL rfl ?_
  intro m' hval
  refine seq_rule ?_
  have hlen : ((L.take m).map fun x => fmt x.1).length = m := by simp [hL]
  have key := wp_convWrite (sz := lvSize (m : Int)) (l := (L.take m).map fun x => fmt x.1) (m0 := m')
    (Q := fun F m1 => F = ⟨m, (L.take m).map fun x => fmt x.1⟩ ∧ m1 = m') (by
      intro y hy
      rw [hlen] at hy
      rw [hval y (by omega) hy]
      simp) ⟨by rw [hlen], rfl⟩
  rw [hlen] at key
  refine wp_mono key ?_
  rintro F m1 ⟨rfl, rfl⟩
  refine Script.ok_done_of (Script.ok_done_of ⟨_, rfl, ?_, ?_, rfl, rfl⟩)
  · unfold Files.putVec; dsimp only; rw [if_pos rfl]
  · intro x hx
    unfold Files.putVec; dsimp only; rw [if_neg hx]

/-- C72: for a file with one column the converted file holds the vector that loadVectorMatrixMarket (C51) returns: all the numbers. -/
theorem C72_one_column_partial [One R] [Div R] {lg : Txt → Option (R × Txt)} {ofInt : Int → R} {junk d o : R} {fuel k : Nat} {pr : R → Txt} {fmt : R → R}
    {h : Header} {cs : List (List Char)} {L : List (R × List Char)} {extra : List Char} {fs : Files R} {src dst : List Char} {m0 m1 : Mem (CTy R)}
    (hlg : ∀ v rest, AtSpace rest → scanLg lg (pr v ++ rest) = .ok (fmt v) rest)
    (hf : h.format = .array) (hp : ¬ Impossible h) (hc : ∀ s ∈ cs, IsLine s ∧ s.head? = some '%') (hm : L.length < 2 ^ 31)
    (hsep : ∀ e ∈ L, e.2 ≠ [] ∧ ∀ c ∈ e.2, isWhite c = true)
    (hs : fs.txt src = some (arrayText pr h cs L.length 1 L extra)) :
    ∃ v : List R, v = (L.map fun x => fmt x.1) ∧
      (mtx2bin lg ofInt junk fuel d o fs src dst k).Ok m0 (fun r _ => ∃ fs', r = some fs' ∧ fs'.vec dst = some ⟨v.length, v⟩) ∧
      (loadVectorMM lg fuel (arrayText pr h cs L.length 1 L extra)).Ok m1 (fun r mem => r = some (some ((v.length : Int), 1)) ∧
        ∀ y, ∀ hy : y < v.length, mem (.vec 0) (y : Int) = some v[y]) := by
  refine ⟨_, rfl, ?_, ?_⟩
  · refine Script.Ok.mono (C72_convert_partial hlg hf hp hc hm (by norm_num) hsep (Nat.le_refl _) hs) ?_
    rintro r _ ⟨fs', h1, h2, -⟩
    refine ⟨fs', h1, ?_⟩
    rw [h2, List.take_length, List.length_map]
  · have h31 : 1 ≤ 1 ∧ 1 < 2 ^ 31 := by norm_num
    have hm1 : L.length * 1 < 2 ^ 31 := by rw [Nat.mul_one]; exact hm
    have hex : L.length < L.length * 1 → ∀ v r, scanLg lg extra ≠ .ok v r := fun hx => absurd hx (by rw [Nat.mul_one]; exact Nat.lt_irrefl _)
    refine Script.Ok.mono (C51_load_partial (m0 := m1) (fuel := fuel) hlg hf hp hc hm h31 hm1 hsep hex) ?_
    rintro r mem ⟨h1, h2⟩
    rw [Nat.mul_one, if_pos (Nat.le_refl _)] at h1
    rw [Nat.mul_one] at h2
    refine ⟨by rw [h1, List.length_map]; rfl, fun y hy => ?_⟩
    rw [List.length_map] at hy
    rw [h2 (Nat.le_refl _) y hy hy, List.getElem_map]

/-! ### What is false -/

/-- How many numbers the converted file holds. -/
def written (r : Option (Files Int)) (dst : List Char) : Option Nat := (r.bind fun fs => fs.vec dst).map fun F => F.vals.length

def twoNums : List (Int × List Char) := [(1, [' ']), (2, ['\n'])]

theorem columns_run : ((mtx2bin lgInt id 0 3 26 (-1) (oneText "a.mtx".toList (arrayText printD ⟨.array, .real, .general⟩ [] 1 2 twoNums []))
    "a.mtx".toList "a.bin".toList 0).run (fun _ _ => none)).map (fun x => written x.1 "a.bin".toList) = some (some 1) := by
  decide +kernel

theorem complex_run : ((mtx2bin lgInt id 0 3 26 (-1) (oneText "a.mtx".toList (arrayText printD ⟨.array, .complex, .general⟩ [] 1 1 twoNums []))
    "a.mtx".toList "a.bin".toList 0).run (fun _ _ => none)).map (fun x => written x.1 "a.bin".toList) = some (some 1) := by
  decide +kernel

/-- C72 is false for arrays with several columns and for complex arrays: only as many numbers as there are rows are converted, the rest is
dropped without a word. Here: one row with two columns, and one complex number. -/
theorem C72_columns_false (h : Header) (n : Nat) (hn : h = ⟨.array, .real, .general⟩ ∧ n = 2 ∨ h = ⟨.array, .complex, .general⟩ ∧ n = 1) :
    ¬ (mtx2bin lgInt id 0 3 26 (-1) (oneText "a.mtx".toList (arrayText printD h [] 1 n twoNums [])) "a.mtx".toList "a.bin".toList 0).Ok
      (fun _ _ => none) (fun r _ => ∃ fs' F, r = some fs' ∧ fs'.vec "a.bin".toList = some F ∧ F.vals = twoNums.map fun x => x.1) := by
  intro hx
  rcases hn with ⟨rfl, rfl⟩ | ⟨rfl, rfl⟩
  · obtain ⟨r, m', h2, fs', F, rfl, h3, h4⟩ := ok_run_proj hx (fun r _ => written r "a.bin".toList) columns_run
    rw [show written (some fs') "a.bin".toList = (fs'.vec "a.bin".toList).map fun F => F.vals.length from rfl, h3, Option.map_some, h4] at h2
    cases h2
  · obtain ⟨r, m', h2, fs', F, rfl, h3, h4⟩ := ok_run_proj hx (fun r _ => written r "a.bin".toList) complex_run
    rw [show written (some fs') "a.bin".toList = (fs'.vec "a.bin".toList).map fun F => F.vals.length from rfl, h3, Option.map_some, h4] at h2
    cases h2

theorem short_ub : Script.runUB (mtx2bin lgInt id 0 3 26 (-1) (oneText "a.mtx".toList (arrayText printD ⟨.array, .real, .general⟩ [] 3 1 twoNums []))
    "a.mtx".toList "a.bin".toList 0) (fun _ _ => none) = true := by
  decide +kernel

attribute [local irreducible] Script.Ok mtx2bin in
/-- C72 is false for texts with fewer numbers than rows: a variable that was never set is stored. -/
theorem C72_short_false : ¬ (∀ m : Nat, (mtx2bin lgInt id 0 3 26 (-1)
      (oneText "a.mtx".toList (arrayText printD ⟨.array, .real, .general⟩ [] m 1 twoNums [])) "a.mtx".toList "a.bin".toList 0).Ok
    (fun _ _ => none) (fun _ _ => True)) := by
  intro h
  have h1 := Script.Ok.not_runUB (h 3)
  rw [short_ub] at h1
  cases h1

/-! ### Example -/

-- a vector of two numbers with a comment, followed by an empty line
example : (mtx2bin lgInt id 0 3 26 (-1) (oneText "v.mtx".toList (arrayText (fun v => printD (fmtInt v)) ⟨.array, .real, .general⟩ ["% v".toList] 2 1
      [(7, ['\n']), (-9, [' ', '\n'])] "\n".toList)) "v.mtx".toList "v.bin".toList 0).Ok (fun _ _ => none)
    (fun r _ => ∃ fs', r = some fs' ∧ fs'.vec "v.bin".toList = some ⟨2, [7, -9]⟩) := by
  have hsp : ∀ e ∈ [((7 : Int), ['\n']), (-9, [' ', '\n'])], e.2 ≠ [] ∧ ∀ c ∈ e.2, isWhite c = true := by decide
  refine Script.Ok.mono (C72_convert_partial (L := [((7 : Int), ['\n']), (-9, [' ', '\n'])]) (fmt := fmtInt) (n := 1) lgInt_ok rfl
    (by rintro (⟨_, h⟩ | ⟨_, h⟩ | ⟨h, _⟩) <;> cases h) ?_ (by norm_num) (by norm_num) hsp (by decide) (oneText_txt _ _)) ?_
  · intro s hs
    rw [List.mem_singleton] at hs
    subst hs
    exact ⟨⟨by decide +kernel, by decide +kernel⟩, by decide +kernel⟩
  · rintro r _ ⟨fs', h1, h2, -⟩
    refine ⟨fs', h1, ?_⟩
    rw [h2]
    simp [fmtInt]

end SpMP.Props
