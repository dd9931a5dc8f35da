import Verif.LoadVec
import Verif.StoreMM
import Verif.Props.Store
import Verif.BinFile
/-
Property theorems C50 (banner and size lines), C51 (dense vectors) and the text level of C13 and C17. The specification is in
Verif/Spec/MMText.lean.
-/

namespace SpMP.Props
open SpMP SpMP.Spec

variable {R : Type}

/-! ### The banner -/

/-- C50, mm_read_banner, for first lines whose first five words have fewer than 64 characters: the line is accepted (return value
0) exactly if it describes a header, the type code is then that of the header, and the rest of the file is left to be read.
Partial: the first word need only begin with the banner, and more than five words are accepted (`C50_banner_exact_false`); longer
words overflow a buffer (`C50_long_word_false`). -/
theorem C50_banner_partial {line rest : List Char} (hl : IsLine line) (hw : ∀ w ∈ (words line).take 5, w.length < 64) :
    ∃ code t, mmReadBanner (line ++ '\n' :: rest) = some (code, t, rest) ∧ (code = 0 ↔ ∃ h, Describes (words line) h) ∧
      ∀ h, Describes (words line) h → t = ⟨'M', h.format.letter, h.field.letter, h.symm.letter⟩ := by
  refine ⟨_, _, mmReadBanner_line hl.chars hl.short hw, ⟨describes_of_bannerOf, ?_⟩, ?_⟩
  · rintro ⟨h, hd⟩; rw [bannerOf_of_describes hd]
  · intro h hd; rw [bannerOf_of_describes hd]; rfl

/-- C50: a file that ends before the banner is reported as such. -/
theorem C50_banner_empty : mmReadBanner [] = some (12, ⟨' ', ' ', ' ', 'G'⟩, []) := rfl

/-- C50 is false as stated: a line with six words, the first of which is not the banner, is accepted. -/
theorem C50_banner_exact_false :
    ¬ (∀ (line rest : List Char) (t : TC), IsLine line → mmReadBanner (line ++ '\n' :: rest) = some (0, t, rest) →
      (words line).length = 5 ∧ (words line).head? = some "%%MatrixMarket".toList) := by
  intro h
  have := h "%%MatrixMarketX matrix array real general x".toList [] ⟨'M', 'A', 'R', 'G'⟩
    ⟨by decide +kernel, by decide +kernel⟩ (by decide +kernel)
  exact absurd this.1 (by decide +kernel)

/-- C50 is false as stated: a header with a word of 64 characters overflows the token buffer. -/
theorem C50_long_word_false : ¬ (∀ line rest, IsLine line → mmReadBanner (line ++ '\n' :: rest) ≠ none) := by
  intro h
  exact h (List.replicate 64 'x') [] ⟨by decide +kernel, by decide +kernel⟩ (by decide +kernel)

/-- The canonical lines, case by case. -/
theorem header_line (h : Header) :
    mmTypecodeToStr ⟨'M', h.format.letter, h.field.letter, h.symm.letter⟩ =
        some (some ("matrix " ++ h.format.word ++ " " ++ h.field.word ++ " " ++ h.symm.word).toList) ∧
      "%%MatrixMarket ".toList ++ ("matrix " ++ h.format.word ++ " " ++ h.field.word ++ " " ++ h.symm.word).toList = h.line ∧
      IsLine h.line ∧
      words h.line = ["%%MatrixMarket".toList, "matrix".toList, h.format.word.toList, h.field.word.toList, h.symm.word.toList] := by
  refine ⟨?_, ?_, ⟨?_, ?_⟩, ?_⟩
  · obtain ⟨f, d, s⟩ := h
    cases f <;> cases d <;> cases s <;> decide +kernel
  · unfold Header.line; simp
  · obtain ⟨f, d, s⟩ := h
    cases f <;> cases d <;> cases s <;> decide +kernel
  · obtain ⟨f, d, s⟩ := h
    cases f <;> cases d <;> cases s <;> decide +kernel
  · obtain ⟨f, d, s⟩ := h
    cases f <;> cases d <;> cases s <;> decide +kernel

/-- C50: formatting the type code of any header and reading the line again gives the same code and leaves the rest of the file. -/
theorem C50_format_parse (h : Header) (rest : List Char) :
    ∃ str, mmTypecodeToStr ⟨'M', h.format.letter, h.field.letter, h.symm.letter⟩ = some (some str) ∧
      "%%MatrixMarket ".toList ++ str = h.line ∧
      mmReadBanner ("%%MatrixMarket ".toList ++ str ++ '\n' :: rest) =
        some (0, ⟨'M', h.format.letter, h.field.letter, h.symm.letter⟩, rest) := by
  obtain ⟨h1, h2, h3, h4⟩ := header_line h
  refine ⟨_, h1, h2, ?_⟩
  have h5 : Describes (words h.line) h := by
    refine ⟨_, _, _, _, _, [], h4, List.prefix_refl _, by unfold SaysWord; decide +kernel, ?_, ?_, ?_⟩
    · cases h.format <;> (unfold SaysWord; decide +kernel)
    · cases h.field <;> (unfold SaysWord; decide +kernel)
    · cases h.symm <;> (unfold SaysWord; decide +kernel)
  have h6 : ∀ w ∈ (words h.line).take 5, w.length < 64 := by
    rw [h4]
    obtain ⟨f, d, s⟩ := h
    cases f <;> cases d <;> cases s <;> decide +kernel
  rw [h2, mmReadBanner_line h3.chars h3.short h6, bannerOf_of_describes h5]
  rfl

/-- C50: mm_is_valid rejects exactly the impossible combinations. -/
theorem C50_is_valid (h : Header) :
    mmIsValid ⟨'M', h.format.letter, h.field.letter, h.symm.letter⟩ = false ↔ Impossible h := by
  obtain ⟨f, d, s⟩ := h
  cases f <;> cases d <;> cases s <;> simp [mmIsValid, Impossible, Format.letter, Field.letter, Symm.letter]

/-! ### Size lines -/

/-- A size line: the numbers in decimal notation, separated by single blanks, and a newline. -/
def decimalLine (vs : List Int) : List Char := (" ".toList.intercalate (vs.map decimal)) ++ ['\n']

theorem sizeLine_decimal {vs : List Int} : sizeLine vs = decimalLine vs := by
  unfold decimalLine
  rw [show decimal = printD from funext decimal_printD]
  induction vs with
  | nil => rfl
  | cons v vs ih =>
    cases vs with
    | nil => simp [sizeLine, List.intercalate]
    | cons w vs =>
      show printD v ++ ' ' :: sizeLine (w :: vs) = _
      rw [ih]
      simp [List.intercalate, List.intersperse]

/-- C50, mm_read_mtx_crd_size and mm_read_mtx_array_size: any number of comment lines, then the two or three sizes; the sizes are
returned with code 0 and reading goes on after the line. Partial: sizes elsewhere (not on the first line that is no comment) are
not covered, and some files make the reader loop for ever (`C50_size_hang_false`). -/
theorem C50_size_partial {cs : List (List Char)} (hc : ∀ s ∈ cs, IsLine s ∧ s.head? = some '%') {vs : List Int}
    (hk : vs.length = 2 ∨ vs.length = 3) (hb : ∀ v ∈ vs, -2 ^ 31 ≤ v ∧ v < 2 ^ 31) (rest : List Char) (fuel : Nat) :
    mmReadSize vs.length fuel (cs.flatMap (fun s => s ++ ['\n']) ++ (decimalLine vs ++ rest)) = some (.ret 0 vs rest) := by
  rw [← sizeLine_decimal]
  refine mmReadSize_ok (fun s hs => ⟨(hc s hs).2, fun c h => ((hc s hs).1.chars c h).1, (hc s hs).1.short⟩) ?_ ?_ ?_ rest fuel
  · intro h; rw [h] at hk; simp at hk
  · omega
  · intro v hv; have := hb v hv; unfold intBound; norm_num at this ⊢; exact this

/-- C50: a file that ends inside the comments is reported as ended. -/
theorem C50_size_eof {cs : List (List Char)} (hc : ∀ s ∈ cs, IsLine s ∧ s.head? = some '%') (k fuel : Nat) :
    mmReadSize k fuel (cs.flatMap (fun s => s ++ ['\n'])) = some (.ret 12 (List.replicate k 0) []) := by
  have aux : ∀ (cs : List Txt), (∀ s ∈ cs, IsLine s ∧ s.head? = some '%') → ∀ f, skipComments f (cs.flatMap (fun s => s ++ ['\n'])) = none := by
    intro cs
    induction cs with
    | nil => intro _ f; cases f <;> rfl
    | cons s cs ih =>
      intro h f
      cases f with
      | zero => rfl
      | succ f =>
        have h1 := h s (List.mem_cons_self ..)
        have e : (s :: cs).flatMap (fun s => s ++ ['\n']) = s ++ '\n' :: cs.flatMap (fun s => s ++ ['\n']) := by simp
        rw [e]
        unfold skipComments
        rw [fgetsLine_line (fun c hcc => (h1.1.chars c hcc).1) h1.1.short]
        dsimp only
        have hp : (s ++ ['\n']).head? = some '%' := by
          cases s with
          | nil => exact absurd h1.2 (by simp)
          | cons c s => exact h1.2
        rw [if_pos hp]
        exact ih (fun x hx => h x (List.mem_cons_of_mem _ hx)) f
  unfold mmReadSize
  rw [aux cs hc]

/-- C50 is false as stated: if the size line is not numeric and neither is what follows, the readers never return. -/
theorem C50_size_hang_false :
    ¬ (∀ text : List Char, ∃ fuel, mmReadSize 3 fuel text ≠ none) := by
  intro h
  obtain ⟨fuel, hf⟩ := h "x\nx".toList
  refine hf ?_
  have aux : ∀ f o, sizeLoop 3 f ['x'] o = none := by
    intro f
    induction f with
    | zero => intro o; rfl
    | succ f ih =>
      intro o
      unfold sizeLoop
      have e : scanInts 3 ['x'] = .short [] ['x'] false := by
        have : scanInt intBound ['x'] = .fail ['x'] := rfl
        unfold scanInts; rw [this]
      rw [e]
      dsimp only
      rw [if_neg (by decide)]
      exact ih _
  exact aux fuel _

theorem printD_pos (v : Int) : 1 ≤ (printD v).length := by
  obtain ⟨c, s, h, _⟩ := printD_head v
  rw [h]; simp

/-- C50 is false as stated: the three writers compare the number of characters with the number of items, so they report failure
whether or not the text was written. -/
theorem C50_writers_report_false (room : Nat) (h : Header) (m n nz : Int) :
    (mmWriteCrdSize room m n nz).1 = 17 ∧ (mmWriteArraySize room m n).1 = 17 ∧
      (mmWriteBanner room ⟨'M', h.format.letter, h.field.letter, h.symm.letter⟩).map Prod.fst = some 17 := by
  have hm := printD_pos m
  have hn := printD_pos n
  have hz := printD_pos nz
  refine ⟨?_, ?_, ?_⟩
  · show (if (fprintf room (sizeLine [m, n, nz])).1 ≠ 3 then 17 else 0) = 17
    rw [if_pos]
    unfold fprintf
    split
    · show ((printD m ++ ' ' :: (printD n ++ ' ' :: (printD nz ++ ['\n']))).length : Int) ≠ 3
      simp only [List.length_append, List.length_cons, List.length_nil]
      omega
    · show (-1 : Int) ≠ _; decide
  · show (if (fprintf room (sizeLine [m, n])).1 ≠ 2 then 17 else 0) = 17
    rw [if_pos]
    unfold fprintf
    split
    · show ((printD m ++ ' ' :: (printD n ++ ['\n'])).length : Int) ≠ 2
      simp only [List.length_append, List.length_cons, List.length_nil]
      omega
    · show (-1 : Int) ≠ _; decide
  · obtain ⟨str, h1, _⟩ := C50_format_parse h []
    unfold mmWriteBanner
    rw [h1]
    show some (if (fprintf room (mmBanner ++ ' ' :: str ++ ['\n'])).1 ≠ 2 then 17 else 0) = some 17
    rw [if_pos]
    unfold fprintf
    split
    · have : mmBanner.length = 14 := by decide +kernel
      simp only [List.length_append, List.length_cons, List.length_nil, this]
      omega
    · show (-1 : Int) ≠ _; decide

/-- C50: what the writers write, if the device takes it, is the size line and the header line. -/
theorem C50_writers_text_partial {room : Nat} (h : Header) (m n nz : Int) (h1 : (decimalLine [m, n, nz]).length ≤ room)
    (h2 : (decimalLine [m, n]).length ≤ room) (h3 : h.line.length + 1 ≤ room) :
    (mmWriteCrdSize room m n nz).2 = decimalLine [m, n, nz] ∧ (mmWriteArraySize room m n).2 = decimalLine [m, n] ∧
      (mmWriteBanner room ⟨'M', h.format.letter, h.field.letter, h.symm.letter⟩).map Prod.snd = some (h.line ++ ['\n']) := by
  refine ⟨?_, ?_, ?_⟩
  · show (fprintf room (sizeLine [m, n, nz])).2 = _
    rw [sizeLine_decimal]; unfold fprintf; rw [if_pos h1]
  · show (fprintf room (sizeLine [m, n])).2 = _
    rw [sizeLine_decimal]; unfold fprintf; rw [if_pos h2]
  · obtain ⟨str, g1, g2, _⟩ := C50_format_parse h []
    have e : mmBanner ++ ' ' :: str ++ ['\n'] = h.line ++ ['\n'] := by rw [← g2]; unfold mmBanner; simp
    unfold mmWriteBanner
    rw [g1]
    show some (fprintf room (mmBanner ++ ' ' :: str ++ ['\n'])).2 = _
    rw [e]
    unfold fprintf; rw [if_pos (by simpa using h3)]

/-! ### Text level of C13 and C17 -/

/-- The CSR constructor from the text of a file (CSR.cpp:101-125 and COO.cpp:186-371); `none`: the reader is not finished after
`fuel` rounds. -/
def csrFromText [One R] [Div R] (lg : Txt → Option (R × Txt)) (ofInt : Int → R) (junk : R) (fuel : Nat) (s : Txt) (k : Nat) (ob : Int) :
    Option (Script (CTy R) (Option (Nat × Nat × Int))) :=
  match mmParse lg ofInt junk fuel s with
  | none => none
  | some .ub => some ubScript
  | some .neg => some ubScript
  | some (.file F) => some (csrFromFile F false 1 k ob)

/-- C17 with the text of the file: storing an object writes a text from which the constructor builds a matrix of the same size with
the same entries, rows sorted by column. `pr` is printf("%20.16g") and `lg` strtod; what they do to a value together is `fmt`. -/
theorem C17_store_load_text_partial [One R] [Div R] {sz : CArr → Int} {k k' base ob fuel : Nat} {A : Csr R} {m0 : Mem (CTy R)}
    {lg : Txt → Option (R × Txt)} {ofInt : Int → R} {junk : R} {pr : R → Txt} {fmt : R → R}
    (hlg : ∀ v rest, AtSpace rest → scanLg lg (pr v ++ rest) = .ok (fmt v) rest)
    (hwf : A.WF) (hm : (A.m : Int) < 2 ^ 31) (hn : (A.n : Int) < 2 ^ 31) (hz : (A.nnz : Int) < 2 ^ 31)
    (hp : HoldsPat m0 k base A) (hv : HoldsVal m0 k A) :
    (Script.seq sz (storeMM k A.m A.n (fun v => v)) fun F =>
      (csrFromText lg ofInt junk fuel (storeText pr F) k' ob).elim ubScript id).Ok m0 (fun _ m => ∃ B : Csr R,
      B.m = A.m ∧ B.n = A.n ∧ B.WF ∧ HoldsPat m k' ob B ∧ HoldsVal m k' B ∧
      ∀ i, i < A.m → (B.row i).Pairwise (fun x y => x.1 ≤ y.1) ∧ (B.row i).Perm ((A.row i).map fun x => (x.1, fmt x.2))) := by
  have hib : intBound = 2 ^ 31 := by unfold intBound; norm_num
  refine seq_rule ?_
  refine wp_storeMM hwf (fun _ _ => trivial) hp hv ?_
  have hin : ∀ e ∈ triples A A.m, e.1 < A.m ∧ e.2.1 < A.n := by
    intro f hf
    obtain ⟨i, hi, hf⟩ := List.mem_flatMap.mp hf
    obtain ⟨x, hx, rfl⟩ := List.mem_map.mp hf
    obtain ⟨j, h1, h2, rfl⟩ := Csr.mem_row.mp hx
    have hi := List.mem_range.mp hi
    exact ⟨hi, hwf.col_lt j (Csr.InRow.lt_nnz hwf ⟨hi, h1, h2⟩)⟩
  have hft : (triples A A.m).map (fmtTriple (fun v : R => v)) = triples A A.m := by
    have : fmtTriple (fun v : R => v) = id := funext fun _ => rfl
    rw [this, List.map_id]
  rw [hft]
  have hparse := mmParse_storeText (ofInt := ofInt) (junk := junk) hlg ⟨true, false, false, A.m, A.n, A.nnz, listed 1 (triples A A.m)⟩
    (by rw [hib]; exact hm) (by rw [hib]; exact hn) (by rw [hib]; exact hz) (by
      intro e he
      unfold listed at he
      obtain ⟨f, hf, rfl⟩ := List.mem_map.mp he
      have := hin f hf
      rw [hib]
      norm_num at hm hn ⊢
      omega) fuel
  have hmap : (listed 1 (triples A A.m)).map (fun e => (e.1, e.2.1, fmt e.2.2)) = listed 1 ((triples A A.m).map (fmtTriple fmt)) := by
    unfold listed fmtTriple
    rw [List.map_map, List.map_map]; rfl
  have hcs : csrFromText lg ofInt junk fuel (storeText pr ⟨true, false, false, A.m, A.n, A.nnz, listed 1 (triples A A.m)⟩) k' ob =
      some (csrFromFile ⟨true, false, false, A.m, A.n, A.nnz, listed 1 ((triples A A.m).map (fmtTriple fmt))⟩ false 1 k' ob) := by
    unfold csrFromText
    rw [hparse]
    dsimp only
    rw [hmap]
  rw [hcs]
  show (csrFromFile _ false 1 k' ob).Ok _ _
  refine Script.Ok.mono (C13_csr_constructor_partial (T0 := (triples A A.m).map (fmtTriple fmt)) rfl rfl rfl ?_ ?_) ?_
  · rw [List.length_map, triples_length hwf (Nat.le_refl _)]; rfl
  · intro e he
    obtain ⟨f, hf, rfl⟩ := List.mem_map.mp he
    exact hin f hf
  · rintro _ m ⟨B, g1, g2, g3, g4, g5, g6⟩
    refine ⟨B, g1, g2, g3, g4, g5, ?_⟩
    intro i hi
    obtain ⟨q1, q2⟩ := g6 i hi
    refine ⟨q1, ?_⟩
    have e : (((triples A A.m).map (fmtTriple fmt)).filter fun e => e.1 = i).map (fun e => (e.2.1, if false then (1 : R) else e.2.2)) =
        (A.row i).map fun x => (x.1, fmt x.2) := by
      rw [List.filter_map, List.map_map]
      have := congrArg (List.map fun x : Nat × R => (x.1, fmt x.2)) (triples_filter A hi)
      rw [List.map_map] at this
      exact this
    exact e ▸ q2

/-! ### Dense vectors -/

/-- C51: a text with an array header that is possible, comments, the sizes `m` and `n` (n positive, the product an int) and then
values separated by white space. If there are `m * n` values, the call returns true with the sizes and the values in file order,
whatever follows. If there are fewer and nothing that reads as a number follows, it returns false. Nothing is written outside the
vector. Partial: `n = 0` (`C51_zero_columns_false`). -/
theorem C51_load_partial {lg : Txt → Option (R × Txt)} {pr : R → Txt} {fmt : R → R} {h : Header} {cs : List (List Char)} {m n fuel : Nat}
    {L : List (R × List Char)} {extra : List Char} {m0 : Mem (CTy R)}
    (hlg : ∀ v rest, AtSpace rest → scanLg lg (pr v ++ rest) = .ok (fmt v) rest)
    (hf : h.format = .array) (hp : ¬ Impossible h) (hc : ∀ s ∈ cs, IsLine s ∧ s.head? = some '%')
    (hm : m < 2 ^ 31) (hn : 1 ≤ n ∧ n < 2 ^ 31) (hmn : m * n < 2 ^ 31)
    (hsep : ∀ e ∈ L, e.2 ≠ [] ∧ ∀ c ∈ e.2, isWhite c = true)
    (hex : L.length < m * n → ∀ v r, scanLg lg extra ≠ .ok v r) :
    (loadVectorMM lg fuel (h.line ++ '\n' :: (cs.flatMap (fun s => s ++ ['\n']) ++
        (decimalLine [(m : Int), n] ++ (L.flatMap (fun x => pr x.1 ++ x.2) ++ extra))))).Ok m0 (fun r mem =>
      r = some (if m * n ≤ L.length then some ((m : Int), (n : Int)) else none) ∧
      (m * n ≤ L.length → ∀ y, ∀ hy : y < L.length, y < m * n → mem (.vec 0) (y : Int) = some (fmt (L[y].1)))) := by
  obtain ⟨str, -, g2, g3⟩ := C50_format_parse h (cs.flatMap (fun s => s ++ ['\n']) ++
        (decimalLine [(m : Int), n] ++ (L.flatMap (fun x => pr x.1 ++ x.2) ++ extra)))
  rw [g2] at g3
  unfold loadVectorMM
  rw [g3]
  dsimp only
  rw [if_neg (by decide), if_neg (by rw [C50_is_valid]; exact hp), if_neg (by rw [hf]; decide)]
  have hs := C50_size_partial hc (vs := [(m : Int), (n : Int)]) (Or.inl rfl) (by
    intro v hv
    simp at hv
    rcases hv with rfl | rfl
    · norm_num at hm ⊢; omega
    · norm_num at hn ⊢; omega) (L.flatMap (fun x => pr x.1 ++ x.2) ++ extra) fuel
  rw [show [(m : Int), (n : Int)].length = 2 from rfl] at hs
  rw [hs]
  dsimp only
  have hmn' : (m : Int) * n < 2147483648 := by norm_num at hmn; exact_mod_cast hmn
  rw [if_neg (by decide), if_neg (by unfold intBound; have : (0 : Int) ≤ (m : Int) * n := by positivity
                                     omega)]
  refine seq_rule ?_
  refine wp_lvBody (L := L) hn.1 hlg (fun e he => ⟨(hsep e he).1, fun c hcc => by rw [← isWhite_eq]; exact (hsep e he).2 c hcc⟩) hex rfl
    (fun _ => trivial) ?_
  rintro b m' rfl hval
  refine Script.ok_done_of ?_
  refine ⟨?_, fun h1 y hy h2 => hval y hy h2 h1⟩
  by_cases hle : m * n ≤ L.length
  · rw [if_pos hle, decide_eq_true hle]; rfl
  · rw [if_neg hle, decide_eq_false hle]; rfl

/-- C51: if the first line describes no header, or an impossible one, or one of a coordinate file, the call returns false without
touching memory. -/
theorem C51_reject {lg : Txt → Option (R × Txt)} {line rest : List Char} {fuel : Nat} {m0 : Mem (CTy R)} (hl : IsLine line)
    (hw : ∀ w ∈ (words line).take 5, w.length < 64)
    (hbad : ∀ h, Describes (words line) h → Impossible h ∨ h.format = .coordinate) :
    (loadVectorMM lg fuel (line ++ '\n' :: rest)).Ok m0 (fun r mem => r = some none ∧ mem = m0) := by
  obtain ⟨code, t, h1, h2, h3⟩ := C50_banner_partial (rest := rest) hl hw
  unfold loadVectorMM
  rw [h1]
  dsimp only
  by_cases hc : code = 0
  · obtain ⟨h, hd⟩ := h2.mp hc
    rw [if_neg (not_not.mpr hc), h3 h hd]
    by_cases hv : mmIsValid ⟨'M', h.format.letter, h.field.letter, h.symm.letter⟩ = false
    · rw [if_pos hv]; exact Script.ok_done_of ⟨rfl, rfl⟩
    · rw [if_neg hv]
      rcases hbad h hd with hi | hi
      · exact absurd ((C50_is_valid h).mpr hi) hv
      · rw [if_pos (by rw [hi]; show 'C' ≠ 'A'; decide)]; exact Script.ok_done_of ⟨rfl, rfl⟩
  · rw [if_pos hc]; exact Script.ok_done_of ⟨rfl, rfl⟩

/-- strtod on integers, for the examples. -/
def lgInt (s : Txt) : Option (Int × Txt) := match scanInt (2 ^ 63) s with
  | .ok v r => some (v, r)
  | _ => none

/-- C51 is false as stated: a file with one row and no columns makes the loader write before the vector. -/
theorem C51_zero_columns_false :
    ¬ (∀ (fuel : Nat) (text : Txt), (loadVectorMM lgInt fuel text).Ok (fun _ _ => none) (fun _ _ => True)) := by
  intro h
  have h1 := (h 1 "%%MatrixMarket matrix array real general\n1 0\n5\n".toList).not_runUB
  rw [show Script.runUB _ _ = true by decide +kernel] at h1
  cases h1

/-! ### Examples -/

example : Describes (words "%%MatrixMarket MATRIX Coordinate real\tsymmetric".toList) ⟨.coordinate, .real, .symmetric⟩ := by
  refine ⟨"%%MatrixMarket".toList, "MATRIX".toList, "Coordinate".toList, "real".toList, "symmetric".toList, [], by decide +kernel,
    by decide +kernel, ?_, ?_, ?_, ?_⟩ <;> (unfold SaysWord; decide +kernel)

example : mmReadBanner ("%%MatrixMarket MATRIX Coordinate real\tsymmetric".toList ++ '\n' :: "1 1 0".toList) =
    some (0, ⟨'M', 'C', 'R', 'S'⟩, "1 1 0".toList) := by decide +kernel

example : mmReadSize 3 0 (["% a comment".toList].flatMap (fun s => s ++ ['\n']) ++ (decimalLine [12, 7, 40] ++ "1 1 5".toList)) =
    some (.ret 0 [12, 7, 40] "1 1 5".toList) := by
  refine C50_size_partial (vs := [12, 7, 40]) ?_ (Or.inr rfl) ?_ _ 0
  · intro s hs
    rw [List.mem_singleton] at hs
    subst hs
    exact ⟨⟨by decide +kernel, by decide +kernel⟩, by decide +kernel⟩
  · decide

theorem lgInt_print (v : Int) (h : -2 ^ 63 ≤ v ∧ v < 2 ^ 63) (rest : Txt) (hr : AtSpace rest) :
    scanLg lgInt (printD v ++ rest) = .ok v rest := by
  obtain ⟨c, s, hc, hns, -, -⟩ := printD_head v
  have hsk : skipWs (printD v ++ rest) = printD v ++ rest := by rw [hc, List.cons_append]; exact skipWs_of_head hns
  unfold scanLg lgInt
  rw [hsk, if_neg (by rw [hc]; simp), scanInt_printD h hr.noDig]

/-- For the examples: values that fit 64 bits are kept. -/
def fmtInt (v : Int) : Int := if -2 ^ 63 ≤ v ∧ v < 2 ^ 63 then v else 0

/-- strtod and printf on bounded integers satisfy the hypothesis of C17 and C51 about them. -/
theorem lgInt_ok : ∀ (v : Int) rest, AtSpace rest → scanLg lgInt (printD (fmtInt v) ++ rest) = .ok (fmtInt v) rest := by
  intro v rest hr
  refine lgInt_print _ ?_ rest hr
  unfold fmtInt
  split
  · assumption
  · decide

example : (Script.seq (fun _ => 0) (storeMM 0 exampleCsr.m exampleCsr.n (fun v => v)) fun F =>
      (csrFromText lgInt id 0 0 (storeText (fun v : Int => printD (fmtInt v)) F) 1 (0 : Nat)).elim ubScript id).Ok
    (csrMem 0 1 exampleCsr (fun _ => 0) (fun _ => 0)) (fun _ m => ∃ B : Csr Int, B.m = exampleCsr.m ∧ HoldsPat m 1 0 B) :=
  Script.Ok.mono (C17_store_load_text_partial lgInt_ok exampleCsr_wf (by decide) (by decide) (by decide)
    (csrMem_pat 0 1 exampleCsr _ _) (csrMem_val 0 1 exampleCsr _ _))
    (by rintro _ m ⟨B, h1, _, _, h4, _⟩; exact ⟨B, h1, h4⟩)

attribute [local irreducible] Script.Ok loadVectorMM

example (m0 : Mem (CTy Int)) : (loadVectorMM lgInt 0 ((⟨.array, .real, .general⟩ : Header).line ++ '\n' :: (([] : List Txt).flatMap (fun s => s ++ ['\n']) ++
      (decimalLine [((2 : Nat) : Int), ((1 : Nat) : Int)] ++ ([((7 : Int), ['\n']), (-9, [' ', '\n'])].flatMap (fun x =>
        printD (fmtInt x.1) ++ x.2) ++ []))))).Ok m0
    (fun r mem => r = some (some (2, 1)) ∧ mem (.vec 0) 1 = some (-9 : Int)) := by
  have h31 : 2 < 2 ^ 31 := by norm_num
  have h31m : 2 * 1 < 2 ^ 31 := by norm_num
  have h31' : 1 ≤ 1 ∧ 1 < 2 ^ 31 := by norm_num
  have hsp : ∀ e ∈ [((7 : Int), ['\n']), (-9, [' ', '\n'])], e.2 ≠ [] ∧ ∀ c ∈ e.2, isWhite c = true := by decide
  have h := C51_load_partial (h := ⟨.array, .real, .general⟩) (m := 2) (n := 1) (L := [((7 : Int), ['\n']), (-9, [' ', '\n'])])
    (pr := fun v : Int => printD (fmtInt v)) (fmt := fmtInt) (cs := []) (extra := []) (fuel := 0) (m0 := m0) lgInt_ok rfl
    (by rintro (⟨_, h⟩ | ⟨_, h⟩ | ⟨h, _⟩) <;> cases h) (fun _ h => absurd h (List.not_mem_nil)) h31 h31' h31m
    hsp (fun h => absurd h (by decide))
  refine Script.Ok.mono h ?_
  rintro r mem ⟨h1, h2⟩
  refine ⟨h1, ?_⟩
  have h3 := h2 (by decide) 1 (by decide) (by decide)
  refine Eq.trans h3 ?_
  decide

end SpMP.Props
