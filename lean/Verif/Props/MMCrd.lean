import Verif.MMioCrdProof
import Verif.Spec.MMCrd
import Verif.Props.MMText
/-
Property theorems C59 (whole coordinate files).
-/

namespace SpMP.Props
open SpMP SpMP.Spec

variable {R : Type}

/-- The type code of a header. -/
def crdCode (h : Header) : TC := ⟨'M', h.format.letter, h.field.letter, h.symm.letter⟩

/-- The arrays I, J and val hold the entries of `L` in order; val has one number for each entry of a real file and two for each entry
of a complex file. -/
def HoldsCrd (m : Mem (CTy R)) (d : Field) (L : List (CrdEntry R)) : Prop :=
  ∀ l, ∀ h : l < L.length, m (.itmp 0) (l : Int) = some L[l].1 ∧ m (.itmp 1) (l : Int) = some L[l].2.1 ∧
    (d = .real → m (.vec 0) (l : Int) = some L[l].2.2.1) ∧
    (d = .complex → m (.vec 0) (2 * (l : Int)) = some L[l].2.2.1 ∧ m (.vec 0) (2 * (l : Int) + 1) = some L[l].2.2.2)

/-- What printing and reading do to the numbers of an entry. -/
def reread (fmt : R → R) (e : CrdEntry R) : CrdEntry R := (e.1, e.2.1, fmt e.2.2.1, fmt e.2.2.2)

theorem entryText_crdEntry (pr : R → Txt) (d : Field) : entryText pr d = crdEntry pr d := by
  funext e
  unfold entryText crdEntry
  rw [decimal_printD, decimal_printD]
  cases d <;> simp [fieldText]

theorem sizeText (M N nz : Int) : decimal M ++ " ".toList ++ decimal N ++ " ".toList ++ decimal nz ++ "\n".toList = decimalLine [M, N, nz] := by
  unfold decimalLine
  simp [List.intercalate, List.intersperse]

/-- C59, mm_write_mtx_crd: with a coordinate header that is not of integer type, and a device that takes the whole file, the call
returns 0, the file is the header line, the size line and the lines of the entries in array order, and memory is unchanged.
Partial: integer headers (`C59_write_integer_false`), full devices (`C59_full_device_false`). -/
theorem C59_write_partial {pr : R → Txt} {h : Header} {M N : Int} {L : List (CrdEntry R)} {room : Nat} {m0 : Mem (CTy R)}
    (hf : h.format = .coordinate) (hd : h.field ≠ .integer) (hm : HoldsCrd m0 h.field L)
    (hr : (crdText pr h [] M N L.length L []).length ≤ room) :
    (Script.seq (crdSize L.length (crdCode h)) (mmWriteCrd pr room M N L.length (crdCode h)) .done).Ok m0
      (fun r m => r = (0, crdText pr h [] M N L.length L []) ∧ m = m0) := by
  obtain ⟨h1, h2, -, -⟩ := header_line h
  refine seq_rule ?_
  refine wp_mmWriteCrd (d := h.field) h1 rfl hd (fun _ _ => trivial) (Int.le_refl _) (Int.le_refl _) ?_ ?_ hm ?_
  · intro e
    show _ ≤ crdSize L.length (crdCode h) (.vec 0)
    unfold crdSize crdCode
    rw [e]; exact Int.le_refl _
  · intro e
    show _ ≤ crdSize L.length (crdCode h) (.vec 0)
    unfold crdSize crdCode
    rw [e]
    show _ ≤ ((_ : Nat) : Int) * 2
    omega
  · refine Script.ok_done_of ⟨?_, rfl⟩
    have e : mmBanner ++ ' ' :: ("matrix " ++ h.format.word ++ " " ++ h.field.word ++ " " ++ h.symm.word).toList ++
        '\n' :: (sizeLine [M, N, (L.length : Int)] ++ L.flatMap (crdEntry pr h.field)) = crdText pr h [] M N L.length L [] := by
      unfold crdText
      rw [sizeText, entryText_crdEntry, ← sizeLine_decimal, ← h2]
      unfold mmBanner
      simp
    rw [e, List.take_of_length_le hr]

/-- C59, mm_read_mtx_crd: a file with a coordinate header that is possible and not of integer type, comments, sizes that fit an int,
the lines of the entries `L` and then anything. If the file has the `nz` entries it promises, the call returns 0, the header, the
sizes and the entries in file order. If it has fewer and only white space follows, it returns MM_PREMATURE_EOF (12). Nothing is
written outside the arrays. Partial: integer headers (`C59_read_integer_false`). -/
theorem C59_read_partial {lg : Txt → Option (R × Txt)} {pr : R → Txt} {fmt : R → R} {h : Header} {cs : List (List Char)} {M N : Int}
    {nz fuel : Nat} {L : List (CrdEntry R)} {extra : List Char} {m0 : Mem (CTy R)}
    (hlg : ∀ v rest, AtSpace rest → scanLg lg (pr v ++ rest) = .ok (fmt v) rest)
    (hf : h.format = .coordinate) (hd : h.field ≠ .integer) (hp : ¬ Impossible h) (hc : ∀ s ∈ cs, IsLine s ∧ s.head? = some '%')
    (hM : -2 ^ 31 ≤ M ∧ M < 2 ^ 31) (hN : -2 ^ 31 ≤ N ∧ N < 2 ^ 31) (hz : nz < 2 ^ 31)
    (hL : ∀ e ∈ L, (-2 ^ 31 ≤ e.1 ∧ e.1 < 2 ^ 31) ∧ -2 ^ 31 ≤ e.2.1 ∧ e.2.1 < 2 ^ 31)
    (hex : L.length < nz → ∀ c ∈ extra, isWhite c = true) :
    (mmReadCrd lg fuel (crdText pr h cs M N nz L extra)).Ok m0 (fun r m =>
      r = some (if nz ≤ L.length then 0 else 12, (crdCode h), [M, N, nz]) ∧
      (nz ≤ L.length → HoldsCrd m h.field ((L.take nz).map (reread fmt)))) := by
  have e : crdText pr h cs M N nz L extra = h.line ++ '\n' :: (cs.flatMap (fun s => s ++ ['\n']) ++
      (decimalLine [M, N, (nz : Int)] ++ (L.flatMap (crdEntry pr h.field) ++ extra))) := by
    unfold crdText
    rw [sizeText, entryText_crdEntry]
    simp
  have hib : intBound = 2 ^ 31 := by unfold intBound; norm_num
  rw [e]
  obtain ⟨str, -, g2, g3⟩ := C50_format_parse h (cs.flatMap (fun s => s ++ ['\n']) ++
      (decimalLine [M, N, (nz : Int)] ++ (L.flatMap (crdEntry pr h.field) ++ extra)))
  rw [g2] at g3
  have hv : mmIsValid ⟨'M', h.format.letter, h.field.letter, h.symm.letter⟩ = true := by
    rw [← Bool.not_eq_false, C50_is_valid]; exact hp
  unfold mmReadCrd
  rw [g3]
  dsimp only
  rw [if_neg (by decide), if_neg (not_not.mpr ⟨hv, by rw [hf]; rfl, rfl⟩)]
  have hs := C50_size_partial hc (vs := [M, N, (nz : Int)]) (Or.inr rfl) (by
    intro v hv
    simp at hv
    rcases hv with rfl | rfl | rfl
    · exact hM
    · exact hN
    · norm_num at hz ⊢; omega) (L.flatMap (crdEntry pr h.field) ++ extra) fuel
  rw [show [M, N, (nz : Int)].length = 3 from rfl] at hs
  rw [hs]
  dsimp only
  rw [if_neg (by decide), if_pos (by cases hq : h.field <;> simp [Field.letter, hq] at hd ⊢)]
  refine seq_rule ?_
  refine wp_mmReadCrdData (d := h.field) hlg rfl hd (fun _ _ => trivial) (Int.le_refl _) (Int.le_refl _) ?_ ?_ (by rw [hib]; exact hL)
    (fun hl c hcc => by rw [← isWhite_eq]; exact hex hl c hcc) ?_
  · intro e
    unfold crdSize
    rw [e]; exact Int.le_refl _
  · intro e
    unfold crdSize
    rw [e]
    show _ ≤ ((_ : Nat) : Int) * 2
    omega
  · rintro c m' rfl hat
    refine Script.ok_done_of ⟨rfl, ?_⟩
    intro hle l hl
    rw [List.length_map, List.length_take] at hl
    have := hat l (by omega) (by omega) hle
    unfold CrdAt at this
    simpa [reread] using this

/-- C59: what mm_write_mtx_crd writes, mm_read_mtx_crd reads: the same header, sizes, indices and numbers (as printing and reading
leave them), for every coordinate header that is possible and not of integer type, whatever the memory of the reader. -/
theorem C59_round_trip_partial {lg : Txt → Option (R × Txt)} {pr : R → Txt} {fmt : R → R} {h : Header} {M N : Int}
    {room fuel : Nat} {L : List (CrdEntry R)} {m0 : Mem (CTy R)}
    (hlg : ∀ v rest, AtSpace rest → scanLg lg (pr v ++ rest) = .ok (fmt v) rest)
    (hf : h.format = .coordinate) (hd : h.field ≠ .integer) (hp : ¬ Impossible h) (hm : HoldsCrd m0 h.field L)
    (hr : (crdText pr h [] M N L.length L []).length ≤ room)
    (hM : -2 ^ 31 ≤ M ∧ M < 2 ^ 31) (hN : -2 ^ 31 ≤ N ∧ N < 2 ^ 31) (hz : L.length < 2 ^ 31)
    (hL : ∀ e ∈ L, (-2 ^ 31 ≤ e.1 ∧ e.1 < 2 ^ 31) ∧ -2 ^ 31 ≤ e.2.1 ∧ e.2.1 < 2 ^ 31) :
    (Script.seq (crdSize L.length (crdCode h)) (mmWriteCrd pr room M N L.length (crdCode h)) .done).Ok m0 (fun w m => w.1 = 0 ∧ m = m0 ∧
      ∀ m1 : Mem (CTy R), (mmReadCrd lg fuel w.2).Ok m1 (fun r m' =>
        r = some (0, (crdCode h), [M, N, (L.length : Int)]) ∧ HoldsCrd m' h.field (L.map (reread fmt)))) := by
  refine Script.Ok.mono (C59_write_partial hf hd hm hr) ?_
  rintro w m ⟨rfl, rfl⟩
  refine ⟨rfl, rfl, fun m1 => ?_⟩
  refine Script.Ok.mono (C59_read_partial hlg hf hd hp (by simp) hM hN hz hL (fun h => absurd h (by omega))) ?_
  rintro r m' ⟨h1, h2⟩
  rw [if_pos (Nat.le_refl _)] at h1
  have h2 := h2 (Nat.le_refl _)
  rw [List.take_length] at h2
  exact ⟨h1, h2⟩

/-- C59, mm_read_unsymmetric_sparse: a real coordinate file with at least the entries it promises gives the sizes, the indices less
one, and the numbers. Partial: shorter files (`C59_unsymmetric_short_false`). -/
theorem C59_unsymmetric_partial {lg : Txt → Option (R × Txt)} {pr : R → Txt} {fmt : R → R} {s : Symm} {cs : List (List Char)} {M N : Int}
    {fuel : Nat} {L : List (CrdEntry R)} {extra : List Char} {m0 : Mem (CTy R)}
    (hlg : ∀ v rest, AtSpace rest → scanLg lg (pr v ++ rest) = .ok (fmt v) rest)
    (hc : ∀ s ∈ cs, IsLine s ∧ s.head? = some '%')
    (hM : -2 ^ 31 ≤ M ∧ M < 2 ^ 31) (hN : -2 ^ 31 ≤ N ∧ N < 2 ^ 31) (hz : L.length < 2 ^ 31)
    (hL : ∀ e ∈ L, (-2 ^ 31 ≤ e.1 ∧ e.1 < 2 ^ 31) ∧ -2 ^ 31 ≤ e.2.1 ∧ e.2.1 < 2 ^ 31) :
    (mmReadUnsym lg fuel (crdText pr ⟨.coordinate, .real, s⟩ cs M N L.length L extra)).Ok m0 (fun r m =>
      r = some (some [M, N, (L.length : Int)]) ∧
      HoldsCrd m .real (L.map fun e => (e.1 - 1, e.2.1 - 1, fmt e.2.2.1, fmt e.2.2.2))) := by
  have e : crdText pr ⟨.coordinate, .real, s⟩ cs M N L.length L extra = (⟨.coordinate, .real, s⟩ : Header).line ++
      '\n' :: (cs.flatMap (fun s => s ++ ['\n']) ++
      (decimalLine [M, N, (L.length : Int)] ++ (L.flatMap (crdEntry pr .real) ++ extra))) := by
    unfold crdText
    rw [sizeText, entryText_crdEntry]
    simp
  have hib : intBound = 2 ^ 31 := by unfold intBound; norm_num
  rw [e]
  obtain ⟨str, -, g2, g3⟩ := C50_format_parse ⟨.coordinate, .real, s⟩ (cs.flatMap (fun s => s ++ ['\n']) ++
      (decimalLine [M, N, (L.length : Int)] ++ (L.flatMap (crdEntry pr .real) ++ extra)))
  rw [g2] at g3
  unfold mmReadUnsym
  rw [g3]
  dsimp only
  rw [if_neg (by decide), if_neg (not_not.mpr ⟨rfl, rfl, rfl⟩)]
  have hs := C50_size_partial hc (vs := [M, N, (L.length : Int)]) (Or.inr rfl) (by
    intro v hv
    simp at hv
    rcases hv with rfl | rfl | rfl
    · exact hM
    · exact hN
    · norm_num at hz ⊢; omega) (L.flatMap (crdEntry pr .real) ++ extra) fuel
  rw [show [M, N, (L.length : Int)].length = 3 from rfl] at hs
  rw [hs]
  dsimp only
  rw [if_neg (by decide)]
  refine seq_rule ?_
  refine wp_unsym hlg (fun _ _ => trivial) (fun _ _ => trivial) (Int.le_refl _) (Int.le_refl _) (Int.le_refl _) (by rw [hib]; exact hL) ?_
  intro _ m' hat
  refine Script.ok_done_of ⟨rfl, ?_⟩
  intro l hl
  rw [List.length_map] at hl
  have := hat l hl
  unfold CrdAt at this
  simpa using this

/-! ### Coordinate objects -/

/-- The loader of a coordinate object on the text of a file (COO.cpp:186-371); `none`: the reader is not finished after `fuel`
rounds. -/
def cooFromText [One R] (lg : Txt → Option (R × Txt)) (ofInt : Int → R) (junk : R) (fuel : Nat) (s : Txt) (pad : Nat) :
    Option (Script (CTy R) (Option (Nat × Nat × Int))) :=
  match mmParse lg ofInt junk fuel s with
  | none => none
  | some .ub => some ubScript
  | some .neg => some ubScript
  | some (.file F) => some (loadMM F false false pad)

/-- C59, COO::storeMatrixMarket and loadMatrixMarket: a coordinate object with the triples `T` is stored as a general real file from
which the loader builds a coordinate object with the same sizes and the same triples in the same order, the values as printing and
reading leave them. -/
theorem C59_coo_store_load_partial [One R] {lg : Txt → Option (R × Txt)} {ofInt : Int → R} {junk d : R} {pr : R → Txt} {fmt : R → R}
    {M N room fuel : Nat} {T : List (Nat × Nat × R)} {m0 : Mem (CTy R)}
    (hlg : ∀ v rest, AtSpace rest → scanLg lg (pr v ++ rest) = .ok (fmt v) rest)
    (hm : HoldsCoo m0 (Coo.ofList M N T d)) (hT : ∀ e ∈ T, e.1 < M ∧ e.2.1 < N)
    (hM : (M : Int) < 2 ^ 31) (hN : (N : Int) < 2 ^ 31) (hz : (T.length : Int) < 2 ^ 31)
    (hr : (crdText pr ⟨.coordinate, .real, .general⟩ [] M N T.length
      (T.map fun e => ((e.1 : Int) + 1, (e.2.1 : Int) + 1, e.2.2, e.2.2)) []).length ≤ room) :
    (Script.seq (crdSize T.length ⟨'M', 'C', 'R', 'G'⟩) (cooStoreMM pr room M N T.length) fun s =>
      (cooFromText lg ofInt junk fuel s 1).elim ubScript id).Ok m0 (fun r m =>
        r = some (M, N, (T.length : Int)) ∧ HoldsCoo m (Coo.ofList M N (T.map fun e => (e.1, e.2.1, fmt e.2.2)) 1)) := by
  set L : List (CrdEntry R) := T.map fun e => ((e.1 : Int) + 1, (e.2.1 : Int) + 1, e.2.2, e.2.2) with hLd
  have hib : intBound = 2 ^ 31 := by unfold intBound; norm_num
  have hlen : L.length = T.length := by rw [hLd, List.length_map]
  have hcrd : HoldsCrd m0 .real L := by
    intro l hl
    rw [hlen] at hl
    have g := hm l hl
    have e := Coo.ofList_get (m := M) (n := N) (d := d) hl
    simp only [Prod.ext_iff] at e
    rw [e.1, e.2.1, e.2.2] at g
    refine ⟨?_, ?_, ?_, by simp⟩
    · simpa [hLd] using g.1
    · simpa [hLd] using g.2.1
    · intro _; simpa [hLd] using g.2.2
  refine seq_rule ?_
  unfold cooStoreMM
  rw [wp_bind]
  have hstr : mmTypecodeToStr ⟨'M', 'C', 'R', 'G'⟩ = some (some "matrix coordinate real general".toList) := by decide +kernel
  rw [← hlen]
  refine wp_mmWriteCrd (d := .real) (L := L) hstr rfl (by simp) (fun _ _ => trivial) (Int.le_refl _) (Int.le_refl _) (fun _ => Int.le_refl _)
    (by simp) hcrd ?_
  rw [wp_pure]
  dsimp only
  set F : MMFile R := ⟨true, false, false, M, N, T.length, listed 1 T⟩ with hF
  have hent : L.flatMap (crdEntry pr .real) = F.entries.flatMap (entryLine pr) := by
    rw [hLd, hF]
    unfold listed
    rw [List.flatMap_map, List.flatMap_map]
    refine List.flatMap_congr ?_
    intro e _
    simp [crdEntry, fieldText, entryLine]
  have htxt : mmBanner ++ ' ' :: "matrix coordinate real general".toList ++ '\n' ::
      (sizeLine [(M : Int), N, (L.length : Int)] ++ L.flatMap (crdEntry pr .real)) = storeText pr F := by
    rw [hent, hlen]
    unfold storeText
    rw [hF]
    simp
  have hcr : crdText pr ⟨.coordinate, .real, .general⟩ [] M N T.length L [] = storeText pr F := by
    rw [← htxt]
    unfold crdText
    rw [sizeText, entryText_crdEntry, ← sizeLine_decimal, hlen]
    have : (⟨.coordinate, .real, .general⟩ : Header).line = mmBanner ++ ' ' :: "matrix coordinate real general".toList := by decide +kernel
    rw [this]
    simp
  rw [hcr] at hr
  rw [htxt, List.take_of_length_le hr]
  have hparse := mmParse_storeText (ofInt := ofInt) (junk := junk) hlg F (by rw [hib]; exact hM) (by rw [hib]; exact hN)
    (by rw [hib]; exact hz) (by
      intro e he
      rw [hF] at he
      unfold listed at he
      obtain ⟨f, hf, rfl⟩ := List.mem_map.mp he
      have := hT f hf
      rw [hib]
      norm_num at hM hN ⊢
      omega) fuel
  have hmap : (listed 1 T).map (fun e => (e.1, e.2.1, fmt e.2.2)) = listed 1 (T.map fun e => (e.1, e.2.1, fmt e.2.2)) := by
    unfold listed
    rw [List.map_map, List.map_map]; rfl
  have hcs : cooFromText lg ofInt junk fuel (storeText pr F) 1 =
      some (loadMM ⟨true, false, false, M, N, T.length, listed 1 (T.map fun e => (e.1, e.2.1, fmt e.2.2))⟩ false false 1) := by
    unfold cooFromText
    rw [hparse]
    dsimp only
    rw [hF]
    dsimp only
    rw [hmap]
  rw [hcs]
  rw [Option.elim_some, hlen]
  dsimp only [id]
  refine Script.Ok.mono (C13_load_general_partial (b := 1) (T0 := T.map fun e => (e.1, e.2.1, fmt e.2.2)) rfl rfl (Nat.le_refl _) rfl rfl rfl ?_ ?_
    (Or.inl rfl)) ?_
  · rw [List.length_map]
  · intro e he
    obtain ⟨f, hf, rfl⟩ := List.mem_map.mp he
    exact hT f hf
  · rintro r m ⟨m', n', ⟨-, a1, a2⟩, ⟨-, b1, b2⟩, T', hT', hr', hh⟩
    simp only [Bool.false_eq_true, if_false] at a1 a2 b1 b2 hT'
    have em : m' = M := by omega
    have en : n' = N := by omega
    subst em
    subst en
    have hp : padDiag (R := R) (min m' n') (min m' n') = [] := by unfold padDiag; simp
    have hid : (T.map fun e => (e.1, e.2.1, fmt e.2.2)).map (fileEntry (R := R) false false) = T.map fun e => (e.1, e.2.1, fmt e.2.2) := by
      rw [List.map_map]; rfl
    rw [hp, List.append_nil, hid] at hT'
    subst hT'
    rw [List.length_map] at hr'
    exact ⟨hr', hh⟩

/-! ### What is false -/

/-- C59, mm_write_mtx_crd with an integer header: the call returns MM_UNSUPPORTED_TYPE (15) after it has replaced the file by a header
and a size line that promises `nz` entries. -/
theorem C59_write_integer {pr : R → Txt} {h : Header} {M N nz : Int} {room : Nat} {sz : CArr → Int} {m0 : Mem (CTy R)}
    (hd : h.field = .integer) :
    (Script.seq sz (mmWriteCrd pr room M N nz (crdCode h)) .done).Ok m0
      (fun r m => r = (15, (crdText pr h [] M N nz [] []).take room) ∧ m = m0) := by
  obtain ⟨h1, h2, -, -⟩ := header_line h
  refine seq_rule ?_
  unfold mmWriteCrd crdBanner
  rw [wp_bind]
  unfold crdCode
  rw [h1]
  dsimp only
  rw [wp_pure]
  unfold crdValues
  rw [if_neg (by rw [hd]; simp [Field.letter]), wp_pure]
  refine Script.ok_done_of ⟨?_, rfl⟩
  have e0 : putTxt room [] (mmBanner ++ [' ']) = (mmBanner ++ [' ']).take room := by
    have := putTxt_take room [] (mmBanner ++ [' '])
    rwa [List.take_nil, List.nil_append] at this
  rw [e0, putTxt_take, putTxt_take]
  have e : crdText pr h [] M N nz [] [] = mmBanner ++ [' '] ++
      (("matrix " ++ h.format.word ++ " " ++ h.field.word ++ " " ++ h.symm.word).toList ++ ['\n']) ++ sizeLine [M, N, nz] := by
    unfold crdText
    rw [sizeText, ← sizeLine_decimal, ← h2]
    unfold mmBanner
    simp
  rw [e]

/-- What the sequential run does is allowed. -/
theorem ok_run_proj {α β : Type} {s : Script (CTy R) α} {m : Mem (CTy R)} {Q : α → Mem (CTy R) → Prop} (h : s.Ok m Q)
    (f : α → Mem (CTy R) → β) {b : β} (hr : (s.run m).map (fun x => f x.1 x.2) = some b) : ∃ r m', f r m' = b ∧ Q r m' := by
  cases e : s.run m with
  | none => rw [e] at hr; cases hr
  | some x =>
    rw [e] at hr
    exact ⟨x.1, x.2, by simpa using hr, h.run x.1 x.2 e⟩

/-- C59 is false as stated: integer headers cannot be written. -/
theorem C59_write_integer_false :
    ¬ (∀ (h : Header) (L : List (CrdEntry Int)) (m0 : Mem (CTy Int)), h.format = .coordinate → HoldsCrd m0 h.field L →
      (Script.seq (crdSize L.length (crdCode h)) (mmWriteCrd printD 1000 1 1 L.length (crdCode h)) .done).Ok m0 (fun r _ => r.1 = 0)) := by
  intro hh
  have h1 := (hh ⟨.coordinate, .integer, .general⟩ [] (fun _ _ => none) rfl (fun l h => absurd h (by simp)))
  obtain ⟨r, m', h2, h3⟩ := ok_run_proj h1 (fun r _ => r.1) (b := 15) (by decide +kernel)
  rw [h2] at h3
  cases h3

/-- C59 is false as stated: on a device that takes nothing, the writer returns 0. -/
theorem C59_full_device_false :
    ¬ (∀ (h : Header) (L : List (CrdEntry Int)) (m0 : Mem (CTy Int)) (room : Nat), h.format = .coordinate → h.field ≠ .integer →
      HoldsCrd m0 h.field L →
      (Script.seq (crdSize L.length (crdCode h)) (mmWriteCrd printD room 1 1 L.length (crdCode h)) .done).Ok m0
        (fun r _ => r.1 = 0 → r.2 = crdText printD h [] 1 1 L.length L [])) := by
  intro hh
  have h1 := (hh ⟨.coordinate, .real, .general⟩ [] (fun _ _ => none) 0 rfl (by simp) (fun l h => absurd h (by simp)))
  obtain ⟨r, m', h2, h3⟩ := ok_run_proj h1 (fun r _ => r) (b := (0, [])) (by decide +kernel)
  subst h2
  have := h3 rfl
  revert this
  decide +kernel

/-- C59 is false for files of integer type: the reader returns 0 and reads no entry; the arrays it hands out are uninitialised. -/
theorem C59_read_integer_false :
    ¬ (∀ (h : Header) (L : List (CrdEntry Int)), h.format = .coordinate → ¬ Impossible h →
      (mmReadCrd lgInt 0 (crdText printD h [] 1 1 L.length L [])).Ok (fun _ _ => none) (fun r m =>
        r = some (0, crdCode h, [1, 1, (L.length : Int)]) → HoldsCrd m h.field L)) := by
  intro hh
  have h1 := hh ⟨.coordinate, .integer, .general⟩ [(1, 1, 7, 0)] rfl (by rintro (⟨_, h⟩ | ⟨h, _⟩ | ⟨h, _⟩) <;> cases h)
  obtain ⟨r, m', h2, h3⟩ := ok_run_proj h1 (fun r m => (r, m (.itmp 0) 0)) (b := (some (0, ⟨'M', 'C', 'I', 'G'⟩, [1, 1, 1]), none))
    (by decide +kernel)
  injection h2 with h2 h4
  have h5 := (h3 h2 0 (by decide)).1
  rw [show (((0 : Nat) : Int)) = 0 from rfl, h4] at h5
  cases h5

/-- A file that promises two entries and has one. -/
def shortText : Txt := crdText printD ⟨.coordinate, .real, .general⟩ [] 1 1 2 [((1 : Int), 1, (7 : Int), 0)] []

theorem shortText_ub : Script.runUB (mmReadUnsym lgInt 0 shortText) (fun _ _ => none) = true := by decide +kernel

attribute [local irreducible] Script.Ok mmReadUnsym in
/-- C59 is false as stated: mm_read_unsymmetric_sparse on a file that is one entry short decrements an uninitialised index. -/
theorem C59_unsymmetric_short_false :
    ¬ (∀ (nz fuel : Nat) (L : List (CrdEntry Int)),
      (mmReadUnsym lgInt fuel (crdText printD ⟨.coordinate, .real, .general⟩ [] 1 1 nz L [])).Ok (fun _ _ => none) (fun _ _ => True)) := by
  intro h
  have h1 : (mmReadUnsym lgInt 0 shortText).Ok (fun _ _ => none) (fun _ _ => True) := h 2 0 [((1 : Int), 1, (7 : Int), 0)]
  have h2 := Script.Ok.not_runUB h1
  rw [shortText_ub] at h2
  cases h2

/-! ### Examples -/

/-- Arrays with two complex entries. -/
def crdMem : Mem (CTy Int) := fun a => match a with
  | .itmp k => fun i => if i = 0 then some (if k = 0 then (3 : Int) else 1) else if i = 1 then some (if k = 0 then (2 : Int) else -4) else none
  | .vec 0 => fun i => if 0 ≤ i ∧ i < 4 then some (10 * i - 15 : Int) else none
  | _ => fun _ => none

def crdExample : List (CrdEntry Int) := [(3, 1, -15, -5), (2, -4, 5, 15)]

theorem crdMem_holds : HoldsCrd crdMem .complex crdExample := by
  intro l hl
  have : l = 0 ∨ l = 1 := by simp [crdExample] at hl; omega
  rcases this with rfl | rfl
  · exact ⟨rfl, rfl, by simp, fun _ => ⟨rfl, rfl⟩⟩
  · exact ⟨rfl, rfl, by simp, fun _ => ⟨rfl, rfl⟩⟩

attribute [local irreducible] Script.Ok mmReadCrd mmWriteCrd mmReadUnsym cooStoreMM cooFromText

example : (Script.seq (crdSize crdExample.length (crdCode ⟨.coordinate, .complex, .hermitian⟩))
      (mmWriteCrd (fun v : Int => printD (fmtInt v)) 1000 5 5 crdExample.length (crdCode ⟨.coordinate, .complex, .hermitian⟩)) .done).Ok crdMem (fun w m =>
      w.1 = 0 ∧ m = crdMem ∧ ∀ m1 : Mem (CTy Int), (mmReadCrd lgInt 0 w.2).Ok m1 (fun r m' =>
        r = some (0, ⟨'M', 'C', 'C', 'H'⟩, [5, 5, 2]) ∧ HoldsCrd m' .complex (crdExample.map (reread fmtInt)))) :=
  C59_round_trip_partial (h := ⟨.coordinate, .complex, .hermitian⟩) lgInt_ok rfl (by simp)
    (by rintro (⟨h, _⟩ | ⟨h, _⟩ | ⟨h, _⟩) <;> cases h) crdMem_holds (by decide +kernel) (by decide) (by decide) (by decide) (by decide)

example (m0 : Mem (CTy Int)) : (mmReadCrd lgInt 0 (crdText (fun v : Int => printD (fmtInt v)) ⟨.coordinate, .pattern, .symmetric⟩
      ["% a comment".toList] 9 9 ((3 : Nat) : Int) crdExample " \n".toList)).Ok m0
    (fun r _ => r = some (12, ⟨'M', 'C', 'P', 'S'⟩, [9, 9, ((3 : Nat) : Int)])) := by
  have hc : ∀ s ∈ ["% a comment".toList], IsLine s ∧ s.head? = some '%' := by
    intro s hs
    rw [List.mem_singleton] at hs
    subst hs
    exact ⟨⟨by decide +kernel, by decide +kernel⟩, by decide +kernel⟩
  refine Script.Ok.mono (C59_read_partial (h := ⟨.coordinate, .pattern, .symmetric⟩) (nz := 3) (fmt := fmtInt) lgInt_ok rfl (by simp)
    (by rintro (⟨h, _⟩ | ⟨h, _⟩ | ⟨_, h | h⟩) <;> cases h) hc (by decide) (by decide) (by decide) (by decide) (fun _ => by decide)) ?_
  rintro r m ⟨h1, _⟩
  exact h1

example (m0 : Mem (CTy Int)) : (mmReadUnsym lgInt 0 (crdText (fun v : Int => printD (fmtInt v)) ⟨.coordinate, .real, .general⟩ [] 9 9
      (crdExample.length : Int) crdExample [])).Ok m0 (fun _ m => m (.itmp 1) ((1 : Nat) : Int) = some (-5 : Int)) :=
  Script.Ok.mono (C59_unsymmetric_partial (s := .general) (cs := []) lgInt_ok (by simp) (by decide) (by decide) (by decide) (by decide))
    (fun _ _ h => (h.2 1 (by decide)).2.1)

/-- Arrays with two real entries. -/
def cooMem2 : Mem (CTy Int) := fun a => match a with
  | .itmp k => fun i => if i = 0 then some (if k = 0 then (2 : Int) else 1) else if i = 1 then some (if k = 0 then (1 : Int) else 3) else none
  | .vec 0 => fun i => if i = 0 then some (8 : Int) else if i = 1 then some (-6 : Int) else none
  | _ => fun _ => none

theorem cooMem2_holds : HoldsCoo cooMem2 (Coo.ofList 2 3 [(1, 0, 8), (0, 2, (-6 : Int))] 0) := by
  intro l hl
  have : l = 0 ∨ l = 1 := by
    have : l < 2 := hl
    omega
  rcases this with rfl | rfl <;> exact ⟨rfl, rfl, rfl⟩

example : (Script.seq (crdSize 2 ⟨'M', 'C', 'R', 'G'⟩) (cooStoreMM (fun v : Int => printD (fmtInt v)) 1000 2 3 2) fun s =>
      (cooFromText lgInt id 0 0 s 1).elim ubScript id).Ok cooMem2 (fun r m =>
        r = some (2, 3, 2) ∧ HoldsCoo m (Coo.ofList 2 3 [(1, 0, fmtInt 8), (0, 2, fmtInt (-6))] 1)) :=
  C59_coo_store_load_partial (M := 2) (N := 3) (T := [(1, 0, 8), (0, 2, (-6 : Int))]) lgInt_ok cooMem2_holds (by decide) (by decide) (by decide)
    (by decide) (by decide +kernel)

end SpMP.Props
