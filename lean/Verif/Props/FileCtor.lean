import Verif.CrdParse
import Verif.Spec.FileCtor
import Verif.Props.MMCrd
import Verif.Props.BinFile
import Verif.Props.Laplacian

/-
C68: constructing a matrix from a file name, and converting files with mtx2bin.
-/

namespace SpMP.Props
open SpMP SpMP.Spec

variable {R : Type}

/-! ### Names -/

theorem kindOf_grid {v n : Int} {name : Txt} : kindOf v name = .grid n ↔ n = v ∧ printD v = name := by
  unfold kindOf
  split
  · next h => exact ⟨fun e => ⟨(CtorKind.grid.inj e).symm, h⟩, fun e => by rw [e.1]⟩
  · next h =>
    refine ⟨fun e => ?_, fun e => absurd e.2 h⟩
    split at e <;> cases e

theorem endsBin_iff {name : Txt} : endsBin name = true ↔ ∃ stem, stem ≠ [] ∧ name = stem ++ ".bin".toList := by
  unfold endsBin
  rw [Bool.and_eq_true, decide_eq_true_eq, decide_eq_true_eq]
  constructor
  · rintro ⟨h1, h2⟩
    refine ⟨name.take (name.length - 4), ?_, ?_⟩
    · intro e
      have := congrArg List.length e
      rw [List.length_take, List.length_nil] at this
      omega
    · conv => lhs; rw [← List.take_append_drop (name.length - 4) name, h2]
  · rintro ⟨stem, h1, rfl⟩
    have h4 : (".bin".toList).length = 4 := rfl
    have : 0 < stem.length := List.length_pos_of_ne_nil h1
    rw [List.length_append, h4]
    refine ⟨by omega, ?_⟩
    rw [show stem.length + 4 - 4 = stem.length from by omega, List.drop_left]

theorem printD_notBin {v : Int} {stem : Txt} : printD v ≠ stem ++ ".bin".toList := by
  intro h
  have hm : 'n' ∈ printD v := by rw [h]; simp
  unfold printD at hm
  split at hm
  · rcases List.mem_cons.mp hm with h | h
    · exact absurd h (by decide)
    · exact absurd (dec_digits _ _ h) (by decide)
  · exact absurd (dec_digits _ _ hm) (by decide)

theorem scanInt_range {B v : Int} {s r : Txt} (hs : scanInt B s = .ok v r) : -B ≤ v ∧ v < B := by
  unfold scanInt at hs
  dsimp only at hs
  generalize (if (scanSign (skipWs s)).1 = true then -(digitsVal (List.takeWhile isDig (scanSign (skipWs s)).2) : Int)
    else (digitsVal (List.takeWhile isDig (scanSign (skipWs s)).2) : Int)) = w at hs
  by_cases h1 : skipWs s = []
  · rw [if_pos h1] at hs; cases hs
  rw [if_neg h1] at hs
  by_cases h2 : List.takeWhile isDig (scanSign (skipWs s)).2 = []
  · rw [if_pos h2] at hs; cases hs
  rw [if_neg h2] at hs
  by_cases h3 : -B ≤ w ∧ w < B
  · rw [if_pos h3] at hs
    cases hs; exact h3
  · rw [if_neg h3] at hs; cases hs

/-- A name is taken for a grid size exactly if it is the decimal representation of an int, as printf writes it. -/
theorem C68_grid_names {name : List Char} {n : Int} :
    ctorKind name = .grid n ↔ name = decimal n ∧ -(2 ^ 31) ≤ n ∧ n < 2 ^ 31 := by
  have hib : intBound = 2 ^ 31 := by unfold intBound; norm_num
  rw [decimal_printD]
  constructor
  · intro h
    have key : ∀ v, kindOf v name = .grid n → (-intBound ≤ v ∧ v < intBound) → name = printD n ∧ -(2 ^ 31) ≤ n ∧ n < 2 ^ 31 := by
      intro v hk hv
      obtain ⟨rfl, e⟩ := kindOf_grid.mp hk
      rw [hib] at hv
      exact ⟨e.symm, hv.1, hv.2⟩
    have h0 : -intBound ≤ 0 ∧ 0 < intBound := by unfold intBound; omega
    unfold ctorKind at h
    split at h
    · next v r hs =>
      refine key v h ?_
      exact scanInt_range hs
    · exact key 0 h h0
    · exact key 0 h h0
    · cases h
  · rintro ⟨rfl, h1, h2⟩
    have hs := scanInt_printD (i := n) (B := intBound) (rest := []) (by rw [hib]; exact ⟨h1, h2⟩) (by intro c hc; cases hc)
    rw [List.append_nil] at hs
    unfold ctorKind
    rw [hs]
    exact kindOf_grid.mpr ⟨rfl, rfl⟩

/-- A name is taken for a binary file only if it ends in .bin and is longer; such names are, unless they begin with a number that does
not fit an int. All other names are taken for a text. -/
theorem C68_bin_names {name : List Char} :
    (ctorKind name = .bin ↔ ctorKind name ≠ .ub ∧ ∃ stem, stem ≠ [] ∧ name = stem ++ ".bin".toList) ∧
    (ctorKind name = .text ↔ ctorKind name ≠ .ub ∧ (¬ ∃ stem, stem ≠ [] ∧ name = stem ++ ".bin".toList) ∧
      ¬ ∃ n : Int, -(2 ^ 31) ≤ n ∧ n < 2 ^ 31 ∧ name = decimal n) := by
  have hg : ∀ v, ctorKind name = kindOf v name →
      (kindOf v name = .bin ↔ ∃ stem, stem ≠ [] ∧ name = stem ++ ".bin".toList) ∧ kindOf v name ≠ .ub ∧
      (kindOf v name = .text ↔ (¬ ∃ stem, stem ≠ [] ∧ name = stem ++ ".bin".toList) ∧ ¬ ∃ n : Int, -(2 ^ 31) ≤ n ∧ n < 2 ^ 31 ∧ name = decimal n) := by
    intro v hv
    rw [← endsBin_iff]
    have hgr : (∃ n : Int, -(2 ^ 31) ≤ n ∧ n < 2 ^ 31 ∧ name = decimal n) ↔ printD v = name := by
      constructor
      · rintro ⟨n, h1, h2, h3⟩
        have := C68_grid_names.mpr ⟨h3, h1, h2⟩
        rw [hv] at this
        exact (kindOf_grid.mp this).2
      · intro h
        have h1 : ctorKind name = .grid v := by rw [hv]; exact kindOf_grid.mpr ⟨rfl, h⟩
        obtain ⟨a, b, c⟩ := C68_grid_names.mp h1
        exact ⟨v, b, c, a⟩
    rw [hgr]
    unfold kindOf
    by_cases h1 : printD v = name
    · rw [if_pos h1]
      have : endsBin name = false := by
        by_contra h
        rw [Bool.not_eq_false, endsBin_iff] at h
        obtain ⟨stem, _, e⟩ := h
        exact printD_notBin (h1.trans e)
      simp [h1, this]
    · rw [if_neg h1]
      cases h2 : endsBin name <;> simp [h1]
  have hall : (∃ v, ctorKind name = kindOf v name) ∨ ctorKind name = .ub := by
    unfold ctorKind
    split
    · exact .inl ⟨_, rfl⟩
    · exact .inl ⟨_, rfl⟩
    · exact .inl ⟨_, rfl⟩
    · exact .inr rfl
  rcases hall with ⟨v, hv⟩ | hu
  · obtain ⟨h1, h2, h3⟩ := hg v hv
    rw [hv]
    exact ⟨⟨fun h => ⟨h2, h1.mp h⟩, fun h => h1.mpr h.2⟩, ⟨fun h => ⟨h2, h3.mp h⟩, fun h => h3.mpr h.2⟩⟩
  · rw [hu]; simp

/-- A name that begins with a letter (or any character that is no digit, sign or white space) is a file. -/
theorem C68_file_names {c : Char} {s : List Char} (h1 : isWhite c = false) (h2 : ¬ ('0' ≤ c ∧ c ≤ '9')) (h3 : c ≠ '-') (h4 : c ≠ '+') :
    ctorKind (c :: s) ≠ .ub ∧ ∀ n, ctorKind (c :: s) ≠ .grid n := by
  have hd : isDig c = false := by
    unfold isDig
    rw [Bool.and_eq_false_iff, decide_eq_false_iff_not, decide_eq_false_iff_not]
    exact Decidable.not_and_iff_not_or_not.mp h2
  have hsk : skipWs (c :: s) = c :: s := skipWs_of_head (by rw [← isWhite_eq]; exact h1)
  have hs : scanInt intBound (c :: s) = .fail (c :: s) := by
    unfold scanInt
    rw [hsk, if_neg (by simp)]
    have : scanSign (c :: s) = (false, c :: s) := by
      show (if c = '-' then _ else if c = '+' then _ else (false, c :: s)) = _
      rw [if_neg h3, if_neg h4]
    rw [this]
    dsimp only
    rw [List.takeWhile_cons_of_neg (by rw [hd]; simp), if_pos rfl]
  have hk : ctorKind (c :: s) = kindOf 0 (c :: s) := by unfold ctorKind; rw [hs]
  constructor
  · rw [hk]; unfold kindOf
    split
    · intro h; cases h
    · split <;> (intro h; cases h)
  · intro n h
    rw [hk, kindOf_grid] at h
    have e : printD 0 = ['0'] := by unfold printD; rw [if_neg (by omega)]; unfold dec; rfl
    rw [e] at h
    obtain ⟨rfl, _⟩ := List.cons.inj h.2
    exact absurd hd (by decide)

example : ctorKind "128".toList = .grid 128 ∧ ctorKind "a.bin".toList = .bin ∧ ctorKind "a.mtx".toList = .text ∧ ctorKind "007".toList = .text ∧
    ctorKind ".bin".toList = .text ∧ ctorKind "+5".toList = .text ∧ ctorKind "99999999999.mtx".toList = .ub := by decide +kernel

/-! ### Objects -/

/-- What the constructor makes of the triples that the loader delivers. -/
theorem ctorText_ok [One R] [Div R] {lg : Txt → Option (R × Txt)} {ofInt : Int → R} {junk : R} {fuel : Nat} {s : Txt} {F : MMFile R} {force : Bool}
    {pad k ob : Nat} {m0 : Mem (CTy R)} {P : Nat → Nat → List (Nat × Nat × R) → Prop} (hs : mmParse lg ofInt junk fuel s = some (.file F))
    (hl : (loadMM F force false pad).Ok m0 (fun r m => ∃ m' n' T, P m' n' T ∧ r = some (m', n', (T.length : Int)) ∧ HoldsCoo m (Coo.ofList m' n' T 1)))
    (hin : ∀ m' n' T, P m' n' T → ∀ e ∈ T, e.1 < m' ∧ e.2.1 < n') :
    (ctorText lg ofInt junk fuel s force pad k ob).Ok m0 (fun r m => ∃ m' n' T B, P m' n' T ∧ r = .made m' n' ∧ IsMatrixOf B m' n' T ∧
      HoldsPat m k ob B ∧ HoldsVal m k B) := by
  unfold ctorText
  rw [hs]
  dsimp only
  rw [Script.ok_bind]
  unfold csrFromFile
  rw [Script.ok_bind]
  refine Script.Ok.mono hl ?_
  rintro r m ⟨m', n', T, hP, rfl, hC⟩
  show (Script.bind _ _).Ok _ _
  rw [Script.ok_bind]
  have hwf : (Coo.ofList m' n' T (1 : R)).WF := Coo.ofList_wf (hin _ _ _ hP)
  refine Script.Ok.mono (C11_dcoo2csr (dp := true) (sep := true) hwf hC (Int.le_refl _) (Int.le_refl _) (Int.le_refl _)
    (fun _ => Int.le_refl _) (fun _ => ⟨Int.le_refl _, Int.le_refl _⟩)) ?_
  rintro _ m1 ⟨B, g1, g2, g3, g4, g5, g6, _⟩
  refine ⟨m', n', T, B, hP, rfl, ⟨g1, g2, g3, fun i hi => (g6 i hi).2, fun i hi => ?_⟩, g4, g5⟩
  have h1 := (g6 i hi).1
  rw [Coo.ofList_rowList] at h1
  exact h1

/-- strtod (or, for integer headers, the conversion %lld) on a printed number: the number comes back as `fmt` of it. -/
def ReadsBack (lg : Txt → Option (R × Txt)) (ofInt : Int → R) (pr : R → Txt) (fmt : R → R) (d : Field) : Prop :=
  (d ≠ .integer → ∀ v rest, AtSpace rest → scanLg lg (pr v ++ rest) = .ok (fmt v) rest) ∧
  (d = .integer → ∀ v rest, AtSpace rest → ∃ z, scanInt 9223372036854775808 (pr v ++ rest) = .ok z rest ∧ ofInt z = fmt v)

/-- What the loader sees of the file. -/
def seen (b : Nat) (fmt : R → R) (junk : R) (h : Header) (M N : Nat) (L : List (Nat × Nat × R × R)) : MMFile R :=
  ⟨true, h.field.letter = 'P', h.symm.letter = 'S', M, N, L.length, listed b (L.map fun e => (e.1, e.2.1, fieldRead fmt junk h.field e.2.2.1))⟩

theorem mmParse_coordText {lg : Txt → Option (R × Txt)} {ofInt : Int → R} {junk : R} {fuel b : Nat} {pr : R → Txt} {fmt : R → R}
    {h : Header} (hlg : ReadsBack lg ofInt pr fmt h.field) {cs : List (List Char)} {M N : Nat} {L : List (Nat × Nat × R × R)} {extra : List Char}
    (hg : GoodFile h cs M N L extra) (hb : b ≤ 1) :
    mmParse lg ofInt junk fuel (coordText b pr h cs M N L extra) = some (.file (seen b fmt junk h M N L)) := by
  have hib : intBound = 2 ^ 31 := by unfold intBound; norm_num
  obtain ⟨str, -, g2, g3⟩ := C50_format_parse h (cs.flatMap (fun s => s ++ ['\n']) ++ (decimalLine [(M : Int), N, L.length] ++
    ((L.map fun e => ((e.1 : Int) + b, (e.2.1 : Int) + b, e.2.2)).flatMap (crdEntry pr h.field) ++ extra)))
  rw [g2] at g3
  have e0 : coordText b pr h cs M N L extra = h.line ++ '\n' :: (cs.flatMap (fun s => s ++ ['\n']) ++ (decimalLine [(M : Int), N, L.length] ++
      ((L.map fun e => ((e.1 : Int) + b, (e.2.1 : Int) + b, e.2.2)).flatMap (crdEntry pr h.field) ++ extra))) := by
    unfold coordText crdText
    rw [sizeText, entryText_crdEntry]
    simp only [List.append_assoc]
  unfold mmParse
  rw [e0, g3]
  dsimp only
  have hv : mmIsValid ⟨'M', h.format.letter, h.field.letter, h.symm.letter⟩ = true := by
    have := (C50_is_valid h).not.mpr hg.possible
    simpa using this
  rw [if_neg (by decide), if_neg (by rw [hv, hg.format]; decide)]
  have hs := C50_size_partial hg.comments (vs := [(M : Int), (N : Int), (L.length : Int)]) (Or.inr rfl) (by
    intro v hv
    have h1 := hg.rows
    have h2 := hg.cols
    have h3 := hg.count
    simp at hv
    rcases hv with rfl | rfl | rfl
    · norm_num at h1 ⊢; omega
    · norm_num at h2 ⊢; omega
    · norm_num at h3 ⊢; omega)
    ((L.map fun e => ((e.1 : Int) + b, (e.2.1 : Int) + b, e.2.2)).flatMap (crdEntry pr h.field) ++ extra) fuel
  rw [show [(M : Int), (N : Int), (L.length : Int)].length = 3 from rfl] at hs
  rw [hs]
  dsimp only
  rw [if_neg (by decide), if_neg (by omega),
    readEntries_crd (fmt := fmt) rfl hlg.1 hlg.2 (fun c hc => by rw [← isWhite_eq]; exact hg.extra c hc)]
  · dsimp only
    unfold seen listed
    rw [List.map_map, List.map_map]
    simp only [Int.toNat_natCast]
    rfl
  · intro e he
    obtain ⟨f, hf, rfl⟩ := List.mem_map.mp he
    have h0 := hg.range f hf
    have h1 := hg.rows
    have h2 := hg.cols
    rw [hib]
    norm_num at h1 h2 ⊢
    omega
  · have := crdEntries_len pr h.field (L.map fun e => ((e.1 : Int) + b, (e.2.1 : Int) + b, e.2.2))
    rw [List.length_append]
    omega

theorem padDiag_lt [One R] {lo hi : Nat} {e : Nat × Nat × R} (h : e ∈ padDiag lo hi) : e.1 < hi ∧ e.2.1 < hi := by
  unfold padDiag at h
  obtain ⟨i, hi', rfl⟩ := List.mem_map.mp h
  rw [List.mem_range'_1] at hi'
  exact ⟨by show i < hi; omega, by show i < hi; omega⟩

theorem listedBy_fileEntry [One R] (fmt : R → R) (junk : R) (h : Header) (L : List (Nat × Nat × R × R)) :
    (L.map fun e => (e.1, e.2.1, fieldRead fmt junk h.field e.2.2.1)).map (fileEntry false (decide (h.field.letter = 'P'))) = listedBy fmt h L := by
  rw [List.map_map]
  unfold listedBy
  refine List.map_congr_left fun e _ => ?_
  unfold fileEntry fieldRead
  cases h.field <;> simp [Field.letter]

theorem listedBy_in [One R] {fmt : R → R} {h : Header} {L : List (Nat × Nat × R × R)} {M N : Nat} (hL : ∀ e ∈ L, e.1 < M ∧ e.2.1 < N) :
    ∀ e ∈ listedBy fmt h L, e.1 < M ∧ e.2.1 < N := by
  intro e he
  obtain ⟨f, hf, rfl⟩ := List.mem_map.mp he
  exact hL f hf

/-- C68, general texts: the constructor on the name of a file with a general header makes the matrix whose rows are the entries the file
lists in that row, in column order, with the sizes rounded up to multiples of `pad` and ones on the diagonal of the padding, in base `ob`.
Numbers in the file count from 1, or from 0 (which the library notices by a row or column 0).
Partial: 0-based files without padding only (C15); skew-symmetric and Hermitian ones are read as general (`C68_skew_false`). -/
theorem C68_text_general_partial [One R] [Div R] {lg : Txt → Option (R × Txt)} {ofInt : Int → R} {junk d o : R} {fuel b : Nat} {pr : R → Txt} {fmt : R → R}
    {h : Header} (hlg : ReadsBack lg ofInt pr fmt h.field) {cs : List (List Char)} {M N : Nat} {L : List (Nat × Nat × R × R)} {extra : List Char}
    (hg : GoodFile h cs M N L extra) (hs : h.symm = .general) {fs : Files R} {name : List Char} (hk : ctorKind name = .text)
    (hf : fs.txt name = some (coordText b pr h cs M N L extra)) {pad k ob : Nat} (hp : 1 ≤ pad)
    (hb : b = 1 ∨ (b = 0 ∧ (∃ e ∈ L, e.1 = 0 ∨ e.2.1 = 0) ∧ pad = 1)) {m0 : Mem (CTy R)} :
    (csrCtor lg ofInt junk fuel d o fs name ob false pad k).Ok m0 (fun r m => ∃ M' N' B, RoundedUp pad M M' ∧ RoundedUp pad N N' ∧
      r = .made M' N' ∧ IsMatrixOf B M' N' (listedBy fmt h L ++ padDiag (min M N) (min M' N')) ∧ HoldsPat m k ob B ∧ HoldsVal m k B) := by
  unfold csrCtor
  rw [hk]
  dsimp only
  rw [hf]
  dsimp only
  have hl := C13_load_general_partial (m0 := m0) (trans := false) (F := seen b fmt junk h M N L) rfl (by unfold seen; rw [hs]; rfl) hp rfl rfl rfl
    (by rw [List.length_map]; rfl) (by
      intro e he
      obtain ⟨f, hf, rfl⟩ := List.mem_map.mp he
      exact hg.range f hf) (by
      rcases hb with h | ⟨h, ⟨e, he, h0⟩, hpad⟩
      · exact .inl h
      · exact .inr ⟨h, ⟨_, List.mem_map_of_mem he, h0⟩, hpad⟩)
  refine Script.Ok.mono (ctorText_ok (P := fun M' N' T => RoundedUp pad M M' ∧ RoundedUp pad N N' ∧
    T = listedBy fmt h L ++ padDiag (min M N) (min M' N')) (mmParse_coordText hlg hg (by rcases hb with h | h <;> omega)) (Script.Ok.mono hl ?_) ?_) ?_
  · rintro r m ⟨m', n', a, b, T, hTe, h1, h2⟩
    refine ⟨m', n', T, ⟨a, b, ?_⟩, h1, h2⟩
    rw [hTe]
    exact congrArg (· ++ _) (listedBy_fileEntry fmt junk h L)
  · rintro m' n' T ⟨⟨_, a, _⟩, ⟨_, b, _⟩, rfl⟩ e he
    rcases List.mem_append.mp he with he | he
    · have := listedBy_in hg.range e he; omega
    · have := padDiag_lt he; omega
  · rintro r m ⟨m', n', T, B, ⟨a, b, rfl⟩, rfl, h1, h2, h3⟩
    exact ⟨m', n', B, a, b, rfl, h1, h2, h3⟩

/-- C68, symmetric texts: the same for a square file with a symmetric header, or any square file if the caller forces symmetry: the rows
also contain the mirror of every listed entry whose mirror is not listed. Partial: as above; and with `pad` > 1 a file without
entries. -/
theorem C68_text_symmetric_partial [One R] [Div R] {lg : Txt → Option (R × Txt)} {ofInt : Int → R} {junk d o : R} {fuel : Nat} {pr : R → Txt} {fmt : R → R}
    {h : Header} (hlg : ReadsBack lg ofInt pr fmt h.field) {cs : List (List Char)} {M : Nat} {L : List (Nat × Nat × R × R)} {extra : List Char}
    (hg : GoodFile h cs M M L extra) {force : Bool} (hs : force = true ∨ h.symm = .symmetric) {fs : Files R} {name : List Char} (hk : ctorKind name = .text)
    (hf : fs.txt name = some (coordText 1 pr h cs M M L extra)) {pad k ob : Nat} (hp : 1 ≤ pad) (hne : pad = 1 ∨ L ≠ []) {m0 : Mem (CTy R)} :
    (csrCtor lg ofInt junk fuel d o fs name ob force pad k).Ok m0 (fun r m => ∃ M' B, RoundedUp pad M M' ∧ r = .made M' M' ∧
      IsMatrixOf B M' M' (listedBy fmt h L ++ padDiag M M' ++ mirrors (listedBy fmt h L)) ∧ HoldsPat m k ob B ∧ HoldsVal m k B) := by
  unfold csrCtor
  rw [hk]
  dsimp only
  rw [hf]
  dsimp only
  have hl := C14_load_symmetric_partial (m0 := m0) (trans := false) (F := seen 1 fmt junk h M M L) (force := force)
    (T0 := L.map fun e => (e.1, e.2.1, fieldRead fmt junk h.field e.2.2.1)) rfl
    (hs.imp id fun e => by unfold seen; rw [e]; rfl) hp rfl rfl
    (by rw [List.length_map]; rfl) (by
      intro e he
      obtain ⟨f, hf, rfl⟩ := List.mem_map.mp he
      exact hg.range f hf) (hne.imp id fun e => by simpa using e)
  refine Script.Ok.mono (ctorText_ok (P := fun M' N' T => N' = M' ∧ RoundedUp pad M M' ∧
    T = listedBy fmt h L ++ padDiag M M' ++ mirrors (listedBy fmt h L)) (mmParse_coordText hlg hg (Nat.le_refl 1)) (Script.Ok.mono hl ?_) ?_) ?_
  · rintro r m ⟨m', a, T1, T, h1, h2, h3, h4⟩
    refine ⟨m', m', T, ⟨rfl, a, ?_⟩, h3, h4⟩
    have e : T1 = listedBy fmt h L := h1.trans (listedBy_fileEntry fmt junk h L)
    rw [h2, e]
    rfl
  · rintro m' n' T ⟨rfl, ⟨_, a, _⟩, rfl⟩ e he
    rcases List.mem_append.mp he with he | he
    · rcases List.mem_append.mp he with he | he
      · have := listedBy_in hg.range e he; omega
      · have := padDiag_lt he; omega
    · obtain ⟨g, hg', rfl⟩ := List.mem_map.mp he
      have := listedBy_in hg.range g (List.mem_filter.mp hg').1
      exact ⟨by show g.2.1 < _; omega, by show g.1 < _; omega⟩
  · rintro r m ⟨m', n', T, B, ⟨rfl, a, rfl⟩, rfl, h1, h2, h3⟩
    exact ⟨_, B, a, rfl, h1, h2, h3⟩

/-- C68, binary files: the constructor makes the stored matrix, with the same entries in the same order, in base `ob`. Partial: base 1
needs a full diagonal (as in C16); the file is one that storeBin wrote. -/
theorem C68_bin_partial [One R] [Div R] {lg : Txt → Option (R × Txt)} {ofInt : Int → R} {junk d o : R} {fuel : Nat} {fs : Files R} {name : List Char}
    {A : Csr R} (hwf : A.WF) (hk : ctorKind name = .bin) (hf : fs.bin name = some (binOf A)) {pad k ob : Nat} (hob : ob = 0 ∨ ob = 1)
    (hd : ob = 1 → ∀ i, i < A.m → ∃ j, A.InRow i j ∧ A.col j = i) {m0 : Mem (CTy R)} :
    (csrCtor lg ofInt junk fuel d o fs name ob false pad k).Ok m0 (fun r m => r = .made A.m A.n ∧ HoldsPat m k ob A ∧ HoldsVal m k A ∧
      ∀ a i, ¬ a.ofObj k → m a i = m0 a i) := by
  unfold csrCtor
  rw [hk]
  dsimp only
  unfold ctorBin
  rw [hf, if_neg (by decide)]
  dsimp only
  rw [Script.ok_bind]
  refine Script.Ok.mono (loadBin_ok hwf hob ?_ hd) ?_
  · show SizesOk (csrSize k A.m A.nnz allOpt) k A allOpt
    constructor <;> simp [csrSize, allOpt]
  · rintro _ m ⟨h1, h2, _, h4⟩
    exact Script.ok_done_of ⟨rfl, h1, h2, h4⟩

/-- C68, numbers: the constructor on the name of the number `n` makes the 27-point operator on the `n` x `n` x `n` grid. Partial: `n`
cubed is assumed to fit an int. -/
theorem C68_grid_partial [Ring R] [Div R] {lg : Txt → Option (R × Txt)} {ofInt : Int → R} {junk : R} {fuel n : Nat} (hn : n < 2 ^ 31) {fs : Files R}
    {force : Bool} {pad k base : Nat} (hb : base = 0 ∨ base = 1) {m0 : Mem (CTy R)} :
    (csrCtor lg ofInt junk fuel (26 : R) (-1) fs (decimal n) base force pad k).Ok m0 (fun r m => r = .made (n * n * n) (n * n * n) ∧
      ∃ A : Csr R, A.m = n * n * n ∧ A.n = n * n * n ∧ A.WF ∧ HoldsPat m k base A ∧ HoldsVal m k A ∧
      ∀ p, InGrid n n n p → (A.row (gridRow n n p)).Pairwise (fun x y => x.1 < y.1) ∧
        ∀ c v, (c, v) ∈ A.row (gridRow n n p) ↔
          ∃ q, InGrid n n n q ∧ Near p q ∧ c = gridRow n n q ∧ v = if q = p then 26 else -1) := by
  have hk : ctorKind (decimal n) = .grid n := C68_grid_names.mpr ⟨rfl, by norm_num; try omega, by norm_num at hn ⊢; try omega⟩
  unfold csrCtor
  rw [hk]
  dsimp only
  rw [if_neg (by omega), Script.ok_bind, Int.toNat_natCast]
  refine Script.Ok.mono (C24_laplacian_partial Iff.rfl Iff.rfl hb) ?_
  rintro _ m ⟨A, h1, h2, h3, h4, h5, h6, _⟩
  exact Script.ok_done_of ⟨rfl, A, h1, h2, h3, h4, h5, h6⟩

/-- C68, the converter: mtx2bin on the name of a general or a square symmetric text and a name that ends in .bin writes a file from which
the constructor later makes the matrix the text describes, in either base (base 1: full diagonal). Partial: as above. -/
theorem C68_convert_partial [One R] [Div R] {lg : Txt → Option (R × Txt)} {ofInt : Int → R} {junk d o : R} {fuel b : Nat} {pr : R → Txt} {fmt : R → R}
    {h : Header} (hlg : ReadsBack lg ofInt pr fmt h.field) {cs : List (List Char)} {M N : Nat} {L : List (Nat × Nat × R × R)} {extra : List Char}
    (hg : GoodFile h cs M N L extra) (hs : h.symm = .general ∨ h.symm = .symmetric ∧ N = M)
    (hb : b = 1 ∨ (b = 0 ∧ (∃ e ∈ L, e.1 = 0 ∨ e.2.1 = 0) ∧ h.symm = .general)) {fs : Files R} {src dst : List Char}
    (hk : ctorKind src = .text) (hf : fs.txt src = some (coordText b pr h cs M N L extra)) (hk2 : ctorKind dst = .bin) {k : Nat} {m0 : Mem (CTy R)} :
    (mtx2bin lg ofInt junk fuel d o fs src dst k).Ok m0 (fun r _ => ∃ fs' B, r = some fs' ∧ IsMatrixOf B M N (meantBy h (listedBy fmt h L)) ∧
      ∀ (fuel' pad' k' ob : Nat) (m1 : Mem (CTy R)), ob = 0 ∨ (ob = 1 ∧ ∀ i, i < M → ∃ j, B.InRow i j ∧ B.col j = i) →
        (csrCtor lg ofInt junk fuel' d o fs' dst ob false pad' k').Ok m1 (fun r m => r = .made M N ∧ HoldsPat m k' ob B ∧ HoldsVal m k' B ∧
          ∀ a i, ¬ a.ofObj k' → m a i = m1 a i)) := by
  unfold mtx2bin
  rw [hf]
  dsimp only
  rw [takesVector_file (mmParse_coordText (ofInt := ofInt) (junk := junk) (fuel := fuel) hlg hg (by rcases hb with h | h <;> omega)) rfl]
  dsimp only
  rw [Script.ok_bind]
  have key : (csrCtor lg ofInt junk fuel d o fs src ((0 : Nat) : Int) false 1 k).Ok m0 (fun r m => ∃ B, r = .made M N ∧
      IsMatrixOf B M N (meantBy h (listedBy fmt h L)) ∧ HoldsPat m k 0 B ∧ HoldsVal m k B) := by
    have hpd : ∀ x, padDiag (R := R) x x = [] := by intro x; unfold padDiag; rw [Nat.sub_self]; rfl
    rcases hs with hs | ⟨hs, rfl⟩
    · refine Script.Ok.mono (C68_text_general_partial (ofInt := ofInt) (junk := junk) (d := d) (o := o) hlg hg hs hk hf (Nat.le_refl 1)
        (hb.imp id fun h => ⟨h.1, h.2.1, rfl⟩)) ?_
      rintro r m ⟨M', N', B, ⟨_, a1, a2⟩, ⟨_, b1, b2⟩, hr, hB, h1, h2⟩
      obtain rfl : M' = M := by omega
      obtain rfl : N' = N := by omega
      rw [hpd, List.append_nil] at hB
      refine ⟨B, hr, ?_, h1, h2⟩
      unfold meantBy
      rw [hs]
      exact hB
    · have hb1 : b = 1 := by
        rcases hb with h | ⟨_, _, h⟩
        · exact h
        · rw [hs] at h; cases h
      subst hb1
      refine Script.Ok.mono (C68_text_symmetric_partial (ofInt := ofInt) (junk := junk) (d := d) (o := o) (force := false) hlg hg (.inr hs) hk hf
        (Nat.le_refl 1) (.inl rfl)) ?_
      rintro r m ⟨M', B, ⟨_, a1, a2⟩, hr, hB, h1, h2⟩
      obtain rfl : M' = N := by omega
      rw [hpd, List.append_nil] at hB
      refine ⟨B, hr, ?_, h1, h2⟩
      unfold meantBy
      rw [hs]
      exact hB
  refine Script.Ok.mono key ?_
  rintro r m ⟨B, rfl, hB, h1, h2⟩
  dsimp only
  rw [Script.ok_bind, ← hB.rows, ← hB.cols]
  refine Script.Ok.mono (storeBin_ok (base := 0) hB.wf h1 h2 (.inl rfl) (fun e => absurd e (by decide)) (fun e => absurd e (by decide))) ?_
  intro r m' hr
  rw [if_pos (.inl rfl)] at hr
  obtain ⟨-, rfl⟩ := hr
  refine Script.ok_done_of ⟨_, B, rfl, by rw [hB.rows, hB.cols]; exact hB, ?_⟩
  intro fuel' pad' k' ob m1 hob
  refine C68_bin_partial hB.wf hk2 ?_ (hob.imp id And.left) ?_
  · unfold Files.putBin
    dsimp only
    rw [if_pos rfl]
  · intro e
    rcases hob with rfl | ⟨-, hd⟩
    · cases e
    · exact hd

/-! ### What is false -/

/-- The files of the examples: one text. -/
def oneText (name text : List Char) : Files Int := ⟨fun x => if x = name then some text else none, fun _ => none, fun _ => none⟩

theorem oneText_txt (name text : List Char) : (oneText name text).txt name = some text := by
  show (if name = name then some text else none) = _
  rw [if_pos rfl]

theorem emptyFile_ub : Script.runUB (csrCtor lgInt id 0 3 26 (-1) (oneText "a.mtx".toList []) "a.mtx".toList 0 false 1 0) (fun _ _ => none) = true := by
  decide +kernel

attribute [local irreducible] Script.Ok csrCtor in
/-- C68 is false for texts that the loader rejects: the constructor does not look at the loader's answer (CSR.cpp:120) and goes on with
sizes that were never set. Here the file is empty. -/
theorem C68_rejected_false :
    ¬ (∀ (fuel : Nat) (text : List Char), (csrCtor lgInt id 0 fuel 26 (-1) (oneText "a.mtx".toList text) "a.mtx".toList 0 false 1 0).Ok
      (fun _ _ => none) (fun _ _ => True)) := by
  intro h
  have h1 := Script.Ok.not_runUB (h 3 [])
  rw [emptyFile_ub] at h1
  cases h1

/-- The lines of the example. -/
def skewLines : List (Nat × Nat × Int × Int) := [(1, 0, 5, 0)]

theorem skew_good : GoodFile (R := Int) ⟨.coordinate, .real, .skew⟩ [] 2 2 skewLines [] :=
  ⟨rfl, by (rintro (⟨h, _⟩ | ⟨_, h⟩ | ⟨h, _⟩) <;> cases h), by simp, by norm_num, by norm_num, by decide, by decide, by simp⟩

theorem skew_run : ((csrCtor lgInt id 0 3 26 (-1) (oneText "a.mtx".toList (coordText 1 printD ⟨.coordinate, .real, .skew⟩ [] 2 2 skewLines []))
    "a.mtx".toList 0 false 1 0).run (fun _ _ => none)).map (fun x => x.2 (.rowptr 0) 1) = some (some 0) := by
  decide +kernel

/-- C68 is false for skew-symmetric files: only a symmetric header makes the loader add the mirrored entries (COO.cpp:227), so half of the
matrix is missing. -/
theorem C68_skew_false :
    ¬ (∀ (L : List (Nat × Nat × Int × Int)), GoodFile ⟨.coordinate, .real, .skew⟩ [] 2 2 L [] →
      (csrCtor lgInt id 0 3 26 (-1) (oneText "a.mtx".toList (coordText 1 printD ⟨.coordinate, .real, .skew⟩ [] 2 2 L [])) "a.mtx".toList 0 false 1 0).Ok
        (fun _ _ => none) (fun _ m => ∃ B, IsMatrixOf B 2 2 ((L.map fun e => (e.1, e.2.1, e.2.2.1)) ++ L.map fun e => (e.2.1, e.1, -e.2.2.1)) ∧
          HoldsPat m 0 0 B)) := by
  intro h
  obtain ⟨r, m', h2, B, hB, hp⟩ := ok_run_proj (h skewLines skew_good) (fun _ m => m (.rowptr 0) 1) (b := some (0 : Int)) skew_run
  have h3 := (hB.entries 0 (by decide)).length_eq
  have h4 : (B.row 0).length = 1 := h3
  have h5 : (B.row 0).length = B.ptr 1 - B.ptr 0 := by simp [Csr.row]
  have h6 := hp.rowptr 1 (by rw [hB.rows]; decide)
  rw [show m' (.rowptr 0) (((1 : Nat)) : Int) = m' (.rowptr 0) 1 from rfl, h2] at h6
  have h7 : (0 : Int) = (B.ptr 1 : Int) + ((0 : Nat) : Int) := Option.some.inj h6
  omega

theorem bigName_ub : Script.runUB (csrCtor lgInt id 0 3 26 (-1) (oneText "99999999999.mtx".toList
    (coordText 1 printD ⟨.coordinate, .real, .general⟩ [] 2 2 skewLines [])) "99999999999.mtx".toList 0 false 1 0) (fun _ _ => none) = true := by
  decide +kernel

/-- The sizes of the object made. -/
def _root_.SpMP.CtorEnd.sizes : CtorEnd → Nat × Nat
  | .made m n => (m, n)
  | _ => (0, 0)

theorem numName_run : ((csrCtor lgInt id 0 3 26 (-1) (oneText "1".toList
    (coordText 1 printD ⟨.coordinate, .real, .general⟩ [] 2 2 skewLines [])) "1".toList 0 false 1 0).run (fun _ _ => none)).map
      (fun x => x.1.sizes) = some (1, 1) := by decide +kernel

attribute [local irreducible] Script.Ok csrCtor in
/-- C68 is false for some names, whatever the files contain: a name that begins with a number too large for an int is undefined behaviour
(atoi, CSR.cpp:105), and a file whose name is a number is not read. -/
theorem C68_names_false (name : List Char) (hn : name = "99999999999.mtx".toList ∨ name = "1".toList) :
    ¬ ((csrCtor lgInt id 0 3 26 (-1) (oneText name (coordText 1 printD ⟨.coordinate, .real, .general⟩ [] 2 2 skewLines [])) name 0 false 1 0).Ok
        (fun _ _ => none) (fun r _ => r = .made 2 2)) := by
  intro h
  rcases hn with rfl | rfl
  · have h1 := Script.Ok.not_runUB h
    rw [bigName_ub] at h1
    cases h1
  · obtain ⟨r, m', h2, h3⟩ := ok_run_proj h (fun r _ => r.sizes) numName_run
    rw [h3] at h2
    cases h2

/-- A file that cannot be opened: a text ends the process, a binary file leaves an object without sizes and arrays, and says nothing. -/
theorem C68_missing [One R] [Div R] {lg : Txt → Option (R × Txt)} {ofInt : Int → R} {junk d o : R} {fuel : Nat} {fs : Files R} {name : List Char}
    {force : Bool} {pad k ob : Nat} {m0 : Mem (CTy R)} :
    (ctorKind name = .text → fs.txt name = none → (csrCtor lg ofInt junk fuel d o fs name ob force pad k).Ok m0 (fun r m => r = .exits ∧ m = m0)) ∧
    (ctorKind name = .bin → fs.bin name = none → (csrCtor lg ofInt junk fuel d o fs name ob false pad k).Ok m0 (fun r m => r = .empty ∧ m = m0)) := by
  constructor
  · intro h1 h2
    unfold csrCtor
    rw [h1]
    dsimp only
    rw [h2]
    exact Script.ok_done_of ⟨rfl, rfl⟩
  · intro h1 h2
    unfold csrCtor ctorBin
    rw [h1]
    dsimp only
    rw [h2, if_neg (by decide)]
    exact Script.ok_done_of ⟨rfl, rfl⟩

/-! ### Examples -/

/-- A symmetric complex file with a comment: (0, 0), (2, 0), (1, 2), the last with its mirror. -/
def symLines : List (Nat × Nat × Int × Int) := [(0, 0, 7, 1), (2, 0, 5, 2), (1, 2, 3, 0), (2, 1, 4, 0)]

theorem sym_good : GoodFile (R := Int) ⟨.coordinate, .complex, .symmetric⟩ ["% made by hand".toList] 3 3 symLines "\n\n".toList :=
  ⟨rfl, by (rintro (⟨h, _⟩ | ⟨h, _⟩ | ⟨h, _⟩) <;> cases h), by
    intro s hs
    rw [List.mem_singleton] at hs
    subst hs
    exact ⟨⟨by decide +kernel, by decide +kernel⟩, by decide +kernel⟩, by norm_num, by norm_num, by decide, by decide, by decide⟩

-- converting it: the binary file holds the three listed rows and the mirror of (2, 0)
example : (mtx2bin lgInt id 0 3 26 (-1) (oneText "a.mtx".toList (coordText 1 (fun v => printD (fmtInt v)) ⟨.coordinate, .complex, .symmetric⟩
      ["% made by hand".toList] 3 3 symLines "\n\n".toList)) "a.mtx".toList "a.bin".toList 0).Ok (fun _ _ => none)
    (fun r _ => ∃ fs' B, r = some fs' ∧ IsMatrixOf B 3 3 [(0, 0, 7), (2, 0, 5), (1, 2, 3), (2, 1, 4), (0, 2, 5)] ∧
      (csrCtor lgInt id 0 3 26 (-1) fs' "a.bin".toList 0 false 1 1).Ok (fun _ _ => none) (fun r m => r = .made 3 3 ∧ HoldsPat m 1 0 B)) := by
  refine Script.Ok.mono (C68_convert_partial (fmt := fmtInt) ⟨fun _ => lgInt_ok, fun e => by cases e⟩ sym_good (.inr ⟨rfl, rfl⟩) (.inl rfl) (by decide +kernel) (oneText_txt _ _)
    (by decide +kernel)) ?_
  rintro r m ⟨fs', B, h1, h2, h3⟩
  refine ⟨fs', B, h1, ?_, Script.Ok.mono (h3 3 1 1 0 (fun _ _ => none) (.inl rfl)) (fun r m h => ⟨h.1, h.2.1⟩)⟩
  have e : meantBy ⟨.coordinate, .complex, .symmetric⟩ (listedBy fmtInt ⟨.coordinate, .complex, .symmetric⟩ symLines) =
      [(0, 0, 7), (2, 0, 5), (1, 2, 3), (2, 1, 4), (0, 2, 5)] := by decide +kernel
  rw [← e]
  exact h2

-- integers in an integer file
theorem intReadsBack : ReadsBack lgInt id (fun v => printD (fmtInt v)) fmtInt .integer := by
  refine ⟨fun e => absurd rfl e, fun _ v rest hr => ⟨fmtInt v, scanInt_printD ?_ hr.noDig, rfl⟩⟩
  unfold fmtInt
  split
  · next h => norm_num at h; exact h
  · decide

-- a general integer file, 2 x 3, with its lines out of order
example : (csrCtor lgInt id 0 3 26 (-1) (oneText "b.mtx".toList (coordText 1 (fun v => printD (fmtInt v)) ⟨.coordinate, .integer, .general⟩ [] 2 3
      [(1, 2, 9, 0), (0, 0, 8, 0), (1, 0, -7, 0)] [])) "b.mtx".toList (1 : Nat) false 1 0).Ok (fun _ _ => none)
    (fun r m => r = .made 2 3 ∧ ∃ B : Csr Int, B.row 0 = [(0, 8)] ∧ (B.row 1).Perm [(2, 9), (0, -7)] ∧ HoldsPat m 0 1 B ∧ HoldsVal m 0 B) := by
  refine Script.Ok.mono (C68_text_general_partial (h := ⟨.coordinate, .integer, .general⟩) (fmt := fmtInt) intReadsBack
    ⟨rfl, by (rintro (⟨h, _⟩ | ⟨h, _⟩ | ⟨h, _⟩) <;> cases h), by simp, by norm_num, by norm_num, by decide, by decide, by simp⟩ rfl
    (by decide +kernel) (oneText_txt _ _) (Nat.le_refl 1) (.inl rfl)) ?_
  rintro r m ⟨M', N', B, ⟨_, a1, a2⟩, ⟨_, b1, b2⟩, hr, hB, h1, h2⟩
  obtain rfl : M' = 2 := by omega
  obtain rfl : N' = 3 := by omega
  exact ⟨hr, B, List.perm_singleton.mp (hB.entries 0 (by decide)), hB.entries 1 (by decide), h1, h2⟩

-- the same file counted from 0
example : (csrCtor lgInt id 0 3 26 (-1) (oneText "b.mtx".toList (coordText 0 (fun v => printD (fmtInt v)) ⟨.coordinate, .integer, .general⟩ [] 2 3
      [(1, 2, 9, 0), (0, 0, 8, 0), (1, 0, -7, 0)] [])) "b.mtx".toList (1 : Nat) false 1 0).Ok (fun _ _ => none)
    (fun r m => r = .made 2 3 ∧ ∃ B : Csr Int, B.row 0 = [(0, 8)] ∧ (B.row 1).Perm [(2, 9), (0, -7)] ∧ HoldsPat m 0 1 B ∧ HoldsVal m 0 B) := by
  refine Script.Ok.mono (C68_text_general_partial (h := ⟨.coordinate, .integer, .general⟩) (fmt := fmtInt) intReadsBack
    ⟨rfl, by (rintro (⟨h, _⟩ | ⟨h, _⟩ | ⟨h, _⟩) <;> cases h), by simp, by norm_num, by norm_num, by decide, by decide, by simp⟩ rfl
    (by decide +kernel) (oneText_txt _ _) (Nat.le_refl 1) (.inr ⟨rfl, ⟨(0, 0, 8, 0), by decide, .inl rfl⟩, rfl⟩)) ?_
  rintro r m ⟨M', N', B, ⟨_, a1, a2⟩, ⟨_, b1, b2⟩, hr, hB, h1, h2⟩
  obtain rfl : M' = 2 := by omega
  obtain rfl : N' = 3 := by omega
  exact ⟨hr, B, List.perm_singleton.mp (hB.entries 0 (by decide)), hB.entries 1 (by decide), h1, h2⟩

-- the 27-point operator on the 3 x 3 x 3 grid
example (m0 : Mem (CTy Int)) : (csrCtor lgInt id 0 3 26 (-1) (oneText [] []) (decimal 3) (1 : Nat) false 1 0).Ok m0 (fun r _ => r = .made 27 27) :=
  Script.Ok.mono (C68_grid_partial (n := 3) (base := 1) (by norm_num) (.inr rfl)) (fun _ _ h => h.1)

-- a text padded to even sizes
example : (csrCtor lgInt id 0 3 26 (-1) (oneText "a.mtx".toList (coordText 1 (fun v => printD (fmtInt v)) ⟨.coordinate, .complex, .symmetric⟩
      ["% made by hand".toList] 3 3 symLines "\n\n".toList)) "a.mtx".toList (1 : Nat) false 2 0).Ok (fun _ _ => none)
    (fun r _ => r = .made 4 4) := by
  refine Script.Ok.mono (C68_text_symmetric_partial (fmt := fmtInt) ⟨fun _ => lgInt_ok, fun e => by cases e⟩ sym_good (.inr rfl) (by decide +kernel) (oneText_txt _ _)
    (by omega) (.inr (by simp [symLines]))) ?_
  rintro r m ⟨M', B, ⟨h0, h1, h2⟩, h3, _⟩
  obtain rfl : M' = 4 := by omega
  exact h3

/-- C68 is false for binary files read into base 1 when a row has no diagonal entry: make1BasedIndexing increments a diagonal pointer
that nobody has set (CSR.cpp:434-439). -/
theorem C68_bin_base1_false :
    ¬ (∀ (fs : Files Int) (name : List Char) (A : Csr Int) (m0 : Mem (CTy Int)), A.WF → ctorKind name = .bin → fs.bin name = some (binOf A) →
      (csrCtor lgInt id 0 3 26 (-1) fs name (1 : Nat) false 1 0).Ok m0 (fun r m => r = .made A.m A.n ∧ HoldsPat m 0 1 A)) := by
  intro h
  have hk : ctorKind "a.bin".toList = .bin := by decide +kernel
  have h1 := (h ⟨fun _ => none, fun _ => some (binOf exampleCsr), fun _ => none⟩ "a.bin".toList exampleCsr (fun _ _ => none) exampleCsr_wf hk rfl).not_runUB
  unfold csrCtor at h1
  rw [hk] at h1
  rw [show Script.runUB _ _ = true from rfl] at h1
  cases h1

end SpMP.Props
