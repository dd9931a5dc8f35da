import Verif.MMioProof
import Verif.Spec.MMText
/-
Words of a line, the banner, decimal notation, and the text of a stored matrix.
-/

namespace SpMP
open Spec

variable {R : Type}

theorem isWhite_eq (c : Char) : isWhite c = cSpace c := by
  unfold isWhite cSpace
  simp [Bool.or_assoc]

theorem words_space {c : Char} {s : Txt} (h : cSpace c = true) : words (c :: s) = words s := by
  unfold words
  rw [List.splitOnP_cons, isWhite_eq, h, if_pos rfl, List.filter_cons]
  simp

theorem words_skipWs (s : Txt) : words (skipWs s) = words s := by
  induction s with
  | nil => rfl
  | cons c s ih =>
    cases h : cSpace c with
    | true => rw [skipWs_space h, ih, words_space h]
    | false => rw [skipWs_of_head h]

theorem words_nil : words [] = [] := by
  unfold words; rw [List.splitOnP_nil]; simp

theorem words_tok {t r : Txt} (ht : t ≠ []) (h1 : ∀ c ∈ t, cSpace c = false) (h2 : AtSpace r) : words (t ++ r) = t :: words r := by
  have hp : ∀ x ∈ t, ¬ isWhite x = true := by
    intro x hx; rw [isWhite_eq, h1 x hx]; simp
  cases r with
  | nil =>
    rw [List.append_nil, words_nil]
    unfold words
    rw [List.splitOnP_eq_singleton (by simpa using hp)]
    rw [List.filter_cons]; simp [ht]
  | cons c r =>
    have hc := h2 c rfl
    rw [words_space hc]
    unfold words
    rw [List.splitOnP_append_cons _ _ (by rw [isWhite_eq]; exact hc), List.splitOnP_eq_singleton (by simpa using hp)]
    rw [List.filter_append, List.filter_cons]; simp [ht]

theorem skipWs_head (s : Txt) : ∀ c, (skipWs s).head? = some c → cSpace c = false := by
  intro c hc
  unfold skipWs at hc
  have := List.head?_dropWhile_not cSpace s
  rw [hc] at this
  simpa using this

theorem scanS_spec (s : Txt) : skipWs s = (scanS s).1 ++ (scanS s).2 ∧ (∀ c ∈ (scanS s).1, cSpace c = false) ∧ AtSpace (scanS s).2 := by
  unfold scanS
  refine ⟨(List.takeWhile_append_dropWhile ..).symm, ?_, ?_⟩
  · intro c hc
    have := List.all_takeWhile (p := fun c => !cSpace c) (l := skipWs s)
    rw [List.all_eq_true] at this
    simpa using this c hc
  · intro c hc
    have := List.head?_dropWhile_not (fun c => !cSpace c) (skipWs s)
    rw [hc] at this
    simpa using this

theorem scanSs_words (n : Nat) (s : Txt) : scanSs n s = (words s).take n := by
  induction n generalizing s with
  | zero => simp [scanSs]
  | succ n ih =>
    obtain ⟨h1, h2, h3⟩ := scanS_spec s
    unfold scanSs
    by_cases ht : (scanS s).1 = []
    · rw [if_pos ht]
      have : skipWs s = [] := by
        rw [ht, List.nil_append] at h1
        cases hs : skipWs s with
        | nil => rfl
        | cons c r =>
          have q1 := skipWs_head s c (by rw [hs]; rfl)
          have q2 := h3 c (by rw [← h1, hs]; rfl)
          rw [q1] at q2; cases q2
      rw [← words_skipWs, this, words_nil]; rfl
    · rw [if_neg ht, ih, ← words_skipWs s, h1, words_tok ht h2 h3, List.take_succ_cons]

theorem words_nl (s : Txt) : words (s ++ ['\n']) = words s := by
  unfold words
  rw [List.splitOnP_append_cons _ _ (by decide), List.filter_append]
  simp

/-- printf("%d") is decimal notation. -/
theorem decimal_printD (i : Int) : decimal i = printD i := by
  have hd : ∀ n : Nat, (Nat.toDigits 10 n) = dec n := by
    intro n
    induction n using Nat.strongRecOn with
    | ind n ih =>
      have hc : ∀ k, k < 10 → Nat.digitChar k = Char.ofNat (48 + k) := by
        intro k hk
        have : ∀ k : Fin 10, Nat.digitChar k.val = Char.ofNat (48 + k.val) := by decide
        exact this ⟨k, hk⟩
      rw [Nat.toDigits_eq_if (by omega), dec]
      split
      · rw [hc n (by assumption)]
      · rw [ih _ (Nat.div_lt_self (by omega) (by omega)), hc _ (Nat.mod_lt _ (by omega))]
  unfold decimal
  cases i with
  | ofNat n =>
    show (Nat.repr n).toList = _
    unfold printD
    rw [if_neg (by simp)]
    simp [Nat.repr, hd]
  | negSucc n =>
    show ("-" ++ Nat.repr (n + 1)).toList = _
    unfold printD
    rw [if_pos (by exact Int.negSucc_lt_zero n)]
    simp [Nat.repr, hd]

/-! ### The banner -/

/-- The type code of a header. -/
def tcOf (h : Header) : TC := ⟨'M', h.format.letter, h.field.letter, h.symm.letter⟩

theorem bannerSym_word (t : TC) (y : Symm) : bannerSym t y.word.toList = (0, { t with s := y.letter }) := by
  cases y <;> (unfold bannerSym; simp [Symm.word, Symm.letter])

theorem bannerSym_zero {t : TC} {g : Txt} (h : (bannerSym t g).1 = 0) : ∃ y : Symm, g = y.word.toList := by
  unfold bannerSym at h
  split_ifs at h with h1 h2 h3 h4
  · exact ⟨.general, h1⟩
  · exact ⟨.symmetric, h2⟩
  · exact ⟨.hermitian, h3⟩
  · exact ⟨.skew, h4⟩

theorem bannerField_word (t : TC) (x : Field) (y : Symm) :
    bannerField t x.word.toList y.word.toList = (0, { t with d := x.letter, s := y.letter }) := by
  cases x <;> (unfold bannerField; simp [Field.word, Field.letter, bannerSym_word])

theorem bannerField_zero {t : TC} {d g : Txt} (h : (bannerField t d g).1 = 0) :
    ∃ (x : Field) (y : Symm), d = x.word.toList ∧ g = y.word.toList := by
  unfold bannerField at h
  split_ifs at h with h1 h2 h3 h4
  · exact (bannerSym_zero h).elim fun y hy => ⟨.real, y, h1, hy⟩
  · exact (bannerSym_zero h).elim fun y hy => ⟨.complex, y, h2, hy⟩
  · exact (bannerSym_zero h).elim fun y hy => ⟨.pattern, y, h3, hy⟩
  · exact (bannerSym_zero h).elim fun y hy => ⟨.integer, y, h4, hy⟩

theorem bannerFormat_word (t : TC) (w : Format) (x : Field) (y : Symm) :
    bannerFormat t w.word.toList x.word.toList y.word.toList = (0, { t with f := w.letter, d := x.letter, s := y.letter }) := by
  cases w <;> (unfold bannerFormat; simp [Format.word, Format.letter, bannerField_word])

theorem bannerFormat_zero {t : TC} {c d g : Txt} (h : (bannerFormat t c d g).1 = 0) :
    ∃ (w : Format) (x : Field) (y : Symm), c = w.word.toList ∧ d = x.word.toList ∧ g = y.word.toList := by
  unfold bannerFormat at h
  split_ifs at h with h1 h2
  · obtain ⟨x, y, hx, hy⟩ := bannerField_zero h
    exact ⟨.coordinate, x, y, h1, hx, hy⟩
  · obtain ⟨x, y, hx, hy⟩ := bannerField_zero h
    exact ⟨.array, x, y, h2, hx, hy⟩

theorem bannerOf_of_describes {ws : List Txt} {h : Header} (hd : Describes ws h) : bannerOf (ws.take 5) = (0, tcOf h) := by
  obtain ⟨b, o, f, d, s, more, rfl, h1, h2, h3, h4, h5⟩ := hd
  show (if ¬ mmBanner <+: b then _ else if lower o ≠ "matrix".toList then _ else
    bannerFormat { tcClear with o := 'M' } (lower f) (lower d) (lower s)) = _
  have h1' : mmBanner <+: b := h1
  have h2' : lower o = "matrix".toList := h2
  have h3' : lower f = h.format.word.toList := h3
  have h4' : lower d = h.field.word.toList := h4
  have h5' : lower s = h.symm.word.toList := h5
  rw [if_neg (not_not.mpr h1'), if_neg (not_not.mpr h2'), h3', h4', h5', bannerFormat_word]
  rfl

theorem describes_of_bannerOf {ws : List Txt} (h : (bannerOf (ws.take 5)).1 = 0) : ∃ hd, Describes ws hd := by
  rcases ws with _ | ⟨b, _ | ⟨o, _ | ⟨f, _ | ⟨d, _ | ⟨s, more⟩⟩⟩⟩⟩
  · cases h
  · cases h
  · cases h
  · cases h
  · cases h
  · have h : (if ¬ mmBanner <+: b then (14, tcClear) else if lower o ≠ "matrix".toList then (15, tcClear) else
      bannerFormat { tcClear with o := 'M' } (lower f) (lower d) (lower s)).1 = 0 := h
    by_cases h1 : mmBanner <+: b
    · by_cases h2 : lower o = "matrix".toList
      · rw [if_neg (not_not.mpr h1), if_neg (not_not.mpr h2)] at h
        obtain ⟨w, x, y, e1, e2, e3⟩ := bannerFormat_zero h
        exact ⟨⟨w, x, y⟩, b, o, f, d, s, more, rfl, h1, h2, e1, e2, e3⟩
      · rw [if_neg (not_not.mpr h1), if_pos h2] at h
        cases h
    · rw [if_pos h1] at h
      cases h

theorem mmReadBanner_line {line rest : Txt} (hl : ∀ c ∈ line, c ≠ '\n' ∧ c ≠ '\x00') (hlen : line.length < 1024)
    (ht : ∀ w ∈ (words line).take 5, w.length < 64) :
    mmReadBanner (line ++ '\n' :: rest) = some ((bannerOf ((words line).take 5)).1, (bannerOf ((words line).take 5)).2, rest) := by
  unfold mmReadBanner
  rw [fgetsLine_line (fun c h => (hl c h).1) hlen]
  dsimp only
  rw [cstr_id (by
    intro c hc
    rcases List.mem_append.mp hc with h | h
    · exact (hl c h).2
    · rw [List.mem_singleton] at h; subst h; decide), scanSs_words, words_nl, if_neg]
  rw [Bool.not_eq_true, List.any_eq_false]
  intro w hw
  have := ht w hw
  simp
  omega

/-! ### Entries -/

theorem skipWs_skipWs (s : Txt) : skipWs (skipWs s) = skipWs s := by
  cases h : skipWs s with
  | nil => rfl
  | cons c r => exact skipWs_of_head (skipWs_head s c (by rw [h]; rfl))

theorem scanInts_skipWs (n : Nat) (s : Txt) : scanInts (n + 1) (skipWs s) = scanInts (n + 1) s := by
  have e : scanInt intBound (skipWs s) = scanInt intBound s := by unfold scanInt; rw [skipWs_skipWs]
  unfold scanInts
  rw [e]

theorem readEntries_skipWs (lg : Txt → Option (R × Txt)) (ofInt : Int → R) (junk : R) (t : TC) (f : Nat) (s : Txt) :
    readEntries lg ofInt junk t f (skipWs s) = readEntries lg ofInt junk t f s := by
  cases f with
  | zero => rfl
  | succ f =>
    have e : mmReadEntry lg ofInt junk t (skipWs s) = mmReadEntry lg ofInt junk t s := by
      unfold mmReadEntry
      rw [scanInts_skipWs]
    unfold readEntries
    rw [e]

/-- Entry lines are read back, with the values as %lg returns them. -/
theorem readEntries_lines {lg : Txt → Option (R × Txt)} {ofInt : Int → R} {junk : R} {pr : R → Txt} {fmt : R → R} {t : TC}
    (ht : t.d = 'R') (hlg : ∀ v rest, AtSpace rest → scanLg lg (pr v ++ rest) = .ok (fmt v) rest) (es : List (Int × Int × R))
    (hb : ∀ e ∈ es, (-intBound ≤ e.1 ∧ e.1 < intBound) ∧ -intBound ≤ e.2.1 ∧ e.2.1 < intBound) {f : Nat} (hf : es.length < f) :
    readEntries lg ofInt junk t f (es.flatMap (entryLine pr)) = some (es.map fun e => (e.1, e.2.1, fmt e.2.2)) := by
  induction es generalizing f with
  | nil =>
    cases f with
    | zero => simp at hf
    | succ f =>
      unfold readEntries mmReadEntry
      rw [if_neg (by rw [ht]; decide)]
      rfl
  | cons e es ih =>
    cases f with
    | zero => simp at hf
    | succ f =>
      obtain ⟨h1, h2⟩ := hb e (List.mem_cons_self ..)
      set rest := es.flatMap (entryLine pr) with hrest
      have hs : (e :: es).flatMap (entryLine pr) = printD e.1 ++ ' ' :: (printD e.2.1 ++ ' ' :: (pr e.2.2 ++ '\n' :: rest)) := by
        rw [List.flatMap_cons, ← hrest]
        unfold entryLine
        simp
      have hsp : ∀ s : Txt, NoDig (' ' :: s) := by intro s c hc; simp at hc; subst hc; decide
      have hsc : scanInts 2 (printD e.1 ++ ' ' :: (printD e.2.1 ++ ' ' :: (pr e.2.2 ++ '\n' :: rest))) =
          .done [e.1, e.2.1] (' ' :: (pr e.2.2 ++ '\n' :: rest)) := by
        unfold scanInts
        rw [scanInt_printD h1 (hsp _)]
        dsimp only
        unfold scanInts
        rw [scanInt_space (by decide), scanInt_printD h2 (hsp _)]
        rfl
      have hfield : readField lg ofInt junk t (' ' :: (pr e.2.2 ++ '\n' :: rest)) = .ok (fmt e.2.2) (skipWs rest) := by
        have e1 : scanLg lg (' ' :: (pr e.2.2 ++ '\n' :: rest)) = .ok (fmt e.2.2) ('\n' :: rest) := by
          have := hlg e.2.2 ('\n' :: rest) (by intro c hc; simp at hc; subst hc; decide)
          rw [← this]
          unfold scanLg
          rw [skipWs_space (by decide)]
        unfold readField
        rw [if_neg (by rw [ht]; decide), if_pos ht, e1]
        dsimp only
        rw [skipWs_space (by decide)]
      have he : mmReadEntry lg ofInt junk t ((e :: es).flatMap (entryLine pr)) = .ok e.1 e.2.1 (fmt e.2.2) (skipWs rest) := by
        unfold mmReadEntry
        rw [if_neg (by rw [ht]; decide), hs, hsc]
        dsimp only
        rw [hfield]
      unfold readEntries
      rw [he]
      dsimp only
      rw [readEntries_skipWs, ih (fun x hx => hb x (List.mem_cons_of_mem _ hx)) (by rw [List.length_cons] at hf; omega)]
      rfl

theorem entries_len (pr : R → Txt) (es : List (Int × Int × R)) : es.length ≤ (es.flatMap (entryLine pr)).length := by
  induction es with
  | nil => exact Nat.le_refl _
  | cons e es ih =>
    rw [List.flatMap_cons, List.length_append, List.length_cons]
    have : 1 ≤ (entryLine pr e).length := by unfold entryLine; rw [List.length_append]; simp
    omega

/-- Reading a stored text gives the stored file. -/
theorem mmParse_storeText {lg : Txt → Option (R × Txt)} {ofInt : Int → R} {junk : R} {pr : R → Txt} {fmt : R → R}
    (hlg : ∀ v rest, AtSpace rest → scanLg lg (pr v ++ rest) = .ok (fmt v) rest) (F : MMFile R)
    (hm : (F.m : Int) < intBound) (hn : (F.n : Int) < intBound) (hz : (F.nnz : Int) < intBound)
    (hb : ∀ e ∈ F.entries, (-intBound ≤ e.1 ∧ e.1 < intBound) ∧ -intBound ≤ e.2.1 ∧ e.2.1 < intBound) (fuel : Nat) :
    mmParse lg ofInt junk fuel (storeText pr F) =
      some (.file ⟨true, false, false, F.m, F.n, F.nnz, F.entries.map fun e => (e.1, e.2.1, fmt e.2.2)⟩) := by
  have hbanner : mmReadBanner (storeText pr F) =
      some (0, ⟨'M', 'C', 'R', 'G'⟩, sizeLine [(F.m : Int), F.n, F.nnz] ++ F.entries.flatMap (entryLine pr)) := by
    have e : storeText pr F = "%%MatrixMarket matrix coordinate real general".toList ++ '\n' ::
        (sizeLine [(F.m : Int), F.n, F.nnz] ++ F.entries.flatMap (entryLine pr)) := by
      unfold storeText mmBanner
      simp
    have hw : words "%%MatrixMarket matrix coordinate real general".toList =
        ["%%MatrixMarket".toList, "matrix".toList, "coordinate".toList, "real".toList, "general".toList] := by decide +kernel
    rw [e, mmReadBanner_line (by decide +kernel) (by decide +kernel) (by rw [hw]; decide +kernel), hw]
    have := bannerOf_of_describes (ws := ["%%MatrixMarket".toList, "matrix".toList, "coordinate".toList, "real".toList, "general".toList])
      (h := ⟨.coordinate, .real, .general⟩) ⟨_, _, _, _, _, [], rfl, by decide +kernel, by unfold SaysWord; decide +kernel, by unfold SaysWord; decide +kernel, by unfold SaysWord; decide +kernel,
        by unfold SaysWord; decide +kernel⟩
    rw [this]; rfl
  unfold mmParse
  rw [hbanner]
  dsimp only
  rw [if_neg (by decide), if_neg (by decide)]
  have hpos : 0 < intBound := by decide
  have hsz := mmReadSize_ok (cs := []) (by simp) (vs := [(F.m : Int), F.n, F.nnz]) (by simp) (by simp)
    (by intro v hv; simp at hv; rcases hv with rfl | rfl | rfl <;> omega) (F.entries.flatMap (entryLine pr)) fuel
  rw [List.flatMap_nil, List.nil_append] at hsz
  rw [show [(F.m : Int), F.n, F.nnz].length = 3 from rfl] at hsz
  rw [hsz]
  dsimp only
  rw [if_neg (by decide), if_neg (by omega), readEntries_lines rfl hlg F.entries hb (by have := entries_len pr F.entries; omega)]
  rfl

end SpMP
