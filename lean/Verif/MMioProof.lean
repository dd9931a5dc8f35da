import Verif.MMio
/-
Lemmas about the text model: printing and scanning integers, size lines, comments, banners.
-/

namespace SpMP

/-! ### Digits -/

theorem digit_isDig {n : Nat} (h : n < 10) : isDig (Char.ofNat (48 + n)) = true := by
  have : ∀ n : Fin 10, isDig (Char.ofNat (48 + n.val)) = true := by decide
  exact this ⟨n, h⟩

theorem digit_val {n : Nat} (h : n < 10) : (Char.ofNat (48 + n)).toNat - '0'.toNat = n := by
  have : ∀ n : Fin 10, (Char.ofNat (48 + n.val)).toNat - '0'.toNat = n.val := by decide
  exact this ⟨n, h⟩

theorem dec_digits (n : Nat) : ∀ c ∈ dec n, isDig c = true := by
  induction n using Nat.strongRecOn with
  | ind n ih =>
    rw [dec]
    split
    · rename_i h
      intro c hc
      rw [List.mem_singleton] at hc
      subst hc
      exact digit_isDig h
    · intro c hc
      rcases List.mem_append.mp hc with h | h
      · exact ih _ (Nat.div_lt_self (by omega) (by omega)) c h
      · rw [List.mem_singleton] at h
        subst h
        exact digit_isDig (Nat.mod_lt _ (by omega))

theorem dec_ne (n : Nat) : dec n ≠ [] := by
  rw [dec]
  split
  · simp
  · simp

theorem dec_val (n : Nat) : digitsVal (dec n) = n := by
  induction n using Nat.strongRecOn with
  | ind n ih =>
    rw [dec]
    split
    · rename_i h
      unfold digitsVal
      rw [List.foldl_cons, List.foldl_nil, digit_val h]
      omega
    · have h1 := ih _ (Nat.div_lt_self (show 0 < n by omega) (show 1 < 10 by omega))
      unfold digitsVal at h1 ⊢
      rw [List.foldl_append, h1, List.foldl_cons, List.foldl_nil, digit_val (Nat.mod_lt _ (by omega))]
      omega

theorem dec_len {n d : Nat} (hd : 1 ≤ d) (h : n < 10 ^ d) : (dec n).length ≤ d := by
  induction d generalizing n with
  | zero => omega
  | succ d ih =>
    rw [dec]
    split
    · simp
    · rename_i hn
      rw [List.length_append, List.length_singleton]
      have hd' : 1 ≤ d := by
        by_contra hc
        obtain rfl : d = 0 := by omega
        simp at h
        omega
      have := ih hd' (show n / 10 < 10 ^ d by
        rw [Nat.div_lt_iff_lt_mul (by omega)]
        rw [Nat.pow_succ] at h
        exact h)
      omega

theorem isDig_notSpace {c : Char} (h : isDig c = true) : cSpace c = false := by
  by_contra hc
  have : cSpace c = true := by simpa using hc
  unfold cSpace at this
  simp only [Bool.or_eq_true, decide_eq_true_eq] at this
  rcases this with ((((h1 | h1) | h1) | h1) | h1) | h1 <;> subst h1 <;> revert h <;> decide

theorem isDig_sign {c : Char} (h : isDig c = true) : c ≠ '-' ∧ c ≠ '+' ∧ c ≠ '\x00' ∧ c ≠ '%' ∧ c ≠ '\n' := by
  refine ⟨?_, ?_, ?_, ?_, ?_⟩ <;> (rintro rfl; revert h; decide)

/-! ### List splitting -/

theorem takeWhile_app {p : Char → Bool} {a b : Txt} (ha : ∀ c ∈ a, p c = true) (hb : ∀ c, b.head? = some c → p c = false) :
    (a ++ b).takeWhile p = a ∧ (a ++ b).dropWhile p = b := by
  induction a with
  | nil =>
    cases b with
    | nil => exact ⟨rfl, rfl⟩
    | cons c b =>
      have := hb c rfl
      constructor
      · rw [List.nil_append, List.takeWhile_cons, this]; rfl
      · rw [List.nil_append, List.dropWhile_cons, this]; rfl
  | cons c a ih =>
    obtain ⟨h1, h2⟩ := ih (fun x hx => ha x (List.mem_cons_of_mem _ hx))
    have := ha c (List.mem_cons_self ..)
    constructor
    · rw [List.cons_append, List.takeWhile_cons, this, if_pos rfl, h1]
    · rw [List.cons_append, List.dropWhile_cons, this, if_pos rfl, h2]

/-- Text that begins with a character that is no digit, or empty text. -/
def NoDig (s : Txt) : Prop := ∀ c, s.head? = some c → isDig c = false

/-- Text that begins with white space, or empty text. -/
def AtSpace (s : Txt) : Prop := ∀ c, s.head? = some c → cSpace c = true

theorem AtSpace.noDig {s : Txt} (h : AtSpace s) : NoDig s := by
  intro c hc
  by_contra hd
  have := isDig_notSpace (by simpa using hd)
  rw [h c hc] at this
  cases this

theorem skipWs_of_head {c : Char} {s : Txt} (h : cSpace c = false) : skipWs (c :: s) = c :: s := by
  unfold skipWs; rw [List.dropWhile_cons, h]; rfl

theorem skipWs_space {c : Char} {s : Txt} (h : cSpace c = true) : skipWs (c :: s) = skipWs s := by
  unfold skipWs; rw [List.dropWhile_cons, h]; rfl

/-! ### Integers -/

theorem printD_head (i : Int) : ∃ c s, printD i = c :: s ∧ cSpace c = false ∧ c ≠ '%' ∧ c ≠ '\n' := by
  unfold printD
  split
  · exact ⟨'-', _, rfl, by decide, by decide, by decide⟩
  · cases h : dec i.natAbs with
    | nil => exact absurd h (dec_ne _)
    | cons c s =>
      have hd := dec_digits i.natAbs c (by rw [h]; exact List.mem_cons_self ..)
      exact ⟨c, s, rfl, isDig_notSpace hd, (isDig_sign hd).2.2.2.1, (isDig_sign hd).2.2.2.2⟩

theorem printD_chars (i : Int) : ∀ c ∈ printD i, c ≠ '\n' ∧ c ≠ '\x00' ∧ cSpace c = false := by
  intro c hc
  unfold printD at hc
  split at hc
  · rcases List.mem_cons.mp hc with rfl | h
    · decide
    · have := dec_digits _ c h
      exact ⟨(isDig_sign this).2.2.2.2, (isDig_sign this).2.2.1, isDig_notSpace this⟩
  · have := dec_digits _ c hc
    exact ⟨(isDig_sign this).2.2.2.2, (isDig_sign this).2.2.1, isDig_notSpace this⟩

theorem printD_len {i : Int} (h : -intBound ≤ i ∧ i < intBound) : (printD i).length ≤ 11 := by
  have hb : i.natAbs < 10 ^ 10 := by
    unfold intBound at h
    have : (10 : Nat) ^ 10 = 10000000000 := by decide
    omega
  have := dec_len (by omega) hb
  unfold printD
  split
  · rw [List.length_cons]; omega
  · omega

theorem scanInt_printD {i B : Int} {rest : Txt} (h : -B ≤ i ∧ i < B) (hr : NoDig rest) : scanInt B (printD i ++ rest) = .ok i rest := by
  obtain ⟨c, s, hc, hns, -, -⟩ := printD_head i
  have hsk : skipWs (printD i ++ rest) = printD i ++ rest := by rw [hc, List.cons_append]; exact skipWs_of_head hns
  unfold scanInt
  rw [hsk, if_neg (by rw [hc]; simp)]
  have key : scanSign (printD i ++ rest) = (decide (i < 0), dec i.natAbs ++ rest) := by
    unfold printD
    by_cases hi : i < 0
    · rw [if_pos hi]
      rw [decide_eq_true hi]
      rfl
    · rw [if_neg hi]
      cases hd : dec i.natAbs with
      | nil => exact absurd hd (dec_ne _)
      | cons x t =>
        have hx := dec_digits i.natAbs x (by rw [hd]; exact List.mem_cons_self ..)
        obtain ⟨h1, h2, -⟩ := isDig_sign hx
        show (if x = '-' then _ else if x = '+' then _ else (false, x :: (t ++ rest))) = _
        rw [if_neg h1, if_neg h2, decide_eq_false hi, List.cons_append]
  obtain ⟨t1, t2⟩ := takeWhile_app (p := isDig) (dec_digits i.natAbs) hr
  dsimp only
  rw [key]
  dsimp only
  rw [t1, t2, if_neg (dec_ne _), dec_val]
  have hv : (if decide (i < 0) = true then -(i.natAbs : Int) else (i.natAbs : Int)) = i := by
    by_cases hi : i < 0
    · rw [if_pos (decide_eq_true hi)]; omega
    · rw [if_neg (by simpa using hi)]; omega
  rw [hv, if_pos h]

theorem scanInt_space {B : Int} {c : Char} {s : Txt} (h : cSpace c = true) : scanInt B (c :: s) = scanInt B s := by
  unfold scanInt; rw [skipWs_space h]

/-- Scanning the numbers of a size line. -/
theorem scanInts_sizeLine {vs : List Int} (hne : vs ≠ []) (hb : ∀ v ∈ vs, -intBound ≤ v ∧ v < intBound) (rest : Txt) :
    scanInts vs.length (sizeLine vs ++ rest) = .done vs ('\n' :: rest) := by
  induction vs with
  | nil => exact absurd rfl hne
  | cons v vs ih =>
    have hv := hb v (List.mem_cons_self ..)
    rw [List.length_cons]
    cases vs with
    | nil =>
      show (match scanInt intBound (printD v ++ ['\n'] ++ rest) with
        | .ok v r => (scanInts 0 r).cons v | .fail r => .short [] r false | .eof => .short [] [] true | .ub => .ub) = _
      rw [List.append_assoc, scanInt_printD hv (by intro c hc; simp at hc; subst hc; decide)]
      rfl
    | cons w vs =>
      have hs : sizeLine (v :: w :: vs) ++ rest = printD v ++ (' ' :: (sizeLine (w :: vs) ++ rest)) := by
        show (printD v ++ ' ' :: sizeLine (w :: vs)) ++ rest = _
        rw [List.append_assoc]; rfl
      rw [hs]
      show (match scanInt intBound (printD v ++ (' ' :: (sizeLine (w :: vs) ++ rest))) with
        | .ok v r => (scanInts (w :: vs).length r).cons v | .fail r => .short [] r false | .eof => .short [] [] true | .ub => .ub) = _
      rw [scanInt_printD hv (by intro c hc; simp at hc; subst hc; decide)]
      dsimp only
      have e : scanInts (w :: vs).length (' ' :: (sizeLine (w :: vs) ++ rest)) = scanInts (w :: vs).length (sizeLine (w :: vs) ++ rest) := by
        rw [List.length_cons]
        show (match scanInt intBound (' ' :: (sizeLine (w :: vs) ++ rest)) with
          | .ok v r => (scanInts vs.length r).cons v | .fail r => .short [] r false | .eof => .short [] [] true | .ub => .ub) = _
        rw [scanInt_space (by decide)]
        rfl
      rw [e, ih (by simp) (fun x hx => hb x (List.mem_cons_of_mem _ hx))]
      rfl

theorem sizeLine_chars {vs : List Int} : ∃ s, sizeLine vs = s ++ ['\n'] ∧ ∀ c ∈ s, c ≠ '\n' ∧ c ≠ '\x00' := by
  induction vs with
  | nil => exact ⟨[], rfl, by simp⟩
  | cons v vs ih =>
    cases vs with
    | nil => exact ⟨printD v, rfl, fun c hc => ⟨(printD_chars v c hc).1, (printD_chars v c hc).2.1⟩⟩
    | cons w vs =>
      obtain ⟨s, h1, h2⟩ := ih
      refine ⟨printD v ++ ' ' :: s, ?_, ?_⟩
      · show printD v ++ ' ' :: sizeLine (w :: vs) = _
        rw [h1]; simp
      · intro c hc
        rcases List.mem_append.mp hc with h | h
        · exact ⟨(printD_chars v c h).1, (printD_chars v c h).2.1⟩
        · rcases List.mem_cons.mp h with rfl | h
          · decide
          · exact h2 c h

theorem sizeLine_len {vs : List Int} (hb : ∀ v ∈ vs, -intBound ≤ v ∧ v < intBound) : (sizeLine vs).length ≤ 12 * vs.length + 1 := by
  induction vs with
  | nil => exact Nat.le_refl _
  | cons v vs ih =>
    have h1 := printD_len (hb v (List.mem_cons_self ..))
    have h2 := ih (fun x hx => hb x (List.mem_cons_of_mem _ hx))
    cases vs with
    | nil =>
      show (printD v ++ ['\n']).length ≤ _
      rw [List.length_append]; simp; omega
    | cons w vs =>
      show (printD v ++ ' ' :: sizeLine (w :: vs)).length ≤ _
      rw [List.length_append, List.length_cons, List.length_cons]; omega

/-! ### Lines -/

theorem fgetsAux_line {n : Nat} {s rest : Txt} (hs : ∀ c ∈ s, c ≠ '\n') (hn : s.length < n) :
    fgetsAux n (s ++ '\n' :: rest) = (s ++ ['\n'], rest) := by
  induction s generalizing n with
  | nil =>
    cases n with
    | zero => simp at hn
    | succ n =>
      show (if '\n' = '\n' then (['\n'], rest) else _) = _
      rw [if_pos rfl]; rfl
  | cons c s ih =>
    cases n with
    | zero => simp at hn
    | succ n =>
      have h1 := hs c (List.mem_cons_self ..)
      have h2 := ih (n := n) (fun x hx => hs x (List.mem_cons_of_mem _ hx)) (by rw [List.length_cons] at hn; omega)
      show (if c = '\n' then _ else (c :: (fgetsAux n (s ++ '\n' :: rest)).1, (fgetsAux n (s ++ '\n' :: rest)).2)) = _
      rw [if_neg h1, h2]
      rfl

theorem fgetsLine_line {s rest : Txt} (hs : ∀ c ∈ s, c ≠ '\n') (hn : s.length < 1024) :
    fgetsLine (s ++ '\n' :: rest) = some (s ++ ['\n'], rest) := by
  unfold fgetsLine
  rw [if_neg (by simp), fgetsAux_line hs hn]

theorem cstr_id {s : Txt} (h : ∀ c ∈ s, c ≠ '\x00') : cstr s = s := by
  have := (takeWhile_app (p := fun c => decide (c ≠ '\x00')) (a := s) (b := []) (fun c hc => by simpa using h c hc) (by simp)).1
  rw [List.append_nil] at this
  exact this

/-- A comment line (without the newline). -/
structure Comment (s : Txt) : Prop where
  pct : s.head? = some '%'
  line : ∀ c ∈ s, c ≠ '\n'
  short : s.length < 1024

theorem skipComments_comments {cs : List Txt} (hc : ∀ s ∈ cs, Comment s) {line rest : Txt} (hl : ∀ c ∈ line, c ≠ '\n')
    (hlen : line.length < 1024) (h0 : (line ++ ['\n']).head? ≠ some '%') {f : Nat} (hf : cs.length < f) :
    skipComments f (cs.flatMap (fun s => s ++ ['\n']) ++ (line ++ '\n' :: rest)) = some (line ++ ['\n'], rest) := by
  induction cs generalizing f with
  | nil =>
    cases f with
    | zero => simp at hf
    | succ f =>
      show skipComments (f + 1) (line ++ '\n' :: rest) = _
      unfold skipComments
      rw [fgetsLine_line hl hlen]
      dsimp only
      rw [if_neg h0]
  | cons s cs ih =>
    cases f with
    | zero => simp at hf
    | succ f =>
      have h1 := hc s (List.mem_cons_self ..)
      have e : (s :: cs).flatMap (fun s => s ++ ['\n']) ++ (line ++ '\n' :: rest) =
          s ++ '\n' :: (cs.flatMap (fun s => s ++ ['\n']) ++ (line ++ '\n' :: rest)) := by
        rw [List.flatMap_cons]; simp
      rw [e]
      unfold skipComments
      rw [fgetsLine_line h1.line h1.short]
      dsimp only
      have hp : (s ++ ['\n']).head? = some '%' := by
        have := h1.pct
        cases s with
        | nil => cases this
        | cons c s => exact this
      rw [if_pos hp]
      exact ih (fun x hx => hc x (List.mem_cons_of_mem _ hx)) (by rw [List.length_cons] at hf; omega)

theorem flatMap_len_le (cs : List Txt) : cs.length ≤ (cs.flatMap (fun s => s ++ ['\n'])).length := by
  induction cs with
  | nil => exact Nat.le_refl _
  | cons s cs ih => rw [List.flatMap_cons, List.length_append, List.length_cons, List.length_append, List.length_singleton]; omega

theorem mmReadSize_ok {cs : List Txt} (hc : ∀ s ∈ cs, Comment s) {vs : List Int} (hne : vs ≠ []) (hk : vs.length ≤ 80)
    (hb : ∀ v ∈ vs, -intBound ≤ v ∧ v < intBound) (rest : Txt) (fuel : Nat) :
    mmReadSize vs.length fuel (cs.flatMap (fun s => s ++ ['\n']) ++ (sizeLine vs ++ rest)) = some (.ret 0 vs rest) := by
  obtain ⟨s, h1, h2⟩ := sizeLine_chars (vs := vs)
  have hlen := sizeLine_len hb
  have e : sizeLine vs ++ rest = s ++ '\n' :: rest := by rw [h1]; simp
  have h0 : (s ++ ['\n']).head? ≠ some '%' := by
    rw [← h1]
    cases vs with
    | nil => exact absurd rfl hne
    | cons v vs =>
      obtain ⟨c, t, q1, -, q2, -⟩ := printD_head v
      have : ∃ u, sizeLine (v :: vs) = c :: u := by
        cases vs with
        | nil => exact ⟨t ++ ['\n'], by show printD v ++ ['\n'] = _; rw [q1]; rfl⟩
        | cons w vs => exact ⟨t ++ ' ' :: sizeLine (w :: vs), by show printD v ++ ' ' :: sizeLine (w :: vs) = _; rw [q1]; rfl⟩
      obtain ⟨u, hu⟩ := this
      rw [hu]
      intro hh
      exact q2 (by simpa using hh)
  unfold mmReadSize
  rw [e, skipComments_comments hc (fun c h => (h2 c h).1) (by rw [h1, List.length_append] at hlen; simp at hlen; omega) h0
    (by have := flatMap_len_le cs; rw [List.length_append]; omega)]
  dsimp only
  rw [cstr_id (by
    intro c hcc
    rcases List.mem_append.mp hcc with h | h
    · exact (h2 c h).2
    · rw [List.mem_singleton] at h; subst h; decide), ← h1]
  have := scanInts_sizeLine hne hb []
  rw [List.append_nil] at this
  rw [this]

end SpMP
