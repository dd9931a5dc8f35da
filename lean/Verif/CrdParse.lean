import Verif.FileCtor
import Verif.MMioCrdProof

/-
Proofs about the reader of coordinate texts, for Verif/Props/FileCtor.lean.
-/

namespace SpMP
open Spec

variable {R : Type}

/-- The value the reader stores for an entry (mm_io.cpp:374-395): the first number of the field; pattern entries have none. -/
def fieldRead (fmt : R → R) (junk : R) : Field → R → R
  | .pattern, _ => junk
  | _, v => fmt v

theorem skipWs_blank {s : Txt} (h : ∀ c ∈ s, cSpace c = true) : skipWs s = [] := by
  induction s with
  | nil => rfl
  | cons c s ih => rw [skipWs_space (h c (List.mem_cons_self ..))]; exact ih (fun x hx => h x (List.mem_cons_of_mem _ hx))

/-- Entry lines are read back, with the values as %lg returns them. -/
theorem readEntries_crd {lg : Txt → Option (R × Txt)} {ofInt : Int → R} {junk : R} {pr : R → Txt} {fmt : R → R} {t : TC} {d : Field}
    (ht : t.d = d.letter) (hlg : d ≠ .integer → ∀ v rest, AtSpace rest → scanLg lg (pr v ++ rest) = .ok (fmt v) rest)
    (hint : d = .integer → ∀ v rest, AtSpace rest → ∃ z, scanInt 9223372036854775808 (pr v ++ rest) = .ok z rest ∧ ofInt z = fmt v)
    {extra : Txt} (hex : ∀ c ∈ extra, cSpace c = true) (es : List (Int × Int × R × R))
    (hb : ∀ e ∈ es, (-intBound ≤ e.1 ∧ e.1 < intBound) ∧ -intBound ≤ e.2.1 ∧ e.2.1 < intBound) {f : Nat} (hf : es.length < f) :
    readEntries lg ofInt junk t f (es.flatMap (crdEntry pr d) ++ extra) =
      some (es.map fun e => (e.1, e.2.1, fieldRead fmt junk d e.2.2.1)) := by
  have htd : t.d = 'C' ∨ t.d = 'R' ∨ t.d = 'I' ∨ t.d = 'P' := by rw [ht]; cases d <;> simp [Field.letter]
  induction es generalizing f with
  | nil =>
    cases f with
    | zero => simp at hf
    | succ f =>
      unfold readEntries mmReadEntry
      rw [if_neg (not_not.mpr htd), List.flatMap_nil, List.nil_append]
      have : scanInts 2 extra = .short [] [] true := by
        unfold scanInts scanInt
        rw [skipWs_blank hex, if_pos rfl]
      rw [this]
      rfl
  | cons e es ih =>
    cases f with
    | zero => simp at hf
    | succ f =>
      obtain ⟨h1, h2⟩ := hb e (List.mem_cons_self ..)
      obtain ⟨rest, hrest⟩ : ∃ rest, rest = es.flatMap (crdEntry pr d) ++ extra := ⟨_, rfl⟩
      have hs : (e :: es).flatMap (crdEntry pr d) ++ extra = printD e.1 ++ ' ' :: (printD e.2.1 ++ (fieldText pr d e.2.2 ++ '\n' :: rest)) := by
        rw [List.flatMap_cons, hrest]
        unfold crdEntry
        simp
      have hsp : ∀ s : Txt, NoDig (' ' :: s) := by intro s c hc; simp at hc; subst hc; decide
      have hnl : ∀ s : Txt, AtSpace ('\n' :: s) := by intro s c hc; simp at hc; subst hc; decide
      have hbl : ∀ s : Txt, AtSpace (' ' :: s) := by intro s c hc; simp at hc; subst hc; decide
      have hnd : NoDig (fieldText pr d e.2.2 ++ '\n' :: rest) := by
        cases d <;> (intro c hc; simp [fieldText] at hc; subst hc; decide)
      have hsc : scanInts 2 (printD e.1 ++ ' ' :: (printD e.2.1 ++ (fieldText pr d e.2.2 ++ '\n' :: rest))) =
          .done [e.1, e.2.1] (fieldText pr d e.2.2 ++ '\n' :: rest) := by
        unfold scanInts
        rw [scanInt_printD h1 (hsp _)]
        dsimp only
        unfold scanInts
        rw [scanInt_space (by decide), scanInt_printD h2 hnd]
        rfl
      have hlg' : d ≠ .integer → ∀ v r, AtSpace r → scanLg lg (' ' :: (pr v ++ r)) = .ok (fmt v) r := by
        intro hd v r hr
        rw [← hlg hd v r hr]
        unfold scanLg
        rw [skipWs_space (by decide)]
      have hfield : ∃ r, readField lg ofInt junk t (fieldText pr d e.2.2 ++ '\n' :: rest) = .ok (fieldRead fmt junk d e.2.2.1) r ∧
          skipWs r = skipWs rest := by
        unfold readField
        cases d with
        | integer =>
          obtain ⟨z, e1, e2⟩ := hint rfl e.2.2.1 ('\n' :: rest) (hnl _)
          rw [if_neg (by rw [ht]; decide), if_neg (by rw [ht]; decide), if_pos (by rw [ht]; rfl)]
          refine ⟨skipWs ('\n' :: rest), ?_, ?_⟩
          · have e3 : scanInt 9223372036854775808 (' ' :: (pr e.2.2.1 ++ '\n' :: rest)) = .ok z ('\n' :: rest) := by
              rw [scanInt_space (by decide)]; exact e1
            show (match scanInt 9223372036854775808 (' ' :: (pr e.2.2.1 ++ '\n' :: rest)) with
              | .ok v r => Conv.ok (ofInt v) (skipWs r)
              | .fail r => .fail r
              | .eof => .eof
              | .ub => .ub) = _
            rw [e3]
            dsimp only
            rw [e2]; rfl
          · rw [skipWs_skipWs, skipWs_space (by decide)]
        | real =>
          have e1 := hlg' (by simp) e.2.2.1 ('\n' :: rest) (hnl _)
          rw [if_neg (by rw [ht]; decide), if_pos (by rw [ht]; rfl)]
          refine ⟨skipWs ('\n' :: rest), ?_, ?_⟩
          · show (match scanLg lg (' ' :: (pr e.2.2.1 ++ '\n' :: rest)) with
              | .ok v r => Conv.ok v (skipWs r)
              | c => c) = _
            rw [e1]; rfl
          · rw [skipWs_skipWs, skipWs_space (by decide)]
        | complex =>
          have e1 := hlg' (by simp) e.2.2.1 (' ' :: (pr e.2.2.2 ++ '\n' :: rest)) (hbl _)
          have e2 := hlg' (by simp) e.2.2.2 ('\n' :: rest) (hnl _)
          rw [if_pos (by rw [ht]; rfl)]
          refine ⟨'\n' :: rest, ?_, skipWs_space (by decide)⟩
          have : fieldText pr .complex e.2.2 ++ '\n' :: rest = ' ' :: (pr e.2.2.1 ++ ' ' :: (pr e.2.2.2 ++ '\n' :: rest)) := by
            simp [fieldText]
          rw [this, e1]
          dsimp only
          rw [e2]; rfl
        | pattern =>
          rw [if_neg (by rw [ht]; decide), if_neg (by rw [ht]; decide), if_neg (by rw [ht]; decide)]
          exact ⟨'\n' :: rest, rfl, skipWs_space (by decide)⟩
      obtain ⟨r, hfr, hskip⟩ := hfield
      have he : mmReadEntry lg ofInt junk t ((e :: es).flatMap (crdEntry pr d) ++ extra) = .ok e.1 e.2.1 (fieldRead fmt junk d e.2.2.1) r := by
        unfold mmReadEntry
        rw [if_neg (not_not.mpr htd), hs, hsc]
        dsimp only
        rw [hfr]
      unfold readEntries
      rw [he]
      dsimp only
      rw [← readEntries_skipWs, hskip, readEntries_skipWs, hrest,
        ih (fun x hx => hb x (List.mem_cons_of_mem _ hx)) (by rw [List.length_cons] at hf; omega)]
      rfl

theorem crdEntries_len (pr : R → Txt) (d : Field) (es : List (Int × Int × R × R)) : es.length ≤ (es.flatMap (crdEntry pr d)).length := by
  induction es with
  | nil => exact Nat.le_refl _
  | cons e es ih =>
    rw [List.flatMap_cons, List.length_append, List.length_cons]
    have : 1 ≤ (crdEntry pr d e).length := by unfold crdEntry; rw [List.length_append, List.length_cons]; omega
    omega

/-! ### The converter's look at the sizes -/

/-- Two numbers are found where three are, and where three are not found after fewer than two, two are not either. -/
theorem scanInts_two (s : Txt) : (∃ vs r, scanInts 2 s = .done vs r) ∨ (scanInts 2 s = scanInts 3 s ∧ ∀ vs r, scanInts 3 s ≠ .done vs r) := by
  have e2 : scanInts 2 s = match scanInt intBound s with
    | .ok v r => (scanInts 1 r).cons v
    | .fail r => .short [] r false
    | .eof => .short [] [] true
    | .ub => .ub := rfl
  have e3 : scanInts 3 s = match scanInt intBound s with
    | .ok v r => (scanInts 2 r).cons v
    | .fail r => .short [] r false
    | .eof => .short [] [] true
    | .ub => .ub := rfl
  rw [e2, e3]
  cases scanInt intBound s with
  | fail r => exact .inr ⟨rfl, fun _ _ h => by cases h⟩
  | eof => exact .inr ⟨rfl, fun _ _ h => by cases h⟩
  | ub => exact .inr ⟨rfl, fun _ _ h => by cases h⟩
  | ok v r =>
    dsimp only
    have f1 : scanInts 1 r = match scanInt intBound r with
      | .ok v r => (scanInts 0 r).cons v
      | .fail r => .short [] r false
      | .eof => .short [] [] true
      | .ub => .ub := rfl
    have f2 : scanInts 2 r = match scanInt intBound r with
      | .ok v r => (scanInts 1 r).cons v
      | .fail r => .short [] r false
      | .eof => .short [] [] true
      | .ub => .ub := rfl
    rw [f1, f2]
    cases scanInt intBound r with
    | fail r => exact .inr ⟨rfl, fun _ _ h => by cases h⟩
    | eof => exact .inr ⟨rfl, fun _ _ h => by cases h⟩
    | ub => exact .inr ⟨rfl, fun _ _ h => by cases h⟩
    | ok w q => exact .inl ⟨[v, w], q, rfl⟩

theorem sizeLoop_two {fuel : Nat} {s : Txt} {o o' : List Int} {c : Nat} {vs : List Int} {r : Txt}
    (h : sizeLoop 3 fuel s o = some (.ret c vs r)) : ∃ c' vs' r', sizeLoop 2 fuel s o' = some (.ret c' vs' r') := by
  induction fuel generalizing s o o' with
  | zero => cases h
  | succ f ih =>
    unfold sizeLoop at h ⊢
    rcases scanInts_two s with ⟨ws, q, e⟩ | ⟨e, hn⟩
    · rw [e]; exact ⟨_, _, _, rfl⟩
    · rw [e]
      cases e3 : scanInts 3 s with
      | ub => rw [e3] at h; cases h
      | done ws q => exact absurd e3 (hn ws q)
      | short ws q b =>
        rw [e3] at h
        dsimp only at h ⊢
        by_cases hc : ws = [] ∧ b = true
        · rw [if_pos hc]; exact ⟨_, _, _, rfl⟩
        · rw [if_neg hc] at h ⊢; exact ih h

theorem mmReadSize_two {fuel : Nat} {s : Txt} {c : Nat} {vs : List Int} {r : Txt}
    (h : mmReadSize 3 fuel s = some (.ret c vs r)) : ∃ c' vs' r', mmReadSize 2 fuel s = some (.ret c' vs' r') := by
  unfold mmReadSize at h ⊢
  cases hk : skipComments (s.length + 1) s with
  | none => exact ⟨_, _, _, rfl⟩
  | some l =>
    rw [hk] at h
    dsimp only at h ⊢
    rcases scanInts_two (cstr l.1) with ⟨ws, q, e⟩ | ⟨e, hn⟩
    · rw [e]; exact ⟨_, _, _, rfl⟩
    · rw [e]
      cases e3 : scanInts 3 (cstr l.1) with
      | ub => rw [e3] at h; cases h
      | done ws q => exact absurd e3 (hn ws q)
      | short ws q b => rw [e3] at h; exact sizeLoop_two h

/-- A text the loader accepts is not taken for a vector. -/
theorem takesVector_file {lg : Txt → Option (R × Txt)} {ofInt : Int → R} {junk : R} {fuel : Nat} {s : Txt} {F : MMFile R}
    (h : mmParse lg ofInt junk fuel s = some (.file F)) (hh : F.header = true) : takesVector fuel s = some false := by
  unfold mmParse at h
  unfold takesVector
  cases hb : mmReadBanner s with
  | none => rw [hb] at h; cases h
  | some x =>
    obtain ⟨code, t, s1⟩ := x
    rw [hb] at h
    dsimp only at h ⊢
    have hrej : ∀ {P : Prop}, some (ParseRes.file (rejected (R := R))) = some (.file F) → P := by
      intro P e
      cases e
      cases hh
    by_cases h1 : code ≠ 0
    · rw [if_pos h1] at h; exact hrej h
    rw [if_neg h1] at h
    by_cases h2 : ¬ mmIsValid t ∨ t.f = 'A'
    · rw [if_pos h2] at h; exact hrej h
    rw [if_neg h2] at h
    have hA : t.f ≠ 'A' := fun e => h2 (.inr e)
    cases hs : mmReadSize 3 fuel s1 with
    | none => rw [hs] at h; cases h
    | some z =>
      cases z with
      | ub => rw [hs] at h; cases h
      | ret c vs r =>
        obtain ⟨c', vs', r', e⟩ := mmReadSize_two hs
        rw [e]
        simp [hA]

end SpMP
