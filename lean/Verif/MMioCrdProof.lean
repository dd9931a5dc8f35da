import Verif.MMioCrd
/-
Proofs about coordinate files.
-/

namespace SpMP
open Spec

variable {R : Type}

/-! ### The text -/

/-- The values of an entry on its line. -/
def fieldText (pr : R → Txt) : Field → R × R → Txt
  | .real, v => ' ' :: pr v.1
  | .complex, v => ' ' :: (pr v.1 ++ ' ' :: pr v.2)
  | .integer, v => ' ' :: pr v.1
  | .pattern, _ => []

/-- The line of an entry: row, column and the values the field asks for. -/
def crdEntry (pr : R → Txt) (d : Field) (e : Int × Int × R × R) : Txt :=
  printD e.1 ++ ' ' :: (printD e.2.1 ++ (fieldText pr d e.2.2 ++ ['\n']))

/-- Cell `l` of the arrays holds entry `e`. -/
def CrdAt (m : Mem (CTy R)) (d : Field) (l : Nat) (e : Int × Int × R × R) : Prop :=
  m (.itmp 0) (l : Int) = some e.1 ∧ m (.itmp 1) (l : Int) = some e.2.1 ∧
    (d = .real → m (.vec 0) (l : Int) = some e.2.2.1) ∧
    (d = .complex → m (.vec 0) (2 * (l : Int)) = some e.2.2.1 ∧ m (.vec 0) (2 * (l : Int) + 1) = some e.2.2.2)

theorem fprintf_snd (room : Nat) (s : Txt) : (fprintf room s).2 = s.take room := by
  unfold fprintf
  split
  · rename_i h; exact (List.take_of_length_le h).symm
  · rfl

theorem putTxt_take (room : Nat) (x s : Txt) : putTxt room (x.take room) s = (x ++ s).take room := by
  unfold putTxt
  rw [fprintf_snd, List.take_append, List.length_take]
  congr 2
  omega

/-! ### Writing -/

section
variable {sz : CArr → Int} {W Rd : CArr → Int → Prop} {pr : R → Txt} {d : Field} {t : TC}

theorem wp_crdLine {l nz : Nat} {e : Int × Int × R × R} {m : Mem (CTy R)} {Q : Txt → Mem (CTy R) → Prop}
    (ht : t.d = d.letter) (hd : d ≠ .integer) (hRd : ∀ a i, Rd a i) (hl : l < nz) (h0 : (nz : Int) ≤ sz (.itmp 0)) (h1 : (nz : Int) ≤ sz (.itmp 1))
    (h2 : d = .real → (nz : Int) ≤ sz (.vec 0)) (h3 : d = .complex → 2 * (nz : Int) ≤ sz (.vec 0))
    (hm : CrdAt m d l e) (hQ : Q (crdEntry pr d e) m) : wp sz W Rd (crdLine pr t l) m Q := by
  obtain ⟨g0, g1, g2, g3⟩ := hm
  unfold crdLine
  refine wp_rd _ (hRd _ _) g0 ?_
  refine wp_rd _ (hRd _ _) g1 ?_
  cases d with
  | pattern =>
    rw [if_pos (show t.d = 'P' from ht), wp_pure]
    have : crdEntry pr .pattern e = printD e.1 ++ ' ' :: printD e.2.1 ++ ['\n'] := by simp [crdEntry, fieldText]
    rw [← this]; exact hQ
  | real =>
    rw [if_neg (by rw [ht]; decide), if_pos (show t.d = 'R' from ht)]
    refine wp_rd _ (hRd _ _) (g2 rfl) ?_
    rw [wp_pure]
    have : crdEntry pr .real e = printD e.1 ++ ' ' :: printD e.2.1 ++ ' ' :: pr e.2.2.1 ++ ['\n'] := by simp [crdEntry, fieldText]
    rw [← this]; exact hQ
  | complex =>
    rw [if_neg (by rw [ht]; decide), if_neg (by rw [ht]; decide)]
    refine wp_rd _ (hRd _ _) (g3 rfl).1 ?_
    refine wp_rd _ (hRd _ _) (g3 rfl).2 ?_
    rw [wp_pure]
    have : crdEntry pr .complex e = printD e.1 ++ ' ' :: printD e.2.1 ++ ' ' :: pr e.2.2.1 ++ ' ' :: pr e.2.2.2 ++ ['\n'] := by
      simp [crdEntry, fieldText]
    rw [← this]; exact hQ
  | integer => exact absurd rfl hd

theorem wp_crdValues {room : Nat} {L : List (Int × Int × R × R)} {x : Txt} {m : Mem (CTy R)} {Q : Nat × Txt → Mem (CTy R) → Prop}
    (ht : t.d = d.letter) (hd : d ≠ .integer) (hRd : ∀ a i, Rd a i) (h0 : (L.length : Int) ≤ sz (.itmp 0)) (h1 : (L.length : Int) ≤ sz (.itmp 1))
    (h2 : d = .real → (L.length : Int) ≤ sz (.vec 0)) (h3 : d = .complex → 2 * (L.length : Int) ≤ sz (.vec 0))
    (hm : ∀ l (h : l < L.length), CrdAt m d l L[l]) (hQ : Q (0, (x ++ L.flatMap (crdEntry pr d)).take room) m) :
    wp sz W Rd (crdValues pr room L.length t (x.take room)) m Q := by
  unfold crdValues
  rw [if_pos (by rw [ht]; cases d <;> simp [Field.letter] at hd ⊢)]
  rw [wp_bind]
  refine wp_forN (b := 0) (lo := 0) (hi := L.length) (fun i acc m' => m' = m ∧ acc = (x ++ (L.take i).flatMap (crdEntry pr d)).take room)
    (Nat.zero_le _) ⟨rfl, by simp⟩ ?_ ?_ (by simp) (by simp)
  · rintro i acc m' - hi ⟨rfl, rfl⟩
    rw [Int.add_zero, wp_bind]
    refine wp_crdLine (nz := L.length) (e := L[i]) ht hd hRd hi h0 h1 h2 h3 (hm i hi) ?_
    rw [wp_pure]
    refine ⟨rfl, ?_⟩
    rw [putTxt_take, List.take_succ_eq_append_getElem hi, List.flatMap_append]
    simp
  · rintro acc m' ⟨rfl, rfl⟩
    rw [wp_pure, List.take_length]
    exact hQ

theorem wp_mmWriteCrd {room : Nat} {L : List (Int × Int × R × R)} {str : Txt} {M N : Int} {m : Mem (CTy R)}
    {Q : Nat × Txt → Mem (CTy R) → Prop} (hs : mmTypecodeToStr t = some (some str))
    (ht : t.d = d.letter) (hd : d ≠ .integer) (hRd : ∀ a i, Rd a i) (h0 : (L.length : Int) ≤ sz (.itmp 0)) (h1 : (L.length : Int) ≤ sz (.itmp 1))
    (h2 : d = .real → (L.length : Int) ≤ sz (.vec 0)) (h3 : d = .complex → 2 * (L.length : Int) ≤ sz (.vec 0))
    (hm : ∀ l (h : l < L.length), CrdAt m d l L[l])
    (hQ : Q (0, (mmBanner ++ ' ' :: str ++ '\n' :: (sizeLine [M, N, L.length] ++ L.flatMap (crdEntry pr d))).take room) m) :
    wp sz W Rd (mmWriteCrd pr room M N L.length t) m Q := by
  unfold mmWriteCrd crdBanner
  rw [wp_bind, hs]
  dsimp only
  rw [wp_pure]
  have e0 : putTxt room [] (mmBanner ++ [' ']) = (mmBanner ++ [' ']).take room := by
    have := putTxt_take room [] (mmBanner ++ [' '])
    rwa [List.take_nil, List.nil_append] at this
  rw [e0, putTxt_take, putTxt_take]
  refine wp_crdValues ht hd hRd h0 h1 h2 h3 hm ?_
  have : mmBanner ++ ' ' :: str ++ '\n' :: (sizeLine [M, N, (L.length : Int)] ++ L.flatMap (crdEntry pr d)) =
      mmBanner ++ [' '] ++ (str ++ ['\n']) ++ sizeLine [M, N, (L.length : Int)] ++ L.flatMap (crdEntry pr d) := by simp
  rw [← this]; exact hQ

end

/-! ### Reading -/

theorem scanInt_congr {B : Int} {s s' : Txt} (h : skipWs s = skipWs s') : scanInt B s = scanInt B s' := by
  unfold scanInt; rw [h]

section
variable {sz : CArr → Int} {W Rd : CArr → Int → Prop} {lg : Txt → Option (R × Txt)} {pr : R → Txt} {fmt : R → R} {d : Field} {t : TC}

theorem wp_putInt {k : Nat} {i : Int} {s r : Txt} {v : Int} {m : Mem (CTy R)} {Q : Option Txt → Mem (CTy R) → Prop}
    (hs : scanInt intBound s = .ok v r) (hW : W (.itmp k) i) (hb : 0 ≤ i ∧ i < sz (.itmp k)) (hQ : Q (some r) (m.set (.itmp k) i v)) :
    wp sz W Rd (putInt k i (some s)) m Q := by
  unfold putInt
  dsimp only
  rw [hs]
  dsimp only
  refine wp_wr hW hb ?_
  rw [wp_pure]
  exact hQ

theorem wp_putLg {i : Int} {s r : Txt} {v : R} {m : Mem (CTy R)} {Q : Option Txt → Mem (CTy R) → Prop}
    (hs : scanLg lg s = .ok v r) (hW : W (.vec 0) i) (hb : 0 ≤ i ∧ i < sz (.vec 0)) (hQ : Q (some r) (m.set (.vec 0) i v)) :
    wp sz W Rd (lvPut lg i (some s)) m Q := by
  unfold lvPut
  dsimp only
  rw [hs]
  dsimp only
  refine wp_wr hW hb ?_
  rw [wp_pure]
  exact hQ

/-- Reading the line of an entry. -/
theorem wp_crdItem {l nz : Nat} {e : Int × Int × R × R} {s rest : Txt} {m : Mem (CTy R)} {Q : Option Txt → Mem (CTy R) → Prop}
    (hlg : ∀ v rest, AtSpace rest → scanLg lg (pr v ++ rest) = .ok (fmt v) rest)
    (ht : t.d = d.letter) (hd : d ≠ .integer) (hW : ∀ a i, W a i) (hl : l < nz) (h0 : (nz : Int) ≤ sz (.itmp 0)) (h1 : (nz : Int) ≤ sz (.itmp 1))
    (h2 : d = .real → (nz : Int) ≤ sz (.vec 0)) (h3 : d = .complex → 2 * (nz : Int) ≤ sz (.vec 0))
    (hb : (-intBound ≤ e.1 ∧ e.1 < intBound) ∧ -intBound ≤ e.2.1 ∧ e.2.1 < intBound)
    (hs : skipWs s = skipWs (crdEntry pr d e ++ rest))
    (hQ : ∀ r m', skipWs r = skipWs rest → CrdAt m' d l (e.1, e.2.1, fmt e.2.2.1, fmt e.2.2.2) →
      (∀ l' e', l' < l → CrdAt m d l' e' → CrdAt m' d l' e') → Q (some r) m') :
    wp sz W Rd (crdItem lg t l (some s)) m Q := by
  have hsp : ∀ s : Txt, NoDig (' ' :: s) := by intro s c hc; simp at hc; subst hc; decide
  have hnl : ∀ s : Txt, AtSpace ('\n' :: s) := by intro s c hc; simp at hc; subst hc; decide
  have hbl : ∀ s : Txt, AtSpace (' ' :: s) := by intro s c hc; simp at hc; subst hc; decide
  have e1 : crdEntry pr d e ++ rest = printD e.1 ++ ' ' :: (printD e.2.1 ++ (fieldText pr d e.2.2 ++ '\n' :: rest)) := by
    simp [crdEntry]
  rw [e1] at hs
  have c1 : scanInt intBound s = .ok e.1 (' ' :: (printD e.2.1 ++ (fieldText pr d e.2.2 ++ '\n' :: rest))) := by
    rw [scanInt_congr hs, scanInt_printD hb.1 (hsp _)]
  have hnd : NoDig (fieldText pr d e.2.2 ++ '\n' :: rest) := by
    cases d <;> simp only [fieldText]
    · exact hsp _
    · exact hsp _
    · exact (hnl _).noDig
    · exact hsp _
  have c2 : scanInt intBound (' ' :: (printD e.2.1 ++ (fieldText pr d e.2.2 ++ '\n' :: rest))) = .ok e.2.1 (fieldText pr d e.2.2 ++ '\n' :: rest) := by
    rw [scanInt_space (by decide), scanInt_printD hb.2 hnd]
  unfold crdItem
  rw [wp_bind]
  refine wp_putInt c1 (hW _ _) ⟨by omega, by omega⟩ ?_
  rw [wp_bind]
  refine wp_putInt c2 (hW _ _) ⟨by omega, by omega⟩ ?_
  cases d with
  | integer => exact absurd rfl hd
  | pattern =>
    rw [if_neg (by rw [ht]; decide), if_neg (by rw [ht]; decide), wp_pure]
    refine hQ _ _ (skipWs_space (by decide)) ⟨?_, ?_, by simp, by simp⟩ ?_
    · rw [Mem.set_other _ _ _ _ _ (by simp), Mem.get_same]
    · rw [Mem.get_same]
    · rintro l' e' hl' ⟨a1, a2, a3, a4⟩
      refine ⟨?_, ?_, by simp, by simp⟩
      · rw [Mem.set_other _ _ _ _ _ (by simp), Mem.get_ne _ _ _ _ _ (by omega)]; exact a1
      · rw [Mem.get_ne _ _ _ _ _ (by omega), Mem.set_other _ _ _ _ _ (by simp)]; exact a2
  | real =>
    rw [if_neg (by rw [ht]; decide), if_pos (show t.d = 'R' from ht), wp_bind]
    have c3 : scanLg lg (fieldText pr .real e.2.2 ++ '\n' :: rest) = .ok (fmt e.2.2.1) ('\n' :: rest) := by
      have := hlg e.2.2.1 ('\n' :: rest) (hnl _)
      rw [← this]
      exact scanLg_congr (skipWs_space (by decide))
    refine wp_putLg c3 (hW _ _) ⟨by omega, by have := h2 rfl; omega⟩ ?_
    rw [wp_pure]
    refine hQ _ _ (by rw [skipWs_skipWs, skipWs_space (by decide)]) ⟨?_, ?_, ?_, by simp⟩ ?_
    · rw [Mem.set_other _ _ _ _ _ (by simp), Mem.set_other _ _ _ _ _ (by simp), Mem.get_same]
    · rw [Mem.set_other _ _ _ _ _ (by simp), Mem.get_same]
    · intro _; rw [Mem.get_same]
    · rintro l' e' hl' ⟨a1, a2, a3, a4⟩
      refine ⟨?_, ?_, ?_, by simp⟩
      · rw [Mem.set_other _ _ _ _ _ (by simp), Mem.set_other _ _ _ _ _ (by simp), Mem.get_ne _ _ _ _ _ (by omega)]; exact a1
      · rw [Mem.set_other _ _ _ _ _ (by simp), Mem.get_ne _ _ _ _ _ (by omega), Mem.set_other _ _ _ _ _ (by simp)]; exact a2
      · intro _; rw [Mem.get_ne _ _ _ _ _ (by omega), Mem.set_other _ _ _ _ _ (by simp), Mem.set_other _ _ _ _ _ (by simp)]; exact a3 rfl
  | complex =>
    rw [if_pos (show t.d = 'C' from ht), wp_bind]
    have c3 : scanLg lg (fieldText pr .complex e.2.2 ++ '\n' :: rest) = .ok (fmt e.2.2.1) (' ' :: (pr e.2.2.2 ++ '\n' :: rest)) := by
      have := hlg e.2.2.1 (' ' :: (pr e.2.2.2 ++ '\n' :: rest)) (hbl _)
      rw [← this]
      refine scanLg_congr ?_
      simp only [fieldText, List.cons_append, List.append_assoc]
      exact skipWs_space (by decide)
    have c4 : scanLg lg (' ' :: (pr e.2.2.2 ++ '\n' :: rest)) = .ok (fmt e.2.2.2) ('\n' :: rest) := by
      have := hlg e.2.2.2 ('\n' :: rest) (hnl _)
      rw [← this]
      exact scanLg_congr (skipWs_space (by decide))
    refine wp_putLg c3 (hW _ _) ⟨by omega, by have := h3 rfl; omega⟩ ?_
    refine wp_putLg c4 (hW _ _) ⟨by omega, by have := h3 rfl; omega⟩ ?_
    refine hQ _ _ (by rw [skipWs_space (by decide)]) ⟨?_, ?_, by simp, ?_⟩ ?_
    · rw [Mem.set_other _ _ _ _ _ (by simp), Mem.set_other _ _ _ _ _ (by simp), Mem.set_other _ _ _ _ _ (by simp), Mem.get_same]
    · rw [Mem.set_other _ _ _ _ _ (by simp), Mem.set_other _ _ _ _ _ (by simp), Mem.get_same]
    · intro _
      constructor
      · rw [Mem.get_ne _ _ _ _ _ (by omega), Mem.get_same]
      · rw [Mem.get_same]
    · rintro l' e' hl' ⟨a1, a2, a3, a4⟩
      refine ⟨?_, ?_, by simp, ?_⟩
      · rw [Mem.set_other _ _ _ _ _ (by simp), Mem.set_other _ _ _ _ _ (by simp), Mem.set_other _ _ _ _ _ (by simp),
          Mem.get_ne _ _ _ _ _ (by omega)]; exact a1
      · rw [Mem.set_other _ _ _ _ _ (by simp), Mem.set_other _ _ _ _ _ (by simp), Mem.get_ne _ _ _ _ _ (by omega),
          Mem.set_other _ _ _ _ _ (by simp)]; exact a2
      · intro _
        constructor
        · rw [Mem.get_ne _ _ _ _ _ (by omega), Mem.get_ne _ _ _ _ _ (by omega), Mem.set_other _ _ _ _ _ (by simp),
            Mem.set_other _ _ _ _ _ (by simp)]; exact (a4 rfl).1
        · rw [Mem.get_ne _ _ _ _ _ (by omega), Mem.get_ne _ _ _ _ _ (by omega), Mem.set_other _ _ _ _ _ (by simp),
            Mem.set_other _ _ _ _ _ (by simp)]; exact (a4 rfl).2

theorem wp_crdItem_none {i : Int} {m : Mem (CTy R)} {Q : Option Txt → Mem (CTy R) → Prop} (hQ : Q none m) :
    wp sz W Rd (crdItem lg t i none) m Q := by
  unfold crdItem
  rw [wp_bind]
  refine wp_pure.2 ?_
  rw [wp_bind]
  refine wp_pure.2 ?_
  split
  · rw [wp_bind]
    refine wp_pure.2 ?_
    exact wp_pure.2 hQ
  · split
    · rw [wp_bind]
      refine wp_pure.2 ?_
      exact wp_pure.2 hQ
    · exact wp_pure.2 hQ

theorem wp_crdItem_blank {i : Int} {s : Txt} {m : Mem (CTy R)} {Q : Option Txt → Mem (CTy R) → Prop} (hs : skipWs s = []) (hQ : Q none m) :
    wp sz W Rd (crdItem lg t i (some s)) m Q := by
  have : putInt (R := R) 0 i (some s) = pure none := by
    unfold putInt
    dsimp only
    have e : scanInt intBound s = .eof := by unfold scanInt; rw [hs]; rfl
    rw [e]
  have h2 := wp_crdItem_none (sz := sz) (W := W) (Rd := Rd) (lg := lg) (t := t) (i := i) (m := m) hQ
  unfold crdItem at h2 ⊢
  rw [this]
  exact h2

/-- The data of a file with the lines of `L` and then white space: reading `nz` entries succeeds exactly if there are as many. -/
theorem wp_mmReadCrdData {nz : Nat} {L : List (Int × Int × R × R)} {extra : Txt} {m : Mem (CTy R)} {Q : Nat → Mem (CTy R) → Prop}
    (hlg : ∀ v rest, AtSpace rest → scanLg lg (pr v ++ rest) = .ok (fmt v) rest)
    (ht : t.d = d.letter) (hd : d ≠ .integer) (hW : ∀ a i, W a i) (h0 : (nz : Int) ≤ sz (.itmp 0)) (h1 : (nz : Int) ≤ sz (.itmp 1))
    (h2 : d = .real → (nz : Int) ≤ sz (.vec 0)) (h3 : d = .complex → 2 * (nz : Int) ≤ sz (.vec 0))
    (hb : ∀ e ∈ L, (-intBound ≤ e.1 ∧ e.1 < intBound) ∧ -intBound ≤ e.2.1 ∧ e.2.1 < intBound)
    (hex : L.length < nz → ∀ c ∈ extra, cSpace c = true)
    (hQ : ∀ c m', c = (if nz ≤ L.length then 0 else 12) →
      (∀ l (h : l < L.length), l < nz → nz ≤ L.length → CrdAt m' d l (L[l].1, L[l].2.1, fmt L[l].2.2.1, fmt L[l].2.2.2)) → Q c m') :
    wp sz W Rd (mmReadCrdData lg nz t (L.flatMap (crdEntry pr d) ++ extra)) m Q := by
  unfold mmReadCrdData
  rw [if_pos (by rw [ht]; cases d <;> simp [Field.letter] at hd ⊢)]
  rw [wp_bind]
  refine wp_forN (b := 0) (lo := 0) (hi := nz) (fun x st m' =>
      (x ≤ L.length ∧ (∃ s, st = some s ∧ skipWs s = skipWs ((L.drop x).flatMap (crdEntry pr d) ++ extra)) ∧
        ∀ l (h : l < L.length), l < x → CrdAt m' d l (L[l].1, L[l].2.1, fmt L[l].2.2.1, fmt L[l].2.2.2)) ∨ (L.length < x ∧ st = none))
    (Nat.zero_le _) (Or.inl ⟨Nat.zero_le _, ⟨_, rfl, rfl⟩, fun l _ h => absurd h (by omega)⟩) ?_ ?_ (by simp) (by simp)
  · rintro i st m' - hi (⟨k1, ⟨s, rfl, k2⟩, k3⟩ | ⟨k1, rfl⟩)
    · rw [Int.add_zero]
      by_cases hx : i < L.length
      · rw [List.drop_eq_getElem_cons hx, List.flatMap_cons, List.append_assoc] at k2
        refine wp_crdItem hlg ht hd hW hi h0 h1 h2 h3 (hb _ (List.getElem_mem hx)) k2 ?_
        intro r m'' hr hat hpres
        refine Or.inl ⟨hx, ⟨r, rfl, hr⟩, ?_⟩
        intro l hl hli
        by_cases hq : l = i
        · subst hq; exact hat
        · exact hpres l _ (by omega) (k3 l hl (by omega))
      · rw [List.drop_eq_nil_iff.mpr (by omega), List.flatMap_nil, List.nil_append] at k2
        refine wp_crdItem_blank ?_ (Or.inr ⟨by omega, rfl⟩)
        rw [k2]
        have := skipWs_app (b := []) (hex (by omega))
        rw [List.append_nil] at this
        rw [this]; rfl
    · exact wp_crdItem_none (Or.inr ⟨by omega, rfl⟩)
  · rintro st m' (⟨k1, ⟨s, rfl, k2⟩, k3⟩ | ⟨k1, rfl⟩)
    · rw [wp_pure]
      exact hQ _ _ (by rw [if_pos k1]; rfl) (fun l hl h _ => k3 l hl h)
    · rw [wp_pure]
      exact hQ _ _ (by rw [if_neg (c := nz ≤ L.length) (by omega)]; rfl) (fun l hl h h' => absurd h' (by omega))

/-- The loop of mm_read_unsymmetric_sparse. -/
theorem wp_unsym {L : List (Int × Int × R × R)} {extra : Txt} {m : Mem (CTy R)} {Q : Txt → Mem (CTy R) → Prop}
    (hlg : ∀ v rest, AtSpace rest → scanLg lg (pr v ++ rest) = .ok (fmt v) rest)
    (hW : ∀ a i, W a i) (hR : ∀ a i, Rd a i) (h0 : (L.length : Int) ≤ sz (.itmp 0)) (h1 : (L.length : Int) ≤ sz (.itmp 1))
    (h2 : (L.length : Int) ≤ sz (.vec 0))
    (hb : ∀ e ∈ L, (-intBound ≤ e.1 ∧ e.1 < intBound) ∧ -intBound ≤ e.2.1 ∧ e.2.1 < intBound)
    (hQ : ∀ s m', (∀ l (h : l < L.length), CrdAt m' .real l (L[l].1 - 1, L[l].2.1 - 1, fmt L[l].2.2.1, fmt L[l].2.2.2)) → Q s m') :
    wp sz W Rd (Prog.forUp (ty := CTy R) 0 L.length (L.flatMap (crdEntry pr .real) ++ extra) fun i s => unsymItem lg i s) m Q := by
  refine wp_forN (b := 0) (lo := 0) (hi := L.length) (fun x s m' =>
      skipWs s = skipWs ((L.drop x).flatMap (crdEntry pr .real) ++ extra) ∧
        ∀ l (h : l < L.length), l < x → CrdAt m' .real l (L[l].1 - 1, L[l].2.1 - 1, fmt L[l].2.2.1, fmt L[l].2.2.2))
    (Nat.zero_le _) ⟨rfl, fun l _ h => absurd h (by omega)⟩ ?_ ?_ (by simp) (by simp)
  · rintro i s m' - hi ⟨k2, k3⟩
    rw [Int.add_zero]
    rw [List.drop_eq_getElem_cons hi, List.flatMap_cons, List.append_assoc] at k2
    unfold unsymItem
    rw [wp_bind]
    refine wp_crdItem (d := .real) hlg rfl (by simp) hW hi h0 h1 (fun _ => h2) (by simp) (hb _ (List.getElem_mem hi)) k2 ?_
    intro r m'' hr hat hpres
    refine wp_rd _ (hR _ _) hat.1 ?_
    refine wp_wr (hW _ _) ⟨by omega, by omega⟩ ?_
    refine wp_rd _ (hR _ _) ((congrFun (Mem.set_other _ _ _ _ _ (by simp)) _).trans hat.2.1) ?_
    refine wp_wr (hW _ _) ⟨by omega, by omega⟩ ?_
    rw [wp_pure]
    refine ⟨hr, ?_⟩
    intro l hl hli
    by_cases hq : l = i
    · subst hq
      refine ⟨?_, ?_, ?_, by simp⟩
      · rw [Mem.set_other _ _ _ _ _ (by simp), Mem.get_same]
      · rw [Mem.get_same]
      · intro _; rw [Mem.set_other _ _ _ _ _ (by simp), Mem.set_other _ _ _ _ _ (by simp)]; exact hat.2.2.1 rfl
    · obtain ⟨a1, a2, a3, -⟩ := hpres l _ (by omega) (k3 l hl (by omega))
      refine ⟨?_, ?_, ?_, by simp⟩
      · rw [Mem.set_other _ _ _ _ _ (by simp), Mem.get_ne _ _ _ _ _ (by omega)]; exact a1
      · rw [Mem.get_ne _ _ _ _ _ (by omega), Mem.set_other _ _ _ _ _ (by simp)]; exact a2
      · intro _; rw [Mem.set_other _ _ _ _ _ (by simp), Mem.set_other _ _ _ _ _ (by simp)]; exact a3 rfl
  · rintro s m' ⟨-, k3⟩
    exact hQ _ _ (fun l hl => k3 l hl hl)

end

end SpMP
