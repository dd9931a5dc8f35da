import Verif.Coo
import Verif.StdLib
import Verif.Spec.Loader
/-
The Matrix Market loader (/repo/COO.cpp:186-371). The file is given as the values the header and the entry reader deliver
(`MMFile`; Verif/MMio.lean models how they come from the text). The new arrays are `itmp 0` (rowidx), `itmp 1` (colidx), `vec 0`
(values), `itmp 2` (colidx_temp) and `itmp 3` (rowcnt), with the sizes the function allocates.
-/

namespace SpMP
open Spec

set_option linter.unusedSectionVars false

variable {R : Type} [Races CArr]

/-- What COO.cpp:194-279 gets from the file: whether banner and size line are accepted (194-218), the field and symmetry of the
banner, the sizes, and the triples mm_read_mtx_crd_entry delivers until it fails. Simplification: the sizes are not negative. -/
structure MMFile (R : Type) where
  header : Bool
  pattern : Bool
  symmetric : Bool
  m : Nat
  n : Nat
  nnz : Nat
  entries : List (Int × Int × R)

/-- COO.cpp:223-224: (m + pad - 1)/pad*pad. -/
def ldRound (m pad : Nat) : Nat := (m + pad - 1) / pad * pad

/-- COO.cpp:236-249: sizes of the allocated arrays. -/
def ldSize (alloc cnt m : Nat) : CArr → Int
  | .itmp 0 => alloc
  | .itmp 1 => alloc
  | .vec 0 => alloc
  | .itmp 2 => cnt
  | .itmp 3 => (m : Int) + 1
  | _ => 0

/-- COO.cpp:255. -/
def ldZero (m : Nat) : Prog (CTy R) Unit :=
  Prog.forUp (ty := CTy R) 0 ((m : Int) + 1) () fun i _ => Prog.write (ty := CTy R) (.itmp 3) i (0 : Int)

/-- COO.cpp:265, 273-275: the triple as stored. -/
def ldView [One R] (trans pattern : Bool) (e : Int × Int × R) : Int × Int × R :=
  (if trans then e.2.1 else e.1, if trans then e.1 else e.2.1, if pattern then 1 else e.2.2)

/-- COO.cpp:264-282: the entry loop; `none` is the return on an out-of-range coordinate, otherwise count and base. -/
def ldRead (sym : Bool) (om on : Int) : List (Int × Int × R) → Nat → Int → Prog (CTy R) (Option (Nat × Int))
  | [], c, b => pure (some (c, b))
  | e :: es, c, b =>
    if om < e.1 ∨ on < e.2.1 then pure none
    else do
      Prog.write (ty := CTy R) (.itmp 0) c e.1
      Prog.write (ty := CTy R) (.itmp 1) c e.2.1
      Prog.write (ty := CTy R) (.vec 0) c e.2.2
      let _ ← (if sym then do
        let v ← Prog.read (ty := CTy R) (.itmp 3) e.1
        Prog.write (ty := CTy R) (.itmp 3) e.1 ((v : Int) + 1)
      else pure () : Prog (CTy R) Unit)
      ldRead sym om on es (c + 1) (if e.1 = 0 ∨ e.2.1 = 0 then 0 else b)

/-- COO.cpp:284-289: padding, from count `c`; returns the new count. -/
def ldPad [One R] (lo hi : Nat) (c : Nat) : Prog (CTy R) Unit :=
  Prog.forUp (ty := CTy R) (lo : Int) (hi : Int) () fun i _ => do
    Prog.write (ty := CTy R) (.itmp 0) ((c : Int) + (i - lo)) (i + 1)
    Prog.write (ty := CTy R) (.itmp 1) ((c : Int) + (i - lo)) (i + 1)
    Prog.write (ty := CTy R) (.vec 0) ((c : Int) + (i - lo)) (1 : R)

/-- COO.cpp:292-302. -/
def ldBase0 (sym : Bool) (m c : Nat) : Prog (CTy R) Unit := do
  Prog.forUp (ty := CTy R) 0 (c : Int) () fun i _ => do
    let x ← Prog.read (ty := CTy R) (.itmp 0) i
    Prog.write (ty := CTy R) (.itmp 0) i ((x : Int) + 1)
    let y ← Prog.read (ty := CTy R) (.itmp 1) i
    Prog.write (ty := CTy R) (.itmp 1) i ((y : Int) + 1)
  if sym then
    Prog.forDown (ty := CTy R) ((m : Int) + 1) 1 () fun i _ => do
      let b ← Prog.read (ty := CTy R) (.itmp 3) (i - 1)
      Prog.write (ty := CTy R) (.itmp 3) i (b : Int)
  else pure ()

/-- COO.cpp:314-316. -/
def ldScan (m : Nat) : Prog (CTy R) Unit :=
  Prog.forUp (ty := CTy R) 0 (m : Int) () fun i _ => do
    let a ← Prog.read (ty := CTy R) (.itmp 3) (i + 1)
    let b ← Prog.read (ty := CTy R) (.itmp 3) i
    Prog.write (ty := CTy R) (.itmp 3) (i + 1) ((a : Int) + b)

/-- COO.cpp:317-321. -/
def ldFill (c : Nat) : Prog (CTy R) Unit :=
  Prog.forUp (ty := CTy R) 0 (c : Int) () fun i _ => do
    let r ← Prog.read (ty := CTy R) (.itmp 0) i
    let j ← Prog.read (ty := CTy R) (.itmp 3) ((r : Int) - 1)
    let y ← Prog.read (ty := CTy R) (.itmp 1) i
    Prog.write (ty := CTy R) (.itmp 2) j (y : Int)
    let w ← Prog.read (ty := CTy R) (.itmp 3) ((r : Int) - 1)
    Prog.write (ty := CTy R) (.itmp 3) ((r : Int) - 1) ((w : Int) + 1)

/-- COO.cpp:322-325. -/
def ldShift (m : Nat) : Prog (CTy R) Unit := do
  Prog.forDown (ty := CTy R) ((m : Int) + 1) 1 () fun i _ => do
    let b ← Prog.read (ty := CTy R) (.itmp 3) (i - 1)
    Prog.write (ty := CTy R) (.itmp 3) i (b : Int)
  Prog.write (ty := CTy R) (.itmp 3) 0 (0 : Int)

/-- COO.cpp:328-330, iteration `i`. -/
def ldSort (i : Int) : Prog (CTy R) Unit := do
  let lo ← Prog.read (ty := CTy R) (.itmp 3) i
  let hi ← Prog.read (ty := CTy R) (.itmp 3) (i + 1)
  stdSort 2 lo hi

/-- COO.cpp:332-343; returns real_count. -/
def ldMirror (c : Nat) : Prog (CTy R) Int :=
  Prog.forUp (ty := CTy R) 0 (c : Int) (c : Int) fun i rc => do
    let x ← Prog.read (ty := CTy R) (.itmp 0) i
    let y ← Prog.read (ty := CTy R) (.itmp 1) i
    if (x : Int) ≠ y then do
      let lo ← Prog.read (ty := CTy R) (.itmp 3) ((y : Int) - 1)
      let hi ← Prog.read (ty := CTy R) (.itmp 3) y
      let found ← binarySearch 2 lo hi x
      if found then pure rc
      else do
        Prog.write (ty := CTy R) (.itmp 0) rc (y : Int)
        Prog.write (ty := CTy R) (.itmp 1) rc (x : Int)
        let v ← Prog.read (ty := CTy R) (.vec 0) i
        Prog.write (ty := CTy R) (.vec 0) rc (v : R)
        pure (rc + 1)
    else pure rc

/-- COO.cpp:247-325: everything up to the parallel sort; `none` = returned false, `some count` otherwise. -/
def ldFirst [One R] (es : List (Int × Int × R)) (sym : Bool) (nnz om on m n : Nat) : Prog (CTy R) (Option Nat) := do
  let _ ← (if sym then ldZero m else pure () : Prog (CTy R) Unit)
  let r ← ldRead sym om on es 0 1
  match r with
  | none => pure none
  | some (c, base) => do
    ldPad (min om on) (min m n) c
    let c' := c + (min m n - min om on)
    let _ ← (if base = 0 then ldBase0 sym m c' else pure () : Prog (CTy R) Unit)
    if c ≠ nnz then pure none
    else do
      let _ ← (if sym then do
        ldScan m
        ldFill c'
        ldShift m
      else pure () : Prog (CTy R) Unit)
      pure (some c')

/-- COO.cpp:186-359 loadMatrixMarket_ for a file that can be opened and a fresh COO object, with successful allocations. The
result is `none` for false, otherwise (coo.m, coo.n, coo.nnz). -/
def loadMM [One R] (F : MMFile R) (force trans : Bool) (pad : Nat) : Script (CTy R) (Option (Nat × Nat × Int)) :=
  if F.header then
    let om := if trans then F.n else F.m
    let on := if trans then F.m else F.n
    let m := ldRound om pad
    let n := ldRound on pad
    let sym := force || F.symmetric
    let cnt := if sym then 2 * F.nnz else F.nnz
    let sz := ldSize (cnt + (min m n - min om on)) cnt m
    Script.seq sz (ldFirst (F.entries.map (ldView trans F.pattern)) sym F.nnz om on m n) fun r =>
      match r with
      | none => .done none
      | some c =>
        if sym then .phase sz m (fun i => ldSort (i : Int)) fun _ => Script.seq sz (ldMirror c) fun rc => .done (some (m, n, rc))
        else .done (some (m, n, (c : Int)))
  else .done none

/-! ### Proofs -/

/-- The COO arrays hold the triples of `L`. -/
def LH (m : Mem (CTy R)) (L : List (Int × Int × R)) : Prop :=
  ∀ l (h : l < L.length), m (.itmp 0) (l : Int) = some L[l].1 ∧ m (.itmp 1) (l : Int) = some L[l].2.1 ∧
    m (.vec 0) (l : Int) = some L[l].2.2

theorem LH.nil (m : Mem (CTy R)) : LH m [] := fun l h => absurd h (by simp)

theorem LH.congr {m m' : Mem (CTy R)} {L : List (Int × Int × R)} (h : LH m L)
    (h0 : ∀ i, m' (.itmp 0) i = m (.itmp 0) i) (h1 : ∀ i, m' (.itmp 1) i = m (.itmp 1) i) (h2 : ∀ i, m' (.vec 0) i = m (.vec 0) i) :
    LH m' L := fun l hl => by rw [h0, h1, h2]; exact h l hl

theorem LH.snoc {m : Mem (CTy R)} {L : List (Int × Int × R)} (h : LH m L) (e : Int × Int × R) :
    LH (((m.set (.itmp 0) L.length e.1).set (.itmp 1) L.length e.2.1).set (.vec 0) L.length e.2.2) (L ++ [e]) := by
  intro l hl
  have hl' : l < L.length + 1 := by simpa using hl
  by_cases he : l = L.length
  · subst he
    have e1 : (L ++ [e])[L.length] = e := by simp
    rw [e1]
    refine ⟨?_, ?_, Mem.get_same _ _ _ _⟩
    · rw [Mem.set_other _ _ _ _ _ (by simp), Mem.set_other _ _ _ _ _ (by simp)]; exact Mem.get_same _ _ _ _
    · rw [Mem.set_other _ _ _ _ _ (by simp)]; exact Mem.get_same _ _ _ _
  · have hlt : l < L.length := by omega
    have e1 : (L ++ [e])[l] = L[l] := List.getElem_append_left hlt
    rw [e1]
    have hne : (l : Int) ≠ (L.length : Int) := by omega
    obtain ⟨g0, g1, g2⟩ := h l hlt
    refine ⟨?_, ?_, ?_⟩
    · rw [Mem.set_other _ _ _ _ _ (by simp), Mem.set_other _ _ _ _ _ (by simp), Mem.get_ne _ _ _ _ _ hne]; exact g0
    · rw [Mem.set_other _ _ _ _ _ (by simp), Mem.get_ne _ _ _ _ _ hne, Mem.set_other _ _ _ _ _ (by simp)]; exact g1
    · rw [Mem.get_ne _ _ _ _ _ hne, Mem.set_other _ _ _ _ _ (by simp), Mem.set_other _ _ _ _ _ (by simp)]; exact g2

section
variable {sz : CArr → Int} {W Rd : CArr → Int → Prop}

theorem wp_ldZero {m0 : Mem (CTy R)} {mm : Nat} {Q : Unit → Mem (CTy R) → Prop} (hW : ∀ a i, W a i)
    (hs : (mm : Int) + 1 ≤ sz (.itmp 3))
    (hQ : ∀ m, (∀ i : Nat, i ≤ mm → m (.itmp 3) (i : Int) = some (0 : Int)) → Q () m) :
    wp sz W Rd (ldZero mm) m0 Q := by
  unfold ldZero
  refine wp_forN (b := 0) (lo := 0) (hi := mm + 1) (fun x _ m => ∀ i : Nat, i < x → m (.itmp 3) (i : Int) = some (0 : Int))
    (Nat.zero_le _) (fun i hi => by omega) ?_ ?_ (by simp) (by simp)
  · rintro x _ m - hx h
    rw [Int.add_zero]
    refine wp_wr1 (hW _ _) ⟨by omega, by omega⟩ ?_
    intro i hi
    by_cases he : i = x
    · subst he; exact Mem.get_same _ _ _ _
    · rw [Mem.get_ne _ _ _ _ _ (by omega)]; exact h i (by omega)
  · intro _ m h; exact hQ m fun i hi => h i (by omega)

/-- Out of range for the check of COO.cpp:267. -/
def ldBad (om on : Int) (e : Int × Int × R) : Prop := om < e.1 ∨ on < e.2.1

instance (om on : Int) (e : Int × Int × R) : Decidable (ldBad om on e) := by unfold ldBad; infer_instance

/-- Has a zero index. -/
def ldZeroIx (e : Int × Int × R) : Prop := e.1 = 0 ∨ e.2.1 = 0

instance (e : Int × Int × R) : Decidable (ldZeroIx e) := by unfold ldZeroIx; infer_instance

theorem wp_ldRead {sym : Bool} {om on : Int} {mm : Nat} (hW : ∀ a i, W a i) (hR : ∀ a i, Rd a i)
    (hs3 : sym = true → (mm : Int) + 1 ≤ sz (.itmp 3)) :
    ∀ (es P : List (Int × Int × R)) (base : Int) (m : Mem (CTy R)) {Q : Option (Nat × Int) → Mem (CTy R) → Prop},
    ((P.length : Int) + es.length ≤ sz (.itmp 0)) → ((P.length : Int) + es.length ≤ sz (.itmp 1)) →
    ((P.length : Int) + es.length ≤ sz (.vec 0)) →
    (sym = true → ∀ e ∈ es, 0 ≤ e.1 ∧ e.1 ≤ mm) →
    LH m P → (sym = true → ∀ i : Nat, i ≤ mm → m (.itmp 3) (i : Int) = some (P.countP (fun e : Int × Int × R => decide (e.1 = (i : Int))) : Int)) →
    ((∃ e ∈ es, ldBad om on e) → ∀ m', Q none m') →
    ((∀ e ∈ es, ¬ ldBad om on e) → ∀ m', LH m' (P ++ es) →
      (sym = true → ∀ i : Nat, i ≤ mm → m' (.itmp 3) (i : Int) = some ((P ++ es).countP (fun e : Int × Int × R => decide (e.1 = (i : Int))) : Int)) →
      Q (some (P.length + es.length, if ∃ e ∈ es, ldZeroIx e then 0 else base)) m') →
    wp sz W Rd (ldRead sym om on es P.length base) m Q := by
  intro es
  induction es with
  | nil =>
    intro P base m Q _ _ _ _ hL hc _ hQ
    show wp sz W Rd (pure (some (P.length, base))) m Q
    rw [wp_pure]
    have := hQ (fun e h => absurd h (by simp)) m (by rw [List.append_nil]; exact hL) (by rw [List.append_nil]; exact hc)
    simpa using this
  | cons e es ih =>
    intro P base m Q h0 h1 h2 hr hL hc hQ1 hQ2
    have hl : ((e :: es).length : Int) = es.length + 1 := by simp
    rw [hl] at h0 h1 h2
    unfold ldRead
    by_cases hb : om < e.1 ∨ on < e.2.1
    · rw [if_pos hb, wp_pure]
      exact hQ1 ⟨e, by simp, hb⟩ m
    rw [if_neg hb]
    refine wp_wr (hW _ _) ⟨by omega, by omega⟩ ?_
    refine wp_wr (hW _ _) ⟨by omega, by omega⟩ ?_
    refine wp_wr (hW _ _) ⟨by omega, by omega⟩ ?_
    have hsn := hL.snoc e
    rw [wp_bind]
    have hlen : (P ++ [e]).length = P.length + 1 := by simp
    have fin : ∀ m', LH m' (P ++ [e]) →
        (sym = true → ∀ i : Nat, i ≤ mm → m' (.itmp 3) (i : Int) = some ((P ++ [e]).countP (fun e : Int × Int × R => decide (e.1 = (i : Int))) : Int)) →
        wp sz W Rd (ldRead sym om on es (P.length + 1) (if e.1 = 0 ∨ e.2.1 = 0 then 0 else base)) m' Q := by
      intro m' g1 g2
      rw [← hlen]
      refine ih (P ++ [e]) _ m' (by rw [hlen]; push_cast; omega) (by rw [hlen]; push_cast; omega) (by rw [hlen]; push_cast; omega)
        (fun hs e' he' => hr hs e' (by simp [he'])) g1 g2 ?_ ?_
      · rintro ⟨e', h, h'⟩ m''; exact hQ1 ⟨e', by simp [h], h'⟩ m''
      · intro hn m'' k1 k2
        rw [List.append_assoc] at k1 k2
        have := hQ2 (by
          intro e' he'
          rcases List.mem_cons.mp he' with rfl | he'
          · exact hb
          · exact hn e' he') m'' k1 k2
        have e1 : (P ++ [e]).length + es.length = P.length + (e :: es).length := by simp; omega
        rw [e1]
        have e2 : (if ∃ e' ∈ es, ldZeroIx e' then (0 : Int) else if e.1 = 0 ∨ e.2.1 = 0 then 0 else base) =
            if ∃ e' ∈ e :: es, ldZeroIx e' then 0 else base := by
          by_cases hz : ∃ e' ∈ es, ldZeroIx e'
          · rw [if_pos hz, if_pos]
            obtain ⟨e', h, h'⟩ := hz
            exact ⟨e', by simp [h], h'⟩
          · rw [if_neg hz]
            by_cases hz' : e.1 = 0 ∨ e.2.1 = 0
            · rw [if_pos hz', if_pos ⟨e, by simp, hz'⟩]
            · rw [if_neg hz', if_neg]
              rintro ⟨e', h, h'⟩
              rcases List.mem_cons.mp h with rfl | h
              · exact hz' h'
              · exact hz ⟨e', h, h'⟩
        rw [e2]; exact this
    cases sym with
    | false =>
      rw [if_neg (by simp), wp_pure]
      exact fin _ hsn (fun h => absurd h (by simp))
    | true =>
      rw [if_pos rfl]
      obtain ⟨r0, r1⟩ := hr rfl e (by simp)
      have hs3 := hs3 rfl
      obtain ⟨q, hq⟩ : ∃ q : Nat, e.1 = (q : Int) := ⟨e.1.toNat, by omega⟩
      have hcq := hc rfl q (by omega)
      rw [hq]
      rw [hq] at fin hsn
      refine wp_rd (P.countP (fun e : Int × Int × R => decide (e.1 = (q : Int))) : Int) (hR _ _) ?_ ?_
      · rw [Mem.set_other _ _ _ _ _ (by simp), Mem.set_other _ _ _ _ _ (by simp), Mem.set_other _ _ _ _ _ (by simp)]
        exact hcq
      refine wp_wr1 (hW _ _) ⟨by omega, by omega⟩ ?_
      refine fin _ ?_ ?_
      · exact hsn.congr (fun i => congrFun (Mem.set_other _ _ _ _ _ (by simp)) _) (fun i => congrFun (Mem.set_other _ _ _ _ _ (by simp)) _)
          (fun i => congrFun (Mem.set_other _ _ _ _ _ (by simp)) _)
      · intro _ i hi
        rw [List.countP_append, List.countP_singleton]
        by_cases he : i = q
        · subst he
          refine (Mem.get_same _ _ _ _).trans ?_
          rw [if_pos (by rw [hq]; simp)]
          push_cast; rfl
        · rw [Mem.get_ne _ _ _ _ _ (by omega), Mem.set_other _ _ _ _ _ (by simp), Mem.set_other _ _ _ _ _ (by simp),
            Mem.set_other _ _ _ _ _ (by simp), hc rfl i hi]
          rw [if_neg (by rw [hq]; simp; omega)]
          push_cast; simp

theorem wp_ldPad [One R] {m0 : Mem (CTy R)} {L : List (Int × Int × R)} {lo hi : Nat} {Q : Unit → Mem (CTy R) → Prop}
    (hW : ∀ a i, W a i) (hle : lo ≤ hi) (hL : LH m0 L) (h0 : (L.length : Int) + (hi - lo) ≤ sz (.itmp 0))
    (h1 : (L.length : Int) + (hi - lo) ≤ sz (.itmp 1)) (h2 : (L.length : Int) + (hi - lo) ≤ sz (.vec 0))
    (hQ : ∀ m, LH m (L ++ listed 1 (padDiag lo hi)) → (∀ a i, a ≠ .itmp 0 → a ≠ .itmp 1 → a ≠ .vec 0 → m a i = m0 a i) → Q () m) :
    wp sz W Rd (ldPad lo hi L.length) m0 Q := by
  unfold ldPad
  refine wp_forN (b := 0) (lo := lo) (hi := hi) (fun x _ m => LH m (L ++ listed 1 (padDiag lo x)) ∧
    ∀ a i, a ≠ .itmp 0 → a ≠ .itmp 1 → a ≠ .vec 0 → m a i = m0 a i) hle ⟨?_, fun _ _ _ _ _ => rfl⟩ ?_ ?_ (by simp) (by simp)
  · unfold padDiag listed; rw [Nat.sub_self]; simp only [List.range'_zero, List.map_nil, List.append_nil]; exact hL
  · rintro x _ m g1 g2 ⟨g3, g4⟩
    rw [Int.add_zero]
    have hlen : (L ++ listed 1 (padDiag (R := R) lo x)).length = L.length + (x - lo) := by
      rw [List.length_append, listed_length]; unfold padDiag; simp
    have hpos : (L.length : Int) + ((x : Int) - lo) = ((L ++ listed 1 (padDiag (R := R) lo x)).length : Int) := by
      rw [hlen]; push_cast [Nat.cast_sub g1]; rfl
    refine wp_wr (hW _ _) ⟨by omega, by omega⟩ ?_
    refine wp_wr (hW _ _) ⟨by omega, by omega⟩ ?_
    refine wp_wr1 (hW _ _) ⟨by omega, by omega⟩ ⟨?_, ?_⟩
    · have e1 : L ++ listed 1 (padDiag (R := R) lo (x + 1)) = (L ++ listed 1 (padDiag lo x)) ++ [((x : Int) + 1, (x : Int) + 1, 1)] := by
        rw [List.append_assoc]
        congr 1
        unfold padDiag listed
        rw [show x + 1 - lo = (x - lo) + 1 by omega, List.range'_concat, List.map_append, List.map_append]
        congr 1
        simp only [List.map_cons, List.map_nil, Nat.one_mul]
        rw [show lo + (x - lo) = x by omega]
      rw [e1, hpos]
      exact g3.snoc ((x : Int) + 1, (x : Int) + 1, 1)
    · intro a i k1 k2 k3
      rw [Mem.set_other _ _ _ _ _ k3, Mem.set_other _ _ _ _ _ k2, Mem.set_other _ _ _ _ _ k1]
      exact g4 a i k1 k2 k3
  · rintro _ m ⟨g1, g2⟩; exact hQ m g1 g2

theorem wp_ldBase0 {m0 : Mem (CTy R)} {L : List (Int × Int × R)} {mm : Nat} {Q : Unit → Mem (CTy R) → Prop}
    (hW : ∀ a i, W a i) (hR : ∀ a i, Rd a i) (hL : LH m0 L) (h0 : (L.length : Int) ≤ sz (.itmp 0))
    (h1 : (L.length : Int) ≤ sz (.itmp 1))
    (hQ : ∀ m, LH m (L.map fun e => (e.1 + 1, e.2.1 + 1, e.2.2)) → Q () m) :
    wp sz W Rd (ldBase0 false mm L.length) m0 Q := by
  unfold ldBase0
  rw [wp_bind]
  refine wp_forN (b := 0) (lo := 0) (hi := L.length) (fun x _ m => ∀ l (h : l < L.length),
    m (.itmp 0) (l : Int) = some (L[l].1 + if l < x then 1 else 0) ∧
    m (.itmp 1) (l : Int) = some (L[l].2.1 + if l < x then 1 else 0) ∧ m (.vec 0) (l : Int) = some L[l].2.2) (Nat.zero_le _)
    ?_ ?_ ?_ (by simp) (by simp)
  · intro l hl
    rw [if_neg (by omega), Int.add_zero, Int.add_zero]; exact hL l hl
  · rintro x _ m - hx h
    rw [Int.add_zero]
    have hx0 := h x hx
    rw [if_neg (by omega), Int.add_zero, Int.add_zero] at hx0
    refine wp_rd _ (hR _ _) hx0.1 ?_
    refine wp_wr (hW _ _) ⟨by omega, by omega⟩ ?_
    refine wp_rd L[x].2.1 (hR _ _) ((congrFun (Mem.set_other _ _ _ _ _ (by simp)) _).trans hx0.2.1) ?_
    refine wp_wr1 (hW _ _) ⟨by omega, by omega⟩ ?_
    intro l hl
    by_cases he : l = x
    · subst he
      rw [if_pos (by omega)]
      refine ⟨?_, Mem.get_same _ _ _ _, ?_⟩
      · rw [Mem.set_other _ _ _ _ _ (by simp)]; exact Mem.get_same _ _ _ _
      · rw [Mem.set_other _ _ _ _ _ (by simp), Mem.set_other _ _ _ _ _ (by simp)]; exact hx0.2.2
    · have e1 : (if l < x + 1 then (1 : Int) else 0) = if l < x then 1 else 0 := by
        by_cases hh : l < x
        · rw [if_pos hh, if_pos (by omega)]
        · rw [if_neg hh, if_neg (by omega)]
      rw [e1]
      have hne : (l : Int) ≠ x := by omega
      obtain ⟨k1, k2, k3⟩ := h l hl
      refine ⟨?_, ?_, ?_⟩
      · rw [Mem.set_other _ _ _ _ _ (by simp), Mem.get_ne _ _ _ _ _ hne]; exact k1
      · rw [Mem.get_ne _ _ _ _ _ hne, Mem.set_other _ _ _ _ _ (by simp)]; exact k2
      · rw [Mem.set_other _ _ _ _ _ (by simp), Mem.set_other _ _ _ _ _ (by simp)]; exact k3
  · intro _ m h
    rw [if_neg (by simp), wp_pure]
    refine hQ m ?_
    intro l hl
    have hl' : l < L.length := by simpa using hl
    have := h l hl'
    rw [if_pos hl'] at this
    rw [List.getElem_map]
    exact this

end

end SpMP
