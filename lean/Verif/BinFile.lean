import Verif.Base
import Verif.Coo
/-
The binary file format (/repo/CSR.cpp:306-397).
-/

namespace SpMP
open Spec

set_option linter.unusedSectionVars false

variable {R : Type} [Races CArr]

/-- The contents of a binary file, in file order (CSR.cpp:375-392): id, m, n, nnz, row lengths, columns, values. Byte-level
encoding is not modelled. -/
structure BinFile (R : Type) where
  id : Int
  m : Nat
  n : Nat
  nnz : Nat
  rownnz : List Int
  cols : List Int
  vals : List R

/-- Read `n` elements of array `a` from index 0. -/
def collect (a : CArr) (n : Nat) : Prog (CTy R) (List (CTy R a)) :=
  Prog.forUp (ty := CTy R) 0 (n : Int) [] fun i acc => do
    let v ← Prog.read (ty := CTy R) a i
    pure (acc ++ [v])

/-- fread(a + off, .., n, fp): stores as many elements as the file has, at most `n`. -/
def deposit (a : CArr) (off : Int) (n : Nat) (l : List (CTy R a)) : Prog (CTy R) Unit :=
  Prog.forUp (ty := CTy R) 0 (n : Int) () fun i _ =>
    match l[i.toNat]? with
    | some v => Prog.write (ty := CTy R) a (i + off) v
    | none => pure ()

/-- CSR.cpp:374-392: the file written for a 0-based matrix. -/
def writeBin (k m n : Nat) : Prog (CTy R) (BinFile R) := do
  let nnz ← getNnz k m
  let lens ← Prog.forUp (ty := CTy R) 0 (m : Int) [] fun i acc => do
    let hi ← Prog.read (ty := CTy R) (.rowptr k) (i + 1)
    let lo ← Prog.read (ty := CTy R) (.rowptr k) i
    pure (acc ++ [(hi : Int) - lo])
  let cs ← collect (.colidx k) nnz.toNat
  let vs ← collect (.values k) nnz.toNat
  pure ⟨1211216, m, n, nnz.toNat, lens, cs, vs⟩

/-- CSR.cpp:361-397 storeBin; `opens`: fopen succeeds. The result is the file, if written. -/
def storeBin (sz : CArr → Int) (k m n : Nat) (o : Opt) (opens : Bool) : Script (CTy R) (Option (BinFile R)) :=
  Script.seq sz (Prog.read (ty := CTy R) (.rowptr k) 0) fun (base : Int) =>
  (if base = 1 then make0Based sz k m o else .done () : Script (CTy R) Unit).bind fun _ =>
  if opens then
    Script.seq sz (writeBin k m n) fun F =>
    (if base = 1 then make1Based sz k m o else .done () : Script (CTy R) Unit).bind fun _ => .done (some F)
  else .done none

/-- CSR.cpp:328-332. -/
def binScan (k m : Nat) : Prog (CTy R) Unit :=
  Prog.forUp (ty := CTy R) 1 (m : Int) () fun i _ => do
    let a ← Prog.read (ty := CTy R) (.rowptr k) (i + 1)
    let b ← Prog.read (ty := CTy R) (.rowptr k) i
    Prog.write (ty := CTy R) (.rowptr k) (i + 1) ((a : Int) + b)

/-- All arrays that CSR::alloc allocates (CSR.cpp:52-74). -/
def allOpt : Opt := ⟨true, true, true, true, false⟩

/-- CSR.cpp:308-359 loadBin of a file that can be opened into object `k`; the id is not checked (a mismatch is only printed).
The diagonal loop (337-345) is `cooDiag` with base 0; it stores diag before idiag, which are independent. -/
def loadBin [One R] [Div R] (sz : CArr → Int) (k : Nat) (F : BinFile R) (base : Int) : Script (CTy R) Unit :=
  Script.seq sz (do
    deposit (.rowptr k) 1 F.m F.rownnz
    Prog.write (ty := CTy R) (.rowptr k) 0 (0 : Int)
    binScan k F.m
    deposit (.colidx k) 0 F.nnz F.cols
    deposit (.values k) 0 F.nnz F.vals) fun _ =>
  .phase sz F.m (fun i => cooDiag k 0 true i) fun _ =>
  if base = 1 then make1Based sz k F.m allOpt
  else Script.seq sz (Prog.assert (base = 0)) fun _ => .done ()

/-- storeBin of object `k` to a file that opens, then loadBin into object `k'` (a user's program; no code of its own in /repo). -/
def storeThenLoad [One R] [Div R] (sz sz' : CArr → Int) (k k' m n : Nat) (o : Opt) (ob : Int) : Script (CTy R) (Option (Nat × Nat)) :=
  (storeBin sz k m n o true).bind fun F => match F with
    | some F => (loadBin sz' k' F ob).bind fun _ => .done (some (F.m, F.n))
    | none => .done none

/-! ### Proofs -/

section
variable {sz : CArr → Int} {W Rd : CArr → Int → Prop}

theorem wp_collect {a : CArr} {n : Nat} {f : Nat → CTy R a} {m0 : Mem (CTy R)} {Q : List (CTy R a) → Mem (CTy R) → Prop}
    (hR : ∀ i, Rd a i) (h : ∀ j : Nat, j < n → m0 a (j : Int) = some (f j)) (hQ : Q ((List.range n).map f) m0) :
    wp sz W Rd (collect a n) m0 Q := by
  unfold collect
  refine wp_forN (b := 0) (lo := 0) (hi := n) (fun x acc m => m = m0 ∧ acc = (List.range x).map f) (Nat.zero_le _) ⟨rfl, rfl⟩ ?_ ?_
    (by simp) (by simp)
  · rintro i acc m - hi ⟨rfl, rfl⟩
    rw [Int.add_zero]
    refine wp_rd _ (hR _) (h i hi) ?_
    rw [wp_pure, List.range_succ, List.map_append]
    exact ⟨rfl, rfl⟩
  · rintro acc m ⟨rfl, rfl⟩; exact hQ

theorem wp_deposit {a : CArr} {off n : Nat} {f : Nat → CTy R a} {l : List (CTy R a)} {m0 : Mem (CTy R)} {Q : Unit → Mem (CTy R) → Prop}
    (hW : ∀ i, W a i) (hl : l = (List.range n).map f) (hs : 0 < n → ((n + off : Nat) : Int) ≤ sz a)
    (hQ : ∀ m, (∀ j : Nat, j < n → m a ((j + off : Nat) : Int) = some (f j)) →
      (∀ (b : CArr) (i : Int), b ≠ a ∨ i < (off : Int) → m b i = m0 b i) → Q () m) :
    wp sz W Rd (deposit a (off : Int) n l) m0 Q := by
  unfold deposit
  refine wp_forN (b := 0) (lo := 0) (hi := n) (fun x _ m => (∀ j : Nat, j < x → m a ((j + off : Nat) : Int) = some (f j)) ∧
    (∀ (b : CArr) (i : Int), b ≠ a ∨ i < (off : Int) → m b i = m0 b i)) (Nat.zero_le _) ⟨fun j hj => by omega, fun _ _ _ => rfl⟩ ?_ ?_ (by simp) (by simp)
  · rintro i _ m - hi ⟨h1, h2⟩
    have e : l[((i : Int) + 0).toNat]? = some (f i) := by
      rw [hl, show ((i : Int) + 0).toNat = i by omega, List.getElem?_map, List.getElem?_range hi]; rfl
    rw [e]
    have := hs (by omega)
    rw [show (i : Int) + 0 + off = ((i + off : Nat) : Int) by omega]
    refine wp_wr1 (hW _) ⟨by omega, by omega⟩ ⟨?_, ?_⟩
    · intro j hj
      by_cases he : j = i
      · subst he; exact Mem.get_same _ _ _ _
      · rw [Mem.get_ne _ _ _ _ _ (by omega)]; exact h1 j (by omega)
    · intro b x hb
      by_cases hba : b = a
      · subst hba
        rw [Mem.get_ne _ _ _ _ _ (by rcases hb with h | h; exact absurd rfl h; omega)]
        exact h2 b x hb
      · rw [Mem.set_other _ _ _ _ _ hba]; exact h2 b x hb
  · rintro _ m ⟨h1, h2⟩; exact hQ m h1 h2

/-- The file of the matrix A. -/
def binOf (A : Csr R) : BinFile R where
  id := 1211216
  m := A.m
  n := A.n
  nnz := A.nnz
  rownnz := (List.range A.m).map fun i => ((A.ptr (i + 1) : Int) - A.ptr i)
  cols := (List.range A.nnz).map fun j => (A.col j : Int)
  vals := (List.range A.nnz).map fun j => A.val j

theorem wp_writeBin {k : Nat} {A : Csr R} {m0 : Mem (CTy R)} {Q : BinFile R → Mem (CTy R) → Prop} (hwf : A.WF) (hR : ∀ a i, Rd a i)
    (hp : HoldsPat m0 k 0 A) (hv : HoldsVal m0 k A) (hQ : Q (binOf A) m0) : wp sz W Rd (writeBin k A.m A.n) m0 Q := by
  unfold writeBin
  rw [wp_bind]
  refine wp_getNnz hwf hp (fun _ => hR _ _) ?_
  rw [wp_bind, Int.toNat_natCast]
  refine wp_forN (b := 0) (lo := 0) (hi := A.m) (fun x acc m => m = m0 ∧
    acc = (List.range x).map fun i => ((A.ptr (i + 1) : Int) - A.ptr i)) (Nat.zero_le _) ⟨rfl, rfl⟩ ?_ ?_ (by simp) (by simp)
  · rintro i acc m - hi ⟨rfl, rfl⟩
    rw [Int.add_zero]
    refine wp_rd _ (hR _ _) (hp.rp1 hi) ?_
    refine wp_rd _ (hR _ _) (hp.rp0 (by omega)) ?_
    rw [wp_pure, List.range_succ, List.map_append]
    exact ⟨rfl, rfl⟩
  · rintro acc m ⟨rfl, rfl⟩
    rw [wp_bind]
    refine wp_collect (f := fun j => (A.col j : Int)) (fun _ => hR _ _) (fun j hj => hp.col0 hj) ?_
    rw [wp_bind]
    refine wp_collect (f := fun j => A.val j) (fun _ => hR _ _) (fun j hj => hv j hj) ?_
    rw [wp_pure]; exact hQ

theorem wp_binScan {k : Nat} {A : Csr R} {m0 : Mem (CTy R)} {Q : Unit → Mem (CTy R) → Prop} (hwf : A.WF)
    (hW : ∀ a i, W a i) (hR : ∀ a i, Rd a i) (hs : (A.m : Int) + 1 ≤ sz (.rowptr k))
    (h0 : m0 (.rowptr k) 0 = some (0 : Int))
    (h1 : ∀ i : Nat, i < A.m → m0 (.rowptr k) ((i + 1 : Nat) : Int) = some ((A.ptr (i + 1) : Int) - A.ptr i))
    (hQ : ∀ m, (∀ i : Nat, i ≤ A.m → m (.rowptr k) (i : Int) = some (A.ptr i : Int)) →
      (∀ a i, a ≠ .rowptr k → m a i = m0 a i) → Q () m) :
    wp sz W Rd (binScan k A.m) m0 Q := by
  have hp0 : m0 (.rowptr k) 0 = some (A.ptr 0 : Int) := by rw [hwf.ptr_zero]; exact h0
  by_cases hm : A.m = 0
  · unfold binScan
    rw [hm]
    have : Prog.forUp (ty := CTy R) 1 ((0 : Nat) : Int) () (fun i _ => do
        let a ← Prog.read (ty := CTy R) (.rowptr k) (i + 1)
        let b ← Prog.read (ty := CTy R) (.rowptr k) i
        Prog.write (ty := CTy R) (.rowptr k) (i + 1) ((a : Int) + b)) = pure () := rfl
    rw [this, wp_pure]
    refine hQ m0 ?_ (fun _ _ _ => rfl)
    intro i hi
    obtain rfl : i = 0 := by omega
    exact hp0
  unfold binScan
  refine wp_forN (b := 0) (lo := 1) (hi := A.m) (fun x _ m =>
    (∀ i : Nat, i ≤ x → m (.rowptr k) (i : Int) = some (A.ptr i : Int)) ∧
    (∀ i : Nat, x ≤ i → i < A.m → m (.rowptr k) ((i + 1 : Nat) : Int) = some ((A.ptr (i + 1) : Int) - A.ptr i)) ∧
    ∀ a i, a ≠ .rowptr k → m a i = m0 a i) (by omega) ?_ ?_ ?_ (by simp) (by simp)
  · refine ⟨fun i hi => ?_, fun i _ hi => h1 i hi, fun _ _ _ => rfl⟩
    have : i = 0 ∨ i = 1 := by omega
    rcases this with rfl | rfl
    · exact hp0
    · have := h1 0 (by omega)
      rw [hwf.ptr_zero] at this
      simpa using this
  · rintro x _ m h1 hx ⟨g1, g2, g3⟩
    have ha := g2 x (Nat.le_refl _) hx
    push_cast at ha
    rw [Int.add_zero]
    refine wp_rd _ (hR _ _) ha ?_
    refine wp_rd _ (hR _ _) (g1 x (Nat.le_refl _)) ?_
    refine wp_wr1 (hW _ _) ⟨by omega, by omega⟩ ⟨?_, ?_, ?_⟩
    · intro i hi
      by_cases he : i = x + 1
      · subst he
        rw [show ((x + 1 : Nat) : Int) = (x : Int) + 1 by omega, Mem.get_same]
        have : (A.ptr (x + 1) : Int) - A.ptr x + A.ptr x = (A.ptr (x + 1) : Int) := by omega
        exact congrArg some this
      · rw [Mem.get_ne _ _ _ _ _ (by omega)]; exact g1 i (by omega)
    · intro i g4 g5
      rw [Mem.get_ne _ _ _ _ _ (by omega)]; exact g2 i (by omega) g5
    · intro a i ha; exact (congrFun (Mem.set_other _ _ _ _ _ ha) _).trans (g3 a i ha)
  · rintro _ m ⟨g1, _, g3⟩; exact hQ m g1 g3

end

/-- Undoing a shift restores the memory. -/
theorem Shifted.undo {m m' m'' : Mem (CTy R)} {k : Nat} {A : Csr R} {o : Opt} {d : Int} (h : Shifted m m' k A o d)
    (h' : Shifted m' m'' k A o (-d)) : m'' = m := by
  have hid : ∀ v : Option Int, (v.map fun v : Int => v + d).map (fun v : Int => v + -d) = v := by
    intro v
    cases v with
    | none => rfl
    | some v => simp only [Option.map_some]; congr 1; omega
  funext a i
  by_cases h1 : a = .rowptr k
  · subst h1
    by_cases hr : 0 ≤ i ∧ i < (A.m : Int) + 1
    · obtain ⟨q, rfl⟩ : ∃ q : Nat, i = q := ⟨i.toNat, by omega⟩
      rw [h'.rowptr q (by omega), h.rowptr q (by omega)]; exact hid _
    · rw [h'.rest_rowptr i hr, h.rest_rowptr i hr]
  by_cases h2 : a = .colidx k
  · subst h2
    by_cases hr : 0 ≤ i ∧ i < (A.nnz : Int)
    · obtain ⟨q, rfl⟩ : ∃ q : Nat, i = q := ⟨i.toNat, by omega⟩
      rw [h'.colidx q (by omega), h.colidx q (by omega)]; exact hid _
    · rw [h'.rest_colidx i hr, h.rest_colidx i hr]
  by_cases h3 : a = .diagptr k
  · subst h3
    by_cases hr : o.diagptr ∧ 0 ≤ i ∧ i < (A.m : Int)
    · obtain ⟨q, rfl⟩ : ∃ q : Nat, i = q := ⟨i.toNat, by omega⟩
      rw [h'.diagptr hr.1 q (by omega), h.diagptr hr.1 q (by omega)]; exact hid _
    · rw [h'.rest_diagptr i hr, h.rest_diagptr i hr]
  rw [h'.rest a h1 h2 h3, h.rest a h1 h2 h3]

theorem Script.ok_done_of {ty : CArr → Type} {α : Type} {r : α} {m : Mem ty} {Q : α → Mem ty → Prop} (h : Q r m) :
    (Script.done r : Script ty α).Ok m Q := h

theorem storeBin_ok {sz : CArr → Int} {k base : Nat} {A : Csr R} {o : Opt} {opens : Bool} {m0 : Mem (CTy R)} (hwf : A.WF)
    (hp : HoldsPat m0 k base A) (hv : HoldsVal m0 k A) (hb : base = 0 ∨ base = 1)
    (hdiag : base = 1 → o.diagptr → ∀ i : Nat, i < A.m → ∃ v, m0 (.diagptr k) (i : Int) = some v)
    (hsz : base = 1 → SizesOk sz k A o) :
    (storeBin sz k A.m A.n o opens).Ok m0 (fun r m => if opens = true ∨ base = 0 then
      m = m0 ∧ r = (if opens then some (binOf A) else none) else r = none) := by
  unfold storeBin
  refine seq_rule ?_
  have h0 := hp.rowptr 0 (by omega)
  rw [hwf.ptr_zero] at h0
  rw [wp_read]
  refine ⟨trivial, _, h0, ?_⟩
  rcases hb with rfl | rfl
  · rw [if_neg (by simp), Script.ok_bind]
    cases opens with
    | false => exact Script.ok_done_of (Script.ok_done_of (by rw [if_pos (Or.inr rfl)]; exact ⟨rfl, rfl⟩))
    | true =>
      refine Script.ok_done_of ?_
      rw [if_pos rfl]
      refine seq_rule ?_
      refine wp_writeBin hwf (fun _ _ => trivial) hp hv ?_
      rw [if_neg (by simp), Script.ok_bind]
      refine Script.ok_done_of (Script.ok_done_of ?_)
      rw [if_pos (Or.inr rfl)]; exact ⟨rfl, rfl⟩
  · rw [if_pos (by simp), Script.ok_bind]
    refine Script.Ok.mono (make0Based_ok hwf hp (Or.inr rfl) (hdiag rfl) (hsz rfl)) ?_
    intro _ m1 hs
    cases opens with
    | false =>
      rw [if_neg (by simp)]
      refine Script.ok_done_of ?_
      rw [if_neg (by simp)]
    | true =>
      rw [if_pos rfl]
      refine seq_rule ?_
      have hp1 : HoldsPat m1 k 0 A := hs.holds hp (by simp)
      have hv1 : HoldsVal m1 k A := fun j hj => by rw [hs.rest _ (by simp) (by simp) (by simp)]; exact hv j hj
      refine wp_writeBin hwf (fun _ _ => trivial) hp1 hv1 ?_
      rw [if_pos (by simp), Script.ok_bind]
      refine Script.Ok.mono (make1Based_ok hwf hp1 (Or.inl rfl) ?_ (hsz rfl)) ?_
      · intro hd i hi
        obtain ⟨v, hv⟩ := hdiag rfl hd i hi
        rw [hs.diagptr hd i hi, hv]; exact ⟨_, rfl⟩
      · intro _ m2 hs2
        refine Script.ok_done_of ?_
        rw [if_pos (Or.inl rfl)]
        refine ⟨?_, by rw [if_pos rfl]⟩
        exact hs.undo (by simpa using hs2)

theorem loadBin_ok [One R] [Div R] {sz : CArr → Int} {k base : Nat} {A : Csr R} {m0 : Mem (CTy R)} (hwf : A.WF)
    (hb : base = 0 ∨ base = 1) (hsz : SizesOk sz k A allOpt)
    (hd : base = 1 → ∀ i, i < A.m → ∃ j, A.InRow i j ∧ A.col j = i) :
    (loadBin sz k (binOf A) base).Ok m0 (fun _ m => HoldsPat m k base A ∧ HoldsVal m k A ∧
      (∀ i j, A.InRow i j → A.col j = i →
        ∃ j', A.InRow i j' ∧ A.col j' = i ∧ m (.diagptr k) (i : Int) = some ((j' : Int) + base) ∧
          m (.idiag k) (i : Int) = some (1 / A.val j') ∧ m (.diag k) (i : Int) = some (A.val j')) ∧
      ∀ a i, ¬ a.ofObj k → m a i = m0 a i) := by
  unfold loadBin
  refine seq_rule ?_
  rw [wp_bind]
  have s1 := hsz.rowptr
  have s2 := hsz.colidx
  have s3 := hsz.values rfl
  refine wp_deposit (off := 1) (f := fun i => (((A.ptr (i + 1) : Int) - (A.ptr i : Int) : Int) : CTy R (.rowptr k))) (fun _ => trivial) rfl
    (by intro _; show ((A.m + 1 : Nat) : Int) ≤ _; omega) ?_
  intro m1 a1 a2
  refine wp_wr trivial ⟨by omega, by omega⟩ ?_
  rw [wp_bind]
  refine wp_binScan hwf (fun _ _ => trivial) (fun _ _ => trivial) s1 (Mem.get_same _ _ _ _) ?_ ?_
  · intro i hi
    rw [Mem.get_ne _ _ _ _ _ (by omega)]; exact a1 i hi
  intro m2 b1 b2
  rw [wp_bind]
  refine wp_deposit (off := 0) (f := fun j => (A.col j : Int)) (fun _ => trivial) rfl (fun _ => by exact s2) ?_
  intro m3 c1 c2
  refine wp_deposit (off := 0) (f := fun j => A.val j) (fun _ => trivial) rfl (fun _ => by exact s3) ?_
  intro m4 d1 d2
  have hp4 : HoldsPat m4 k 0 A := by
    refine ⟨?_, ?_⟩
    · intro i hi
      rw [d2 _ _ (Or.inl (by simp)), c2 _ _ (Or.inl (by simp)), b1 i hi]
      simp
    · intro j hj
      rw [d2 _ _ (Or.inl (by simp))]
      have := c1 j hj
      rw [Nat.add_zero] at this
      rw [this]; simp
  have hv4 : HoldsVal m4 k A := fun j hj => by have := d1 j hj; rw [Nat.add_zero] at this; exact this
  have f4 : ∀ a i, ¬ a.ofObj k → m4 a i = m0 a i := by
    intro a i ha
    have h1 : a ≠ .rowptr k := by rintro rfl; exact ha rfl
    have h2 : a ≠ .colidx k := by rintro rfl; exact ha rfl
    have h3 : a ≠ .values k := by rintro rfl; exact ha rfl
    rw [d2 a i (Or.inl h3), c2 a i (Or.inl h2), b2 a i h1, Mem.set_other _ _ _ _ _ h1, a2 a i (Or.inl h1)]
  refine par_rule (W := fun t a i => (a = .diagptr k ∨ a = .idiag k ∨ a = .diag k) ∧ i = (t : Int))
    (R := fun t a i => (a = .rowptr k ∨ a = .colidx k ∨ a = .values k) ∨
      ((a = .diagptr k ∨ a = .idiag k ∨ a = .diag k) ∧ i = (t : Int)))
    (Q := fun t _ m => ∀ j, A.InRow t j → A.col j = t →
      ∃ j', A.InRow t j' ∧ A.col j' = t ∧ m (.diagptr k) (t : Int) = some ((j' : Int) + ((0 : Nat) : Int)) ∧
        (true = true → m (.idiag k) (t : Int) = some (1 / A.val j') ∧ m (.diag k) (t : Int) = some (A.val j'))) ?_ ?_ ?_
  · rintro t u a i ht hu htu ⟨ha, rfl⟩ (h | ⟨_, h⟩)
    · rcases ha with rfl | rfl | rfl <;> simp at h
    · omega
  · intro t ht
    exact wp_cooDiag (base := 0) hwf hp4 hv4 ht ⟨⟨by simp, rfl⟩, ⟨by simp, rfl⟩, ⟨by simp, rfl⟩⟩ (fun a j h => Or.inl h)
      (hsz.diagptr rfl) (fun _ => ⟨hsz.idiag rfl, hsz.diag rfl⟩)
  · intro r m5 hq hfr
    have hk : ∀ a i, a ≠ .diagptr k → a ≠ .idiag k → a ≠ .diag k → m5 a i = m4 a i := by
      intro a i h1 h2 h3
      refine hfr a i ?_
      rintro t _ ⟨h | h | h, _⟩
      · exact h1 h
      · exact h2 h
      · exact h3 h
    have hp5 : HoldsPat m5 k 0 A := ⟨fun i hi => by rw [hk _ _ (by simp) (by simp) (by simp)]; exact hp4.rowptr i hi,
      fun j hj => by rw [hk _ _ (by simp) (by simp) (by simp)]; exact hp4.colidx j hj⟩
    have hv5 : HoldsVal m5 k A := fun j hj => by rw [hk _ _ (by simp) (by simp) (by simp)]; exact hv4 j hj
    have hd5 : ∀ i j, A.InRow i j → A.col j = i →
        ∃ j', A.InRow i j' ∧ A.col j' = i ∧ m5 (.diagptr k) (i : Int) = some (j' : Int) ∧
          m5 (.idiag k) (i : Int) = some (1 / A.val j') ∧ m5 (.diag k) (i : Int) = some (A.val j') := by
      intro i j hij hcj
      obtain ⟨mt, h1, h2⟩ := hq i hij.1
      obtain ⟨j', q1, q2, q3, q4⟩ := h1 j hij hcj
      refine ⟨j', q1, q2, ?_, ?_, ?_⟩
      · rw [h2 _ _ (Or.inr ⟨by simp, rfl⟩), q3]; simp
      · rw [h2 _ _ (Or.inr ⟨by simp, rfl⟩)]; exact (q4 rfl).1
      · rw [h2 _ _ (Or.inr ⟨by simp, rfl⟩)]; exact (q4 rfl).2
    have f5 : ∀ a i, ¬ a.ofObj k → m5 a i = m0 a i := by
      intro a i ha
      rw [hk a i (by rintro rfl; exact ha rfl) (by rintro rfl; exact ha rfl) (by rintro rfl; exact ha rfl), f4 a i ha]
    rcases hb with rfl | rfl
    · rw [if_neg (by simp)]
      refine seq_rule ?_
      rw [wp_assert]
      refine ⟨rfl, hp5, hv5, ?_, f5⟩
      intro i j hij hcj
      obtain ⟨j', q1, q2, q3, q4⟩ := hd5 i j hij hcj
      exact ⟨j', q1, q2, by rw [q3]; simp, q4⟩
    · rw [if_pos (by simp)]
      refine Script.Ok.mono (make1Based_ok (A := A) hwf hp5 (Or.inl rfl) ?_ hsz) ?_
      · intro _ i hi
        obtain ⟨j, h1, h2⟩ := hd rfl i hi
        obtain ⟨j', _, _, q3, _⟩ := hd5 i j h1 h2
        exact ⟨_, q3⟩
      · intro _ m6 hs
        refine ⟨hs.holds hp5 (by simp), ?_, ?_, ?_⟩
        · intro j hj; rw [hs.rest _ (by simp) (by simp) (by simp)]; exact hv5 j hj
        · intro i j hij hcj
          obtain ⟨j', q1, q2, q3, q4, q5⟩ := hd5 i j hij hcj
          refine ⟨j', q1, q2, ?_, ?_, ?_⟩
          · rw [hs.diagptr rfl i hij.1, q3]; simp
          · rw [hs.rest _ (by simp) (by simp) (by simp)]; exact q4
          · rw [hs.rest _ (by simp) (by simp) (by simp)]; exact q5
        · intro a i ha
          rw [hs.rest a (by rintro rfl; exact ha rfl) (by rintro rfl; exact ha rfl) (by rintro rfl; exact ha rfl)]
          exact f5 a i ha

end SpMP
