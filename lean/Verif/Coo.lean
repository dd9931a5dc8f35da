import Verif.SortRows
import Verif.Transpose
/-
Conversion of a coordinate list to CSR (/repo/COO.cpp:104-184). The coordinate list is in `itmp 0` (rowidx), `itmp 1`
(colidx) and `vec 0` (values), with 1-based indices as the code assumes; the CSR object is `k`.
-/

namespace SpMP
open Spec

set_option linter.unusedSectionVars false

variable {R : Type} [Races CArr]

/-- COO.cpp:118: row lengths, counted one cell to the right. -/
def cooCount (k nnz : Nat) : Prog (CTy R) Unit :=
  Prog.forUp (ty := CTy R) 0 (nnz : Int) () fun l _ => do
    let r ← Prog.read (ty := CTy R) (.itmp 0) l
    let v ← Prog.read (ty := CTy R) (.rowptr k) r
    Prog.write (ty := CTy R) (.rowptr k) r ((v : Int) + 1)

/-- COO.cpp:120. -/
def cooScan (k m : Nat) : Prog (CTy R) Unit :=
  Prog.forUp (ty := CTy R) 0 (m : Int) () fun i _ => do
    let a ← Prog.read (ty := CTy R) (.rowptr k) (i + 1)
    let b ← Prog.read (ty := CTy R) (.rowptr k) i
    Prog.write (ty := CTy R) (.rowptr k) (i + 1) ((a : Int) + b)

/-- COO.cpp:123-128. -/
def cooFill (k nnz : Nat) (ob : Int) : Prog (CTy R) Unit :=
  Prog.forUp (ty := CTy R) 0 (nnz : Int) () fun l _ => do
    let r ← Prog.read (ty := CTy R) (.itmp 0) l
    let i ← Prog.read (ty := CTy R) (.rowptr k) ((r : Int) - 1)
    let v ← Prog.read (ty := CTy R) (.vec 0) l
    Prog.write (ty := CTy R) (.values k) i v
    let c ← Prog.read (ty := CTy R) (.itmp 1) l
    Prog.write (ty := CTy R) (.colidx k) i ((c : Int) - 1 + ob)
    let w ← Prog.read (ty := CTy R) (.rowptr k) ((r : Int) - 1)
    Prog.write (ty := CTy R) (.rowptr k) ((r : Int) - 1) ((w : Int) + 1)

/-- COO.cpp:131-133. -/
def cooShift (k m : Nat) (ob : Int) : Prog (CTy R) Unit := do
  Prog.forDown (ty := CTy R) ((m : Int) + 1) 1 () fun i _ => do
    let b ← Prog.read (ty := CTy R) (.rowptr k) (i - 1)
    Prog.write (ty := CTy R) (.rowptr k) i ((b : Int) + ob)
  Prog.write (ty := CTy R) (.rowptr k) 0 ob

/-- COO.cpp:104-142 coo2csr. -/
def coo2csr (sz : CArr → Int) (k m nnz : Nat) (sort : Bool) (ob : Int) : Script (CTy R) Unit :=
  .phase sz (m + 1) (fun i => Prog.write (ty := CTy R) (.rowptr k) (i : Int) (0 : Int)) fun _ =>
  Script.seq sz (do cooCount k nnz; cooScan k m; cooFill k nnz ob; cooShift k m ob) fun _ =>
  if sort then sortRows sz k m ob else .done ()

/-- COO.cpp:171-181, iteration `i`. -/
def cooDiag [One R] [Div R] (k : Nat) (base : Int) (sep : Bool) (i : Int) : Prog (CTy R) Unit := do
  let lo ← Prog.read (ty := CTy R) (.rowptr k) i
  let hi ← Prog.read (ty := CTy R) (.rowptr k) (i + 1)
  Prog.forUp (ty := CTy R) ((lo : Int) - base) ((hi : Int) - base) () fun j _ => do
    let c ← Prog.read (ty := CTy R) (.colidx k) j
    if (c : Int) - base = i then do
      Prog.write (ty := CTy R) (.diagptr k) i (j + base)
      if sep then do
        let v ← Prog.read (ty := CTy R) (.values k) j
        Prog.write (ty := CTy R) (.idiag k) i (1 / v : R)
        let v ← Prog.read (ty := CTy R) (.values k) j
        Prog.write (ty := CTy R) (.diag k) i (v : R)
      else pure ()
    else pure ()

/-- COO.cpp:154-184 dcoo2csr(CSR *, const COO *, outBase, createSeparateDiagData). `dp`: diagptr allocated; `sep`:
createSeparateDiagData holds and both idiag and diag are allocated. -/
def dcoo2csr [One R] [Div R] (sz : CArr → Int) (k m nnz : Nat) (ob : Int) (dp sep : Bool) : Script (CTy R) Unit :=
  (coo2csr sz k m nnz true ob).bind fun _ =>
  Script.seq sz (Prog.read (ty := CTy R) (.rowptr k) 0) fun (base : Int) =>
  if dp then .phase sz m (fun i => cooDiag k base sep i) fun _ => .done () else .done ()

/-! ### Proofs -/

/-- The coordinate list `C` is stored (1-based) in the COO arrays. -/
def HoldsCoo (m : Mem (CTy R)) (C : Coo R) : Prop :=
  ∀ l : Nat, l < C.nnz → m (.itmp 0) (l : Int) = some ((C.row l : Int) + 1) ∧ m (.itmp 1) (l : Int) = some ((C.col l : Int) + 1) ∧
    m (.vec 0) (l : Int) = some (C.val l)

section
variable {sz : CArr → Int} {W Rd : CArr → Int → Prop} {k : Nat} {C : Coo R}

theorem wp_cooCount {m0 : Mem (CTy R)} {Q : Unit → Mem (CTy R) → Prop} (hwf : C.WF) (hW : ∀ a i, W a i) (hR : ∀ a i, Rd a i)
    (hc : HoldsCoo m0 C) (hs : (C.m : Int) + 1 ≤ sz (.rowptr k))
    (h0 : ∀ i : Nat, i ≤ C.m → m0 (.rowptr k) (i : Int) = some (0 : Int))
    (hQ : ∀ m, m (.rowptr k) 0 = some (0 : Int) → (∀ i : Nat, i < C.m → m (.rowptr k) ((i : Int) + 1) = some (C.byRow.cnt i C.nnz : Int)) →
      (∀ a i, a ≠ .rowptr k → m a i = m0 a i) → Q () m) :
    wp sz W Rd (cooCount k C.nnz) m0 Q := by
  unfold cooCount
  refine wp_forN (b := 0) (lo := 0) (hi := C.nnz) (fun x _ m => m (.rowptr k) 0 = some (0 : Int) ∧
    (∀ i : Nat, i < C.m → m (.rowptr k) ((i : Int) + 1) = some (C.byRow.cnt i x : Int)) ∧
    ∀ a i, a ≠ .rowptr k → m a i = m0 a i) (Nat.zero_le _) ?_ ?_ ?_ (by simp) (by simp)
  · exact ⟨h0 0 (by omega), fun i hi => by have := h0 (i + 1) hi; push_cast at this; exact this, fun _ _ _ => rfl⟩
  · rintro l _ m - hl ⟨h1, h2, h3⟩
    rw [Int.add_zero]
    have hr := (hwf l hl).1
    refine wp_rd _ (hR _ _) ((h3 _ _ (by simp)).trans (hc l hl).1) ?_
    refine wp_rd _ (hR _ _) (h2 _ hr) ?_
    refine wp_wr1 (hW _ _) ⟨show (0 : Int) ≤ (C.row l : Int) + 1 by omega, show (C.row l : Int) + 1 < _ by omega⟩ ⟨?_, ?_, ?_⟩
    · rw [Mem.get_ne _ _ _ _ _ (show (0 : Int) ≠ (C.row l : Int) + 1 by omega)]; exact h1
    · intro i hi
      have es : C.byRow.cnt i (l + 1) = C.byRow.cnt i l + if C.row l = i then 1 else 0 := rfl
      by_cases he : C.row l = i
      · subst he; rw [if_pos rfl] at es
        exact (Mem.get_same _ _ _ _).trans (by rw [es]; push_cast; rfl)
      · rw [if_neg he] at es
        rw [Mem.get_ne _ _ _ _ _ (show (i : Int) + 1 ≠ (C.row l : Int) + 1 by omega), h2 i hi, es, Nat.add_zero]
    · intro a i ha; exact (congrFun (Mem.set_other _ _ _ _ _ ha) _).trans (h3 a i ha)
  · rintro _ m ⟨h1, h2, h3⟩; exact hQ m h1 h2 h3

theorem wp_cooScan {m0 : Mem (CTy R)} {Q : Unit → Mem (CTy R) → Prop} (hwf : C.WF) (hW : ∀ a i, W a i) (hR : ∀ a i, Rd a i)
    (hs : (C.m : Int) + 1 ≤ sz (.rowptr k)) (h0 : m0 (.rowptr k) 0 = some (0 : Int))
    (h1 : ∀ i : Nat, i < C.m → m0 (.rowptr k) ((i : Int) + 1) = some (C.byRow.cnt i C.nnz : Int))
    (hQ : ∀ m, (∀ i : Nat, i ≤ C.m → m (.rowptr k) (i : Int) = some (C.byRow.tPtr i : Int)) →
      (∀ a i, a ≠ .rowptr k → m a i = m0 a i) → Q () m) :
    wp sz W Rd (cooScan k C.m) m0 Q := by
  unfold cooScan
  refine wp_forN (b := 0) (lo := 0) (hi := C.m) (fun x _ m =>
    (∀ i : Nat, i ≤ x → m (.rowptr k) (i : Int) = some (C.byRow.tPtr i : Int)) ∧
    (∀ i : Nat, x ≤ i → i < C.m → m (.rowptr k) ((i : Int) + 1) = some (C.byRow.cnt i C.nnz : Int)) ∧
    ∀ a i, a ≠ .rowptr k → m a i = m0 a i) (Nat.zero_le _) ?_ ?_ ?_ (by simp) (by simp)
  · refine ⟨fun i hi => ?_, fun i _ hi => h1 i hi, fun _ _ _ => rfl⟩
    obtain rfl : i = 0 := by omega
    exact h0
  · rintro x _ m - hx ⟨g1, g2, g3⟩
    rw [Int.add_zero]
    refine wp_rd _ (hR _ _) (g2 x (Nat.le_refl _) hx) ?_
    refine wp_rd _ (hR _ _) (g1 x (Nat.le_refl _)) ?_
    refine wp_wr1 (hW _ _) ⟨by omega, by omega⟩ ⟨?_, ?_, ?_⟩
    · intro i hi
      by_cases he : i = x + 1
      · subst he
        have e := C.byRow.tPtr_succ (C.byRow_wf hwf) x
        have e2 : C.byRow.nnz = C.nnz := rfl
        rw [show ((x + 1 : Nat) : Int) = (x : Int) + 1 by omega, Mem.get_same]
        have : (C.byRow.cnt x C.nnz : Int) + C.byRow.tPtr x = (C.byRow.tPtr (x + 1) : Int) := by rw [e, e2]; push_cast; omega
        exact congrArg some this
      · rw [Mem.get_ne _ _ _ _ _ (by omega)]; exact g1 i (by omega)
    · intro i g4 g5
      rw [Mem.get_ne _ _ _ _ _ (by omega)]; exact g2 i (by omega) g5
    · intro a i ha; exact (congrFun (Mem.set_other _ _ _ _ _ ha) _).trans (g3 a i ha)
  · rintro _ m ⟨g1, _, g3⟩; exact hQ m g1 g3

theorem wp_cooFill {m0 : Mem (CTy R)} {Q : Unit → Mem (CTy R) → Prop} {ob : Int} (hwf : C.WF) (hW : ∀ a i, W a i) (hR : ∀ a i, Rd a i)
    (hc : HoldsCoo m0 C) (hs : (C.m : Int) + 1 ≤ sz (.rowptr k)) (hsc : (C.nnz : Int) ≤ sz (.colidx k))
    (hsv : (C.nnz : Int) ≤ sz (.values k))
    (h0 : ∀ i : Nat, i ≤ C.m → m0 (.rowptr k) (i : Int) = some (C.byRow.tPtr i : Int))
    (hQ : ∀ m, (∀ i : Nat, i < C.m → m (.rowptr k) (i : Int) = some (C.byRow.tPtr (i + 1) : Int)) →
      (∀ l, l < C.nnz → m (.colidx k) (C.byRow.tPos l : Int) = some ((C.col l : Int) + ob) ∧
        m (.values k) (C.byRow.tPos l : Int) = some (C.val l)) →
      (∀ a i, a ≠ .rowptr k → a ≠ .colidx k → a ≠ .values k → m a i = m0 a i) → Q () m) :
    wp sz W Rd (cooFill k C.nnz ob) m0 Q := by
  have bwf := C.byRow_wf hwf
  have bnn : C.byRow.nnz = C.nnz := rfl
  unfold cooFill
  refine wp_forN (b := 0) (lo := 0) (hi := C.nnz) (fun x _ m =>
    (∀ i : Nat, i < C.m → m (.rowptr k) (i : Int) = some ((C.byRow.tPtr i + C.byRow.cnt i x : Nat) : Int)) ∧
    (∀ l, l < x → m (.colidx k) (C.byRow.tPos l : Int) = some ((C.col l : Int) + ob) ∧
      m (.values k) (C.byRow.tPos l : Int) = some (C.val l)) ∧
    (∀ a i, a ≠ .rowptr k → a ≠ .colidx k → a ≠ .values k → m a i = m0 a i)) (Nat.zero_le _) ?_ ?_ ?_ (by simp) (by simp)
  · exact ⟨fun i hi => h0 i (by omega), fun l hl => by omega, fun _ _ _ _ _ => rfl⟩
  · rintro l _ m - hl ⟨h1, h2, h3⟩
    rw [Int.add_zero]
    have hr := (hwf l hl).1
    have hpos : C.byRow.tPos l = C.byRow.tPtr (C.row l) + C.byRow.cnt (C.row l) l := rfl
    have hlt := C.byRow.tPos_lt bwf (j := l) (by rw [bnn]; exact hl)
    rw [bnn] at hlt
    refine wp_rd _ (hR _ _) ((h3 _ _ (by simp) (by simp) (by simp)).trans (hc l hl).1) ?_
    have e1 : (C.row l : Int) + 1 - 1 = (C.row l : Int) := by omega
    show wp sz W Rd (do
      let i ← Prog.read (ty := CTy R) (.rowptr k) ((C.row l : Int) + 1 - 1)
      let v ← Prog.read (ty := CTy R) (.vec 0) l
      Prog.write (ty := CTy R) (.values k) i v
      let c ← Prog.read (ty := CTy R) (.itmp 1) l
      Prog.write (ty := CTy R) (.colidx k) i ((c : Int) - 1 + ob)
      let w ← Prog.read (ty := CTy R) (.rowptr k) ((C.row l : Int) + 1 - 1)
      Prog.write (ty := CTy R) (.rowptr k) ((C.row l : Int) + 1 - 1) ((w : Int) + 1)) m _
    rw [e1]
    have hrd := h1 _ hr
    rw [← hpos] at hrd
    refine wp_rd _ (hR _ _) hrd ?_
    refine wp_rd _ (hR _ _) ((h3 _ _ (by simp) (by simp) (by simp)).trans (hc l hl).2.2) ?_
    refine wp_wr (hW _ _) ⟨by omega, by omega⟩ ?_
    refine wp_rd ((C.col l : Int) + 1) (hR _ _) ?_ ?_
    · exact (congrFun (Mem.set_other _ _ _ _ _ (by simp)) _).trans ((h3 _ _ (by simp) (by simp) (by simp)).trans (hc l hl).2.1)
    refine wp_wr (hW _ _) ⟨by omega, by omega⟩ ?_
    refine wp_rd ((C.byRow.tPos l : Int)) (hR _ _) ?_ ?_
    · rw [Mem.set_other _ _ _ _ _ (by simp), Mem.set_other _ _ _ _ _ (by simp)]; exact hrd
    refine wp_wr1 (hW _ _) ⟨by omega, by omega⟩ ⟨?_, ?_, ?_⟩
    · intro i hi
      have es : C.byRow.cnt i (l + 1) = C.byRow.cnt i l + if C.row l = i then 1 else 0 := rfl
      by_cases he : C.row l = i
      · subst he; rw [if_pos rfl] at es
        refine (Mem.get_same _ _ _ _).trans ?_
        have : (C.byRow.tPos l : Int) + 1 = ((C.byRow.tPtr (C.row l) + C.byRow.cnt (C.row l) (l + 1) : Nat) : Int) := by
          rw [es, hpos]; push_cast; omega
        exact congrArg some this
      · rw [if_neg he] at es
        rw [Mem.get_ne _ _ _ _ _ (by omega), Mem.set_other _ _ _ _ _ (by simp), Mem.set_other _ _ _ _ _ (by simp), h1 i hi, es,
          Nat.add_zero]
    · intro l' hl'
      by_cases he : l' = l
      · subst he
        refine ⟨?_, ?_⟩
        · rw [Mem.set_other _ _ _ _ _ (by simp)]
          refine (Mem.get_same _ _ _ _).trans ?_
          have : (C.col l' : Int) + 1 - 1 + ob = (C.col l' : Int) + ob := by omega
          exact congrArg some this
        · rw [Mem.set_other _ _ _ _ _ (by simp), Mem.set_other _ _ _ _ _ (by simp)]; exact Mem.get_same _ _ _ _
      · have hne : (C.byRow.tPos l' : Int) ≠ C.byRow.tPos l := fun h =>
          he (C.byRow.tPos_inj bwf (by rw [bnn]; omega) (by rw [bnn]; omega) (by omega))
        obtain ⟨g1, g2⟩ := h2 l' (by omega)
        refine ⟨?_, ?_⟩
        · rw [Mem.set_other _ _ _ _ _ (by simp), Mem.get_ne _ _ _ _ _ hne, Mem.set_other _ _ _ _ _ (by simp)]; exact g1
        · rw [Mem.set_other _ _ _ _ _ (by simp), Mem.set_other _ _ _ _ _ (by simp), Mem.get_ne _ _ _ _ _ hne]; exact g2
    · intro a i g1 g2 g3
      rw [Mem.set_other _ _ _ _ _ g1, Mem.set_other _ _ _ _ _ g2, Mem.set_other _ _ _ _ _ g3]
      exact h3 a i g1 g2 g3
  · rintro _ m ⟨h1, h2, h3⟩
    refine hQ m ?_ h2 h3
    intro i hi
    rw [h1 i hi, C.byRow.tPtr_succ bwf i, bnn]

theorem wp_cooShift {m0 : Mem (CTy R)} {Q : Unit → Mem (CTy R) → Prop} {ob : Int} (hW : ∀ a i, W a i) (hR : ∀ a i, Rd a i)
    (hs : (C.m : Int) + 1 ≤ sz (.rowptr k))
    (h0 : ∀ i : Nat, i < C.m → m0 (.rowptr k) (i : Int) = some (C.byRow.tPtr (i + 1) : Int))
    (hQ : ∀ m, (∀ i : Nat, i ≤ C.m → m (.rowptr k) (i : Int) = some ((C.byRow.tPtr i : Int) + ob)) →
      (∀ a i, a ≠ .rowptr k → m a i = m0 a i) → Q () m) :
    wp sz W Rd (cooShift k C.m ob) m0 Q := by
  unfold cooShift
  rw [wp_bind]
  refine wp_forDownN (b := 0) (lo := 1) (hi := C.m + 1) (fun x _ m =>
    (∀ i : Nat, x ≤ i → i ≤ C.m → m (.rowptr k) (i : Int) = some ((C.byRow.tPtr i : Int) + ob)) ∧
    (∀ i : Nat, i < x → i < C.m → m (.rowptr k) (i : Int) = some (C.byRow.tPtr (i + 1) : Int)) ∧
    (∀ a i, a ≠ .rowptr k → m a i = m0 a i)) (by omega) ?_ ?_ ?_ (by simp) (by omega)
  · exact ⟨fun i h1 h2 => by omega, fun i _ h => h0 i h, fun _ _ _ => rfl⟩
  · rintro x _ m h1 h2 ⟨g1, g2, g3⟩
    rw [Int.add_zero, show (x : Int) - 1 = ((x - 1 : Nat) : Int) by omega]
    refine wp_rd _ (hR _ _) (g2 (x - 1) (by omega) (by omega)) ?_
    refine wp_wr1 (hW _ _) ⟨by omega, by omega⟩ ⟨?_, ?_, ?_⟩
    · intro i k1 k2
      by_cases he : i = x
      · subst he; rw [Mem.get_same, show i - 1 + 1 = i by omega]
      · rw [Mem.get_ne _ _ _ _ _ (by omega)]; exact g1 i (by omega) k2
    · intro i k1 k2
      rw [Mem.get_ne _ _ _ _ _ (by omega)]; exact g2 i (by omega) k2
    · intro a i ha; exact (congrFun (Mem.set_other _ _ _ _ _ ha) _).trans (g3 a i ha)
  · rintro _ m ⟨g1, _, g3⟩
    refine wp_wr1 (hW _ _) ⟨by omega, by omega⟩ (hQ _ ?_ ?_)
    · intro i hi
      by_cases he : i = 0
      · subst he
        refine (Mem.get_same _ _ _ _).trans ?_
        have : ob = ((C.byRow.tPtr 0 : Nat) : Int) + ob := by show ob = ((0 : Nat) : Int) + ob; omega
        exact congrArg some this
      · rw [Mem.get_ne _ _ _ _ _ (by omega)]; exact g1 i (by omega) hi
    · intro a i ha; exact (congrFun (Mem.set_other _ _ _ _ _ ha) _).trans (g3 a i ha)

/-- COO.cpp:104-142: without sorting the rows are the lists of the coordinate list, with sorting they are sorted. -/
theorem coo2csr_ok {m0 : Mem (CTy R)} {ob : Nat} {sort : Bool} (hwf : C.WF) (hc : HoldsCoo m0 C)
    (hs : (C.m : Int) + 1 ≤ sz (.rowptr k)) (hsc : (C.nnz : Int) ≤ sz (.colidx k)) (hsv : (C.nnz : Int) ≤ sz (.values k)) :
    (coo2csr sz k C.m C.nnz sort ob).Ok m0 (fun _ m => ∃ B : Csr R,
      (if sort = true then SortedRows C.toCsr B else B = C.toCsr) ∧ HoldsPat m k ob B ∧ HoldsVal m k B ∧
      ∀ a i, a ≠ .rowptr k → a ≠ .colidx k → a ≠ .values k → m a i = m0 a i) := by
  unfold coo2csr
  refine par_rule (W := fun t a i => a = .rowptr k ∧ i = (t : Int)) (R := fun t a i => a = .rowptr k ∧ i = (t : Int))
    (Q := fun t _ m => m (.rowptr k) (t : Int) = some (0 : Int)) ?_ ?_ ?_
  · rintro t u a i ht hu htu ⟨rfl, rfl⟩ ⟨_, h⟩; omega
  · intro t ht
    exact wp_wr1 ⟨rfl, rfl⟩ ⟨by omega, by omega⟩ (Mem.get_same _ _ _ _)
  intro r m1 hq hfr
  have hz : ∀ i : Nat, i ≤ C.m → m1 (.rowptr k) (i : Int) = some (0 : Int) := by
    intro i hi
    obtain ⟨mt, h1, h2⟩ := hq i (by omega)
    rw [h2 _ _ ⟨rfl, rfl⟩]; exact h1
  have f1 : ∀ a i, a ≠ .rowptr k → m1 a i = m0 a i := fun a i ha => hfr a i fun _ _ h => ha h.1
  have hc1 : HoldsCoo m1 C := fun l hl => by
    rw [f1 _ _ (by simp), f1 _ _ (by simp), f1 _ _ (by simp)]; exact hc l hl
  refine seq_rule ?_
  rw [wp_bind]
  refine wp_cooCount hwf (fun _ _ => trivial) (fun _ _ => trivial) hc1 hs hz ?_
  intro m2 a1 a2 a3
  rw [wp_bind]
  refine wp_cooScan hwf (fun _ _ => trivial) (fun _ _ => trivial) hs a1 a2 ?_
  intro m3 b1 b2
  rw [wp_bind]
  have hc3 : HoldsCoo m3 C := fun l hl => by
    rw [b2 _ _ (by simp), b2 _ _ (by simp), b2 _ _ (by simp), a3 _ _ (by simp), a3 _ _ (by simp), a3 _ _ (by simp)]; exact hc1 l hl
  refine wp_cooFill (ob := ob) hwf (fun _ _ => trivial) (fun _ _ => trivial) hc3 hs hsc hsv b1 ?_
  intro m4 c1 c2 c3
  refine wp_cooShift (ob := ob) (fun _ _ => trivial) (fun _ _ => trivial) hs c1 ?_
  intro m5 d1 d2
  have hfr5 : ∀ a i, a ≠ .rowptr k → a ≠ .colidx k → a ≠ .values k → m5 a i = m0 a i := fun a i g1 g2 g3 => by
    rw [d2 a i g1, c3 a i g1 g2 g3, b2 a i g1, a3 a i g1, f1 a i g1]
  have hnn := C.toCsr_nnz hwf
  have hp5 : HoldsPat m5 k ob C.toCsr := by
    refine ⟨?_, ?_⟩
    · intro i hi
      rw [d1 i hi]
      show _ = some ((rowStart C.rowList i : Int) + ob)
      rw [C.rowStart_eq]
    · intro j hj
      obtain ⟨l, h1, h2, h3, _⟩ := C.toCsr_pos hwf hj
      rw [d2 _ _ (by simp), h3, ← h2]; exact (c2 l h1).1
  have hv5 : HoldsVal m5 k C.toCsr := by
    intro j hj
    obtain ⟨l, h1, h2, _, h4⟩ := C.toCsr_pos hwf hj
    rw [d2 _ _ (by simp), h4, ← h2]; exact (c2 l h1).2
  cases sort with
  | false =>
    rw [if_neg (by simp)]
    exact ⟨C.toCsr, by rw [if_neg (by simp)], hp5, hv5, hfr5⟩
  | true =>
    rw [if_pos rfl]
    refine Script.Ok.mono (sortRows_ok (sz := sz) (C.toCsr_wf hwf) hp5 hv5 (by rw [hnn]; exact ⟨hsc, hsv⟩)) ?_
    rintro _ m6 ⟨B, h1, h2, h3, h4⟩
    refine ⟨B, by rw [if_pos rfl]; exact h1, h2, h3, ?_⟩
    intro a i g1 g2 g3
    rw [h4 a i g2 g3]; exact hfr5 a i g1 g2 g3

theorem wp_cooDiag [One R] [Div R] {base i : Nat} {sep : Bool} {B : Csr R} {m0 : Mem (CTy R)} (hwf : B.WF)
    (hp : HoldsPat m0 k base B) (hv : HoldsVal m0 k B) (hi : i < B.m)
    (hW : W (.diagptr k) (i : Int) ∧ W (.idiag k) (i : Int) ∧ W (.diag k) (i : Int))
    (hR : ∀ a j, a = .rowptr k ∨ a = .colidx k ∨ a = .values k → Rd a j)
    (hs : (B.m : Int) ≤ sz (.diagptr k)) (hs' : sep = true → (B.m : Int) ≤ sz (.idiag k) ∧ (B.m : Int) ≤ sz (.diag k)) :
    wp sz W Rd (cooDiag k (base : Int) sep (i : Int)) m0 (fun _ m => ∀ j, B.InRow i j → B.col j = i →
      ∃ j', B.InRow i j' ∧ B.col j' = i ∧ m (.diagptr k) (i : Int) = some ((j' : Int) + base) ∧
        (sep = true → m (.idiag k) (i : Int) = some (1 / B.val j') ∧ m (.diag k) (i : Int) = some (B.val j'))) := by
  unfold cooDiag
  have h1 := hp.rowptr (i + 1) hi
  push_cast at h1
  refine wp_rd _ (hR _ _ (Or.inl rfl)) (hp.rowptr i (by omega)) ?_
  refine wp_rd _ (hR _ _ (Or.inl rfl)) h1 ?_
  refine wp_forN (b := 0) (lo := B.ptr i) (hi := B.ptr (i + 1)) (fun x _ m =>
    (∀ j, B.ptr i ≤ j → j < x → B.col j = i →
      ∃ j', B.InRow i j' ∧ B.col j' = i ∧ m (.diagptr k) (i : Int) = some ((j' : Int) + base) ∧
        (sep = true → m (.idiag k) (i : Int) = some (1 / B.val j') ∧ m (.diag k) (i : Int) = some (B.val j'))) ∧
    ∀ a j, a = .rowptr k ∨ a = .colidx k ∨ a = .values k → m a j = m0 a j) (hwf.ptr_step i hi)
    ⟨fun j g1 g2 => by omega, fun _ _ _ => rfl⟩ ?_ ?_
    (show (B.ptr i : Int) + base - base = _ by omega) (show (B.ptr (i + 1) : Int) + base - base = _ by omega)
  · rintro x _ m g1 g2 ⟨q1, q2⟩
    have hrow : B.InRow i x := ⟨hi, g1, g2⟩
    have hx := hrow.lt_nnz hwf
    rw [Int.add_zero]
    refine wp_rd _ (hR _ _ (by simp)) ((q2 _ _ (by simp)).trans (hp.colidx x hx)) ?_
    by_cases hcx : B.col x = i
    · rw [if_pos (show (B.col x : Int) + base - base = i by omega)]
      refine wp_wr hW.1 ⟨by omega, by omega⟩ ?_
      cases sep with
      | false =>
        rw [if_neg (by simp), wp_pure]
        refine ⟨fun j _ _ _ => ⟨x, hrow, hcx, Mem.get_same _ _ _ _, fun h => by cases h⟩, ?_⟩
        rintro a j ha
        refine (congrFun (Mem.set_other _ _ _ _ _ ?_) _).trans (q2 a j ha)
        rcases ha with rfl | rfl | rfl <;> simp
      | true =>
        rw [if_pos rfl]
        obtain ⟨hs1, hs2⟩ := hs' rfl
        have hvx : m (.values k) (x : Int) = some (B.val x) := (q2 _ _ (by simp)).trans (hv x hx)
        refine wp_rd (B.val x) (hR _ _ (by simp)) ?_ ?_
        · rw [Mem.set_other _ _ _ _ _ (by simp)]; exact hvx
        refine wp_wr hW.2.1 ⟨by omega, by omega⟩ ?_
        refine wp_rd (B.val x) (hR _ _ (by simp)) ?_ ?_
        · rw [Mem.set_other _ _ _ _ _ (by simp), Mem.set_other _ _ _ _ _ (by simp)]; exact hvx
        refine wp_wr1 hW.2.2 ⟨by omega, by omega⟩ ⟨?_, ?_⟩
        · refine fun j _ _ _ => ⟨x, hrow, hcx, ?_, fun _ => ⟨?_, Mem.get_same _ _ _ _⟩⟩
          · rw [Mem.set_other _ _ _ _ _ (by simp), Mem.set_other _ _ _ _ _ (by simp)]; exact Mem.get_same _ _ _ _
          · rw [Mem.set_other _ _ _ _ _ (by simp)]; exact Mem.get_same _ _ _ _
        · intro a j ha
          have e : a ≠ .diagptr k ∧ a ≠ .idiag k ∧ a ≠ .diag k := by rcases ha with rfl | rfl | rfl <;> simp
          rw [Mem.set_other _ _ _ _ _ e.2.2, Mem.set_other _ _ _ _ _ e.2.1, Mem.set_other _ _ _ _ _ e.1]
          exact q2 a j ha
    · rw [if_neg (show ¬ ((B.col x : Int) + base - base = i) by omega), wp_pure]
      refine ⟨?_, q2⟩
      intro j k1 k2 k3
      by_cases he : j = x
      · subst he; exact absurd k3 hcx
      · exact q1 j k1 (by omega) k3
  · rintro _ m ⟨q1, _⟩ j hj hcj
    exact q1 j hj.2.1 hj.2.2 hcj

/-- COO.cpp:154-184. -/
theorem dcoo2csr_ok [One R] [Div R] {m0 : Mem (CTy R)} {ob : Nat} {dp sep : Bool} (hwf : C.WF) (hc : HoldsCoo m0 C)
    (hs : (C.m : Int) + 1 ≤ sz (.rowptr k)) (hsc : (C.nnz : Int) ≤ sz (.colidx k)) (hsv : (C.nnz : Int) ≤ sz (.values k))
    (hsd : dp = true → (C.m : Int) ≤ sz (.diagptr k))
    (hss : sep = true → (C.m : Int) ≤ sz (.idiag k) ∧ (C.m : Int) ≤ sz (.diag k)) :
    (dcoo2csr sz k C.m C.nnz ob dp sep).Ok m0 (fun _ m => ∃ B : Csr R, SortedRows C.toCsr B ∧ HoldsPat m k ob B ∧ HoldsVal m k B ∧
      (dp = true → ∀ i j, B.InRow i j → B.col j = i →
        ∃ j', B.InRow i j' ∧ B.col j' = i ∧ m (.diagptr k) (i : Int) = some ((j' : Int) + ob) ∧
          (sep = true → m (.idiag k) (i : Int) = some (1 / B.val j') ∧ m (.diag k) (i : Int) = some (B.val j'))) ∧
      ∀ a i, ¬ a.ofObj k → m a i = m0 a i) := by
  unfold dcoo2csr
  rw [Script.ok_bind]
  refine Script.Ok.mono (coo2csr_ok hwf hc hs hsc hsv) ?_
  rintro _ m1 ⟨B, hB, hp, hv, hf⟩
  rw [if_pos rfl] at hB
  have hBm : B.m = C.m := hB.m
  refine seq_rule ?_
  rw [wp_read]
  have hb0 := hp.rowptr 0 (Nat.zero_le _)
  rw [hB.wf.ptr_zero] at hb0
  have hb0 : m1 (.rowptr k) 0 = some (ob : Int) := by rw [show (ob : Int) = ((0 : Nat) : Int) + ob by omega]; exact hb0
  refine ⟨trivial, _, hb0, ?_⟩
  cases dp with
  | false =>
    rw [if_neg (by simp)]
    refine ⟨B, hB, hp, hv, (fun h => absurd h (by simp)), ?_⟩
    intro a i ha
    refine hf a i ?_ ?_ ?_ <;> rintro rfl <;> exact ha rfl
  | true =>
    rw [if_pos rfl]
    refine par_rule (W := fun t a i => (a = .diagptr k ∨ a = .idiag k ∨ a = .diag k) ∧ i = (t : Int))
      (R := fun t a i => (a = .rowptr k ∨ a = .colidx k ∨ a = .values k) ∨
        ((a = .diagptr k ∨ a = .idiag k ∨ a = .diag k) ∧ i = (t : Int)))
      (Q := fun t _ m => ∀ j, B.InRow t j → B.col j = t →
        ∃ j', B.InRow t j' ∧ B.col j' = t ∧ m (.diagptr k) (t : Int) = some ((j' : Int) + ob) ∧
          (sep = true → m (.idiag k) (t : Int) = some (1 / B.val j') ∧ m (.diag k) (t : Int) = some (B.val j'))) ?_ ?_ ?_
    · rintro t u a i ht hu htu ⟨ha, rfl⟩ (h | ⟨_, h⟩)
      · rcases ha with rfl | rfl | rfl <;> simp at h
      · omega
    · intro t ht
      exact wp_cooDiag hB.wf hp hv (by omega) ⟨⟨by simp, rfl⟩, ⟨by simp, rfl⟩, ⟨by simp, rfl⟩⟩ (fun a j h => Or.inl h)
        (by rw [hBm]; exact hsd rfl) (by rw [hBm]; exact hss)
    · intro r m hq hfr
      have hk : ∀ a i, a ≠ .diagptr k → a ≠ .idiag k → a ≠ .diag k → m a i = m1 a i := by
        intro a i h1 h2 h3
        refine hfr a i ?_
        rintro t _ ⟨h | h | h, _⟩
        · exact h1 h
        · exact h2 h
        · exact h3 h
      refine ⟨B, hB, ⟨fun i hi => by rw [hk _ _ (by simp) (by simp) (by simp)]; exact hp.rowptr i hi,
        fun j hj => by rw [hk _ _ (by simp) (by simp) (by simp)]; exact hp.colidx j hj⟩,
        fun j hj => by rw [hk _ _ (by simp) (by simp) (by simp)]; exact hv j hj, ?_, ?_⟩
      · intro _ i j hij hcj
        obtain ⟨mt, h1, h2⟩ := hq i (by rw [← hBm]; exact hij.1)
        obtain ⟨j', q1, q2, q3, q4⟩ := h1 j hij hcj
        refine ⟨j', q1, q2, ?_, fun h => ⟨?_, ?_⟩⟩
        · rw [h2 _ _ (Or.inr ⟨by simp, rfl⟩)]; exact q3
        · rw [h2 _ _ (Or.inr ⟨by simp, rfl⟩)]; exact (q4 h).1
        · rw [h2 _ _ (Or.inr ⟨by simp, rfl⟩)]; exact (q4 h).2
      · intro a i ha
        rw [hk a i (by rintro rfl; exact ha rfl) (by rintro rfl; exact ha rfl) (by rintro rfl; exact ha rfl)]
        refine hf a i ?_ ?_ ?_ <;> rintro rfl <;> exact ha rfl

end

end SpMP
