import Verif.Reorder
import Verif.Spec.Reorder
import Verif.Props.Bfs
import Verif.Props.Rcm
import Verif.Props.Permute
import Verif.Props.Linear
/-
C70: reordering a matrix and using the result.
-/
namespace SpMP.Props
open SpMP Spec

set_option linter.unusedSectionVars false

variable {R : Type}

/-- The numbering an option promises. -/
def _root_.SpMP.ReordOption.Numbers (A : Csr R) : ReordOption → (Nat → Nat) → (Nat → Nat) → Prop
  | .bfs, perm, inv => IsBfsNumbering A perm inv
  | .rcmNoSource, perm, inv => IsRcmNumbering A perm inv
  | .rcm, perm, inv => IsRcmNumbering A perm inv

/-- Input of the reorderings: a square matrix `A` with values, symmetric pattern and no external columns, stored as object `k`, with a
stored diagonal if it has diagonal pointers, and a vector. -/
structure ReordInput (sz : CArr → Int) (m0 : Mem (CTy R)) (r : ReordArgs) (A : Csr R) (y x tmp : Nat) (xv : Nat → R) : Prop where
  rows : r.m = A.m
  wf : A.WF
  square : A.n = A.m
  sym : PatSym A
  team : 1 ≤ r.T
  reduction : r.tr.Admissible r.T
  base : r.base = 0 ∨ r.base = 1
  objects : r.k' ≠ r.k ∧ r.k ≠ r.k2
  vectors : y ≠ x ∧ tmp ≠ y ∧ tmp ≠ x
  values : r.o.values = true
  noext : r.o.extptr = false
  pat : HoldsPat m0 r.k r.base A
  val : HoldsVal m0 r.k A
  diag : r.o.diagptr = true → ∀ i, i < A.m → Stores A i i
  diagptr : r.o.diagptr = true → ∀ i : Nat, i < A.m → ∃ v, m0 (.diagptr r.k) (i : Int) = some v
  idiag : r.o.idiag = true → ∀ i : Nat, i < A.m → ∃ v, m0 (.idiag r.k) (i : Int) = some v
  vec : ∀ c : Nat, c < A.m → m0 (.vec x) (c : Int) = some (xv c)
  room : (A.m : Int) ≤ sz (.vec y)
  room' : SizesOk sz r.k A r.o

/-- What using a numbering gives: the numbering in memory, the renumbered matrix, its bandwidth, and its product with `xv`. -/
def ReordGives (r : ReordArgs) (A : Csr R) [CommRing R] (y : Nat) (xv : Nat → R) (perm inv : Nat → Nat) (b : Int) (m : Mem (CTy R)) : Prop :=
  (∀ i : Nat, i < A.m → m bfsPrm (i : Int) = some (perm i : Int)) ∧ (∀ p : Nat, p < A.m → m bfsInv (p : Int) = some (inv p : Int)) ∧
  (∃ B : Csr R, HoldsPat m r.k2 r.base B ∧ HoldsVal m r.k2 B ∧ B.WF ∧ Renumbered A B perm) ∧ IsBandwidth A perm b ∧
  ∀ i, i < A.m → m (.vec y) (perm i : Int) =
    some (∑ j ∈ Finset.Ico (A.ptr i) (A.ptr (i + 1)), A.val j * xv (perm (A.col j)))

/-- What may have changed. -/
def ReordFrame (r : ReordArgs) (y tmp : Nat) (m0 m : Mem (CTy R)) : Prop :=
  ∀ a, ¬ a.ofObj r.k2 → a ≠ .rowptr r.k' → (∀ j, a ≠ .itmp j) → a ≠ .vec y → a ≠ .vec tmp → m a = m0 a

theorem inverse_perm {n : Nat} {perm inv : Nat → Nat} (h : InversePerms n perm inv) : IsPermFn n perm ∧ IsPermFn n inv := by
  refine ⟨⟨fun i hi => (h.1 i hi).1, fun i j hi hj e => ?_⟩, ⟨fun i hi => (h.2 i hi).1, fun i j hi hj e => ?_⟩⟩
  · rw [← (h.1 i hi).2, ← (h.1 j hj).2, e]
  · rw [← (h.2 i hi).2, ← (h.2 j hj).2, e]

section
variable [CommRing R] [DecidableEq R] {sz : CArr → Int} {r : ReordArgs} {A : Csr R} {y x tmp : Nat} {xv : Nat → R} {m0 : Mem (CTy R)}

theorem renumbered_mulVec {A B : Csr R} {perm : Nat → Nat} (hA : A.WF) (hB : B.WF) (h : Renumbered A B perm)
    (hp : ∀ i, i < A.m → perm i < A.m) {i : Nat} (hi : i < A.m) (x : Nat → R) :
    B.mulVec x (perm i) = ∑ j ∈ Finset.Ico (A.ptr i) (A.ptr (i + 1)), A.val j * x (perm (A.col j)) := by
  rw [mulVec_eq_row hB (by rw [h.rows]; exact hp i hi), h.row i hi, List.map_map]
  exact (mulVec_eq_row hA hi fun c => x (perm c)).symm

theorem renumbered_inRow {A B : Csr R} {perm : Nat → Nat} (h : Renumbered A B perm) {i c : Nat} (hi : i < A.m) (hp : perm i < A.m) :
    (∃ j, B.InRow (perm i) j ∧ B.col j = c) ↔ ∃ j, A.InRow i j ∧ perm (A.col j) = c := by
  constructor
  · rintro ⟨j, ⟨_, h1, h2⟩, rfl⟩
    have : (B.col j, B.val j) ∈ B.row (perm i) := Csr.mem_row.2 ⟨j, h1, h2, rfl⟩
    rw [h.row i hi, List.mem_map] at this
    obtain ⟨e, he, e1⟩ := this
    obtain ⟨j', g1, g2, rfl⟩ := Csr.mem_row.1 he
    exact ⟨j', ⟨hi, g1, g2⟩, congrArg Prod.fst e1⟩
  · rintro ⟨j, ⟨_, h1, h2⟩, rfl⟩
    have : (perm (A.col j), A.val j) ∈ B.row (perm i) := by
      rw [h.row i hi, List.mem_map]
      exact ⟨_, Csr.mem_row.2 ⟨j, h1, h2, rfl⟩, rfl⟩
    obtain ⟨j', g1, g2, e⟩ := Csr.mem_row.1 this
    exact ⟨j', ⟨by rw [h.rows]; exact hp, g1, g2⟩, congrArg Prod.fst e⟩

theorem reordUse_ok (hin : ReordInput sz m0 r A y x tmp xv) {perm inv : Nat → Nat} (hpi : InversePerms A.m perm inv)
    (hperm : ∀ i : Nat, i < A.m → m0 bfsPrm (i : Int) = some (perm i : Int))
    (hinv : ∀ p : Nat, p < A.m → m0 bfsInv (p : Int) = some (inv p : Int)) :
    (reordUse sz r y x tmp).Ok m0 (fun b m => ReordGives r A y xv perm inv b m ∧ ReordFrame r y tmp m0 m) := by
  obtain ⟨q1, q2⟩ := inverse_perm hpi
  unfold reordUse
  rw [hin.rows, Script.ok_bind]
  refine Script.Ok.mono (passPerms_ok hperm hinv) ?_
  rintro _ m1 ⟨h1, h2, h3⟩
  rw [Script.ok_bind]
  have f1 : ∀ a : CArr, (∀ j, a ≠ .itmp j) → m1 a = m0 a := fun a ha => h3 a (ha 0) (ha 1)
  refine Script.Ok.mono (permute_ok (ep := fun i => A.ptr (i + 1)) (nl := A.n) (ri := inv) (cp := perm) (base := r.base) trivial
    ⟨hin.objects.2, hin.wf, ⟨fun i hi => by rw [f1 _ (by simp)]; exact hin.pat.rowptr i hi, fun j hj => by rw [f1 _ (by simp)]; exact hin.pat.colidx j hj⟩,
      fun _ => fun j hj => by rw [f1 _ (by simp)]; exact hin.val j hj,
      ⟨by rw [hin.noext]; simp, fun _ _ _ => rfl, fun i hi => ⟨hin.wf.ptr_mono (by omega) hi, Nat.le_refl _⟩⟩,
      ⟨fun _ => h1, by simp⟩, q2, by rw [hin.square]; exact h2, by rw [hin.square]; exact q1, Nat.le_refl _, ?_, ?_,
      fun e i hi => by rw [f1 _ (by simp)]; exact hin.idiag e i hi, fun _ _ _ => rfl, by simp⟩ hin.team hin.base (by simp)) ?_
  · intro i j hi h1 h2
    have := hin.wf.ptr_le_nnz (i := i + 1) hi
    exact hin.wf.col_lt j (by omega)
  · intro e i hi
    obtain ⟨j, ⟨_, g1, g2⟩, g3⟩ := hin.diag e i hi
    exact ⟨j, g1, g2, g3⟩
  rintro _ m2 ⟨⟨B, b1, b2, b3, b4, b5, b6⟩, f2⟩
  have hren : Renumbered A B perm := by
    refine ⟨b1, b2, fun i hi => ?_⟩
    obtain ⟨g1, g2⟩ := hpi.1 i hi
    obtain ⟨L, l1, _, l2, _⟩ := b6 (perm i) g1
    rw [l1, l2 rfl, g2]
    show List.map _ (List.take _ _) ++ List.drop _ _ = _
    rw [List.drop_eq_nil_of_le (by rw [Csr.row_length]), List.append_nil, List.take_of_length_le (by rw [Csr.row_length])]
  rw [Script.ok_bind]
  have hBm : A.m = B.m := b1.symm
  rw [hBm]
  refine Script.Ok.mono (C27_bandwidth hin.team hin.reduction b3 b4) ?_
  rintro b m2' ⟨e, w1, w2, _⟩
  subst m2'
  rw [Script.ok_bind]
  refine Script.Ok.mono (multiplyWithVector_ok (pat := false) (xv := xv) (yv := fun _ => 0) hin.team ⟨hin.vectors.2.1, hin.vectors.2.2, hin.vectors.2.1⟩
    (fun e => absurd e hin.vectors.1) b3 b4 (fun _ => b5 hin.values) ?_ (fun h => absurd ⟨rfl, rfl, rfl⟩ h) (by rw [b1]; exact hin.room)
    (fun e => absurd e hin.vectors.1)) ?_
  · intro c hc
    rw [if_neg hin.vectors.1, b2, hin.square] at hc
    rw [f2 (.vec x) (fun h => h), f1 _ (by simp)]
    exact hin.vec c (by omega)
  rintro _ m3 ⟨p1, _, p3⟩
  have f3 : ∀ a, a ≠ .vec y → a ≠ .vec tmp → m3 a = m2 a := p3
  refine ⟨⟨?_, ?_, ⟨B, ?_, ?_, b3, hren⟩, ?_, ?_⟩, ?_⟩
  · intro i hi
    rw [f3 _ (by simp) (by simp), f2 bfsPrm (fun h => h), h3 _ (by simp) (by simp)]; exact hperm i hi
  · intro i hi
    rw [f3 _ (by simp) (by simp), f2 bfsInv (fun h => h), h3 _ (by simp) (by simp)]; exact hinv i hi
  · exact ⟨fun i hi => by rw [f3 _ (by simp) (by simp)]; exact b4.rowptr i hi, fun j hj => by rw [f3 _ (by simp) (by simp)]; exact b4.colidx j hj⟩
  · exact fun j hj => by rw [f3 _ (by simp) (by simp)]; exact b5 hin.values j hj
  · constructor
    · intro i j hij
      obtain ⟨j', g1, g2⟩ := (renumbered_inRow hren hij.1 (q1.1 i hij.1)).2 ⟨j, hij, rfl⟩
      rw [← g2]; exact w1 _ _ g1
    · intro hn
      have hn' : 0 < B.nnz := by
        obtain ⟨i, hi⟩ := hin.wf.exists_row hn
        obtain ⟨j', g1, g2⟩ := (renumbered_inRow hren hi.1 (q1.1 i hi.1)).2 ⟨_, hi, rfl⟩
        have := g1.lt_nnz b3; omega
      obtain ⟨p, j, h1, h2⟩ := w2 hn'
      obtain ⟨g1, g2⟩ := hpi.2 p (by rw [← b1]; exact h1.1)
      rw [← g2] at h1 h2
      obtain ⟨j', e1, e2⟩ := (renumbered_inRow hren g1 (by rw [g2, ← b1]; have := h1.1; rw [g2] at this; exact this)).1 ⟨j, h1, rfl⟩
      exact ⟨inv p, j', e1, by rw [h2, e2]⟩
  · intro i hi
    have := p1 (perm i) (by rw [b1]; exact q1.1 i hi)
    rw [this, ← renumbered_mulVec hin.wf b3 hren q1.1 hi]
    simp [Csr.eff]
  · intro a a1 a2 a3 a4 a5
    rw [f3 a a4 a5, f2 a a1, f1 a a3]

/-- The input survives: everything it speaks of is outside of what may change. -/
theorem ReordInput.frame {m : Mem (CTy R)} (hin : ReordInput sz m0 r A y x tmp xv) (hf : ReordFrame r y tmp m0 m) : ReordInput sz m r A y x tmp xv := by
  have hne := hin.objects.2
  have f : ∀ a, a.ofObj r.k → a ≠ .rowptr r.k' → m a = m0 a := fun a ha hr =>
    hf a (by cases a <;> first | exact (fun h : False => h) | exact (fun h => hne (Eq.trans (Eq.symm ha) h))) hr
      (by rintro j rfl; exact ha) (by rintro rfl; exact ha) (by rintro rfl; exact ha)
  refine { hin with
    pat := ⟨fun i hi => ?_, fun j hj => ?_⟩, val := fun j hj => ?_, diagptr := fun e i hi => ?_, idiag := fun e i hi => ?_, vec := fun c hc => ?_ }
  · rw [f (.rowptr r.k) rfl (by intro e; exact hin.objects.1 (CArr.rowptr.inj e).symm)]; exact hin.pat.rowptr i hi
  · rw [f (.colidx r.k) rfl (by simp)]; exact hin.pat.colidx j hj
  · rw [f (.values r.k) rfl (by simp)]; exact hin.val j hj
  · rw [f (.diagptr r.k) rfl (by simp)]; exact hin.diagptr e i hi
  · rw [f (.idiag r.k) rfl (by simp)]; exact hin.idiag e i hi
  · rw [hf (.vec x) (fun h => h) (by simp) (by simp) (by simpa using hin.vectors.1.symm) (by simpa using hin.vectors.2.2.symm)]; exact hin.vec c hc

/-- From a permutation function to its use. -/
theorem reord_bind {P : Script (CTy R) Unit} {N : (Nat → Nat) → (Nat → Nat) → Prop} (hin : ReordInput sz m0 r A y x tmp xv)
    (hN : ∀ perm inv, N perm inv → InversePerms A.m perm inv)
    (hP : P.Ok m0 (fun _ m => (∃ perm inv, N perm inv ∧ (∀ i : Nat, i < A.m → m bfsPrm (i : Int) = some (perm i : Int)) ∧
        ∀ p : Nat, p < A.m → m bfsInv (p : Int) = some (inv p : Int)) ∧
      ∀ a i, a ≠ .rowptr r.k' → (∀ j, a ≠ .itmp j) → m a i = m0 a i)) :
    (P.bind fun _ => reordUse sz r y x tmp).Ok m0 (fun b m =>
      (∃ perm inv, N perm inv ∧ ReordGives r A y xv perm inv b m) ∧ ReordFrame r y tmp m0 m) := by
  rw [Script.ok_bind]
  refine Script.Ok.mono hP ?_
  rintro _ m ⟨⟨perm, inv, h1, h2, h3⟩, h4⟩
  have hf : ReordFrame r y tmp m0 m := fun a _ a2 a3 _ _ => funext fun i => h4 a i a2 a3
  refine Script.Ok.mono (reordUse_ok (hin.frame hf) (hN _ _ h1) h2 h3) ?_
  rintro b m' ⟨g1, g2⟩
  exact ⟨⟨perm, inv, h1, g1⟩, fun a a1 a2 a3 a4 a5 => (g2 a a1 a2 a3 a4 a5).trans (hf a a1 a2 a3 a4 a5)⟩

theorem bfs_inverse {perm inv : Nat → Nat} (h : IsBfsNumbering A perm inv) : InversePerms A.m perm inv := ⟨h.inv_perm, h.perm_inv⟩

/-- **C70 for a team.**  Breadth-first reordering of a matrix all of whose rows are connected, by any team: in every execution the
permutation numbers the rows by levels, the permuted matrix is the renumbered matrix, the bandwidth is that of the numbering, and the
product of the permuted matrix is that of the original one with the vector read through the numbering. The matrix and the vector are
unchanged.  Missing: several components (false of the code, C44_lost_union_false). -/
theorem C70_bfs_team_partial (hin : ReordInput sz m0 r A y x tmp xv) (hbig : 2 ≤ r.T * A.m) (hcon : ∀ i, i < A.m → Reaches A 0 i) :
    (reordOne sz r y x tmp .bfs).Ok m0 (fun b m =>
      (∃ perm inv, IsBfsNumbering A perm inv ∧ ReordGives r A y xv perm inv b m) ∧ ReordFrame r y tmp m0 m) := by
  refine reord_bind hin (fun _ _ => bfs_inverse) ?_
  show (bfsPermutation sz r.T r.k r.k' r.base r.m r.thr).Ok m0 _
  rw [hin.rows]
  exact C44_connected_partial hin.wf hin.square hin.sym hin.team hbig hcon hin.pat

/-- What the RCM options need besides: sizes below INT_MAX for the source selection, no component of PAR_THR rows or more that is a
single path through all rows of the matrix, a sort that sorts, and all iterations given to the only thread. -/
structure RcmSide (r : ReordArgs) (A : Csr R) : Prop where
  ints : (A.m : Int) < intMax ∧ (A.nnz : Int) < intMax
  short : ∀ s x d, s < A.m → (∀ l : List Nat, (∀ y, Reaches A s y → y ∈ l) → r.thr ≤ l.length) → IsDist A s x d → d + 1 < A.m
  sortPerm : ∀ l, (r.srt l).Perm l
  sorted : ∀ l, (r.srt l).Pairwise fun x y => x.1 ≤ y.1
  single : (∀ nc c, r.asg.comp nc c = 0) ∧ (∀ c x, r.asg.clear c x = 0) ∧ (∀ c x, r.asg.count c x = 0) ∧ ∀ c x, r.asg.deg c x = 0

/-- **C70, every option, one thread.** -/
theorem C70_one_thread_partial (hin : ReordInput sz m0 r A y x tmp xv) (hT : r.T = 1) (hm : 2 ≤ A.m) (hnd : NoDup A) (hside : RcmSide r A)
    (op : ReordOption) :
    (reordOne sz r y x tmp op).Ok m0 (fun b m =>
      (∃ perm inv, op.Numbers A perm inv ∧ ReordGives r A y xv perm inv b m) ∧ ReordFrame r y tmp m0 m) := by
  have hr : ∀ pd, (getRcm sz r.T r.k r.k' r.m r.thr r.o pd r.srt r.asg).Ok m0 (fun _ m =>
      (∃ perm inv, IsRcmNumbering A perm inv ∧ (∀ i : Nat, i < A.m → m bfsPrm (i : Int) = some (perm i : Int)) ∧
        ∀ p : Nat, p < A.m → m bfsInv (p : Int) = some (inv p : Int)) ∧
      ∀ a i, a ≠ .rowptr r.k' → (∀ j, a ≠ .itmp j) → m a i = m0 a i) := by
    intro pd
    rw [hT, hin.rows]
    exact C45_one_thread_partial hin.wf hin.square (by omega) hin.sym hnd hin.objects.1 (fun _ => hside.ints)
      (fun s x d h1 _ h2 h3 => hside.short s x d h1 h2 h3) hside.single.1 hside.single.2.1 hside.single.2.2.1 hside.single.2.2.2
      hside.sortPerm hside.sorted hin.base hin.pat hin.diagptr hin.room'
  cases op with
  | bfs =>
    refine reord_bind hin (fun _ _ => bfs_inverse) ?_
    show (bfsPermutation sz r.T r.k r.k' r.base r.m r.thr).Ok m0 _
    rw [hin.rows, hT]
    exact C44_one_thread_partial hin.wf hin.square hin.sym hnd hm hin.objects.1 hin.pat
  | rcmNoSource => exact reord_bind hin (fun _ _ h => h.perms) (hr false)
  | rcm => exact reord_bind hin (fun _ _ h => h.perms) (hr true)

theorem reordLoop_ok (hin : ReordInput sz m0 r A y x tmp xv) (hT : r.T = 1) (hm : 2 ≤ A.m) (hnd : NoDup A) (hside : RcmSide r A)
    (ops : List ReordOption) :
    (reordLoop sz r y x tmp ops).Ok m0 (fun bs m =>
      List.Forall₂ (fun op b => ∃ perm inv, op.Numbers A perm inv ∧ IsBandwidth A perm b) ops bs ∧ ReordFrame r y tmp m0 m) := by
  induction ops generalizing m0 with
  | nil => exact ⟨.nil, fun _ _ _ _ _ _ => rfl⟩
  | cons op l ih =>
    unfold reordLoop
    rw [Script.ok_bind]
    refine Script.Ok.mono (C70_one_thread_partial hin hT hm hnd hside op) ?_
    rintro b m1 ⟨⟨perm, inv, h1, h2⟩, h3⟩
    rw [Script.ok_bind]
    refine Script.Ok.mono (ih (hin.frame h3)) ?_
    rintro bs m2 ⟨g1, g2⟩
    exact ⟨.cons ⟨perm, inv, h1, h2.2.2.2.1⟩ g1, fun a a1 a2 a3 a4 a5 => (g2 a a1 a2 a3 a4 a5).trans (h3 a a1 a2 a3 a4 a5)⟩

/-- **C70, the whole program with one thread.**  The bandwidths printed are those of the matrix as it is and of a breadth-first, a
reverse Cuthill-McKee and again a reverse Cuthill-McKee numbering of its rows; the matrix and the vector are unchanged. -/
theorem C70_main_partial (hin : ReordInput sz m0 r A y x tmp xv) (hT : r.T = 1) (hm : 2 ≤ A.m) (hnd : NoDup A) (hside : RcmSide r A) :
    (reordMain sz r y x tmp).Ok m0 (fun out m => IsBandwidth A id out.1 ∧
      (∃ b1 b2 b3, out.2 = [b1, b2, b3] ∧ (∃ perm inv, IsBfsNumbering A perm inv ∧ IsBandwidth A perm b1) ∧
        (∃ perm inv, IsRcmNumbering A perm inv ∧ IsBandwidth A perm b2) ∧ ∃ perm inv, IsRcmNumbering A perm inv ∧ IsBandwidth A perm b3) ∧
      ReordFrame r y tmp m0 m) := by
  unfold reordMain
  rw [hin.rows, Script.ok_bind]
  refine Script.Ok.mono (C27_bandwidth hin.team hin.reduction hin.wf hin.pat) ?_
  rintro b m' ⟨e, w1, w2, _⟩
  subst m'
  rw [Script.ok_bind]
  refine Script.Ok.mono (multiplyWithVector_ok (pat := false) (xv := xv) (yv := fun _ => 0) hin.team ⟨hin.vectors.2.1, hin.vectors.2.2, hin.vectors.2.1⟩
    (fun e => absurd e hin.vectors.1) hin.wf hin.pat (fun _ => hin.val) ?_ (fun h => absurd ⟨rfl, rfl, rfl⟩ h) hin.room
    (fun e => absurd e hin.vectors.1)) ?_
  · intro c hc
    rw [if_neg hin.vectors.1, hin.square] at hc
    exact hin.vec c (by omega)
  rintro _ m1 ⟨_, _, p3⟩
  have hf : ReordFrame r y tmp m0 m1 := fun a _ _ _ a4 a5 => p3 a a4 a5
  rw [Script.ok_bind]
  refine Script.Ok.mono (reordLoop_ok (hin.frame hf) hT hm hnd hside _) ?_
  rintro bs m2 ⟨g1, g2⟩
  refine ⟨⟨w1, w2⟩, ?_, fun a a1 a2 a3 a4 a5 => (g2 a a1 a2 a3 a4 a5).trans (hf a a1 a2 a3 a4 a5)⟩
  rcases g1 with _ | ⟨h1, _ | ⟨h2, _ | ⟨h3, ⟨⟩⟩⟩⟩
  exact ⟨_, _, _, rfl, h1, h2, h3⟩

end

/-! ### Witnesses -/

/-- Arguments of the witnesses: team `T`, PAR_THR `thr`, base 1, values only. -/
def reordArgs (T m thr : Nat) : ReordArgs := ⟨T, 0, 1, 2, 1, m, thr, ⟨true, false, false, false, false⟩, true, rcmSort0, rcmAsg T, .chain T⟩

/-- Room for object 0 and the vectors. -/
def reordSize (m nnz : Nat) : CArr → Int
  | .vec _ => m
  | a => csrSize 0 m nnz ⟨true, false, false, false, false⟩ a

/-- A memory with the matrix and the vector `i ↦ i + 1`. -/
def reordMem (A : Csr Int) : Mem (CTy Int) := withVec (csrMem 0 1 A (fun _ => 0) (fun _ => 0)) 0 A.m (fun i => (i : Int) + 1)

theorem reordInput_mk {A : Csr Int} {T thr nnz : Nat} (wf : A.WF) (hsq : A.n = A.m) (hs : PatSym A) (hT : 1 ≤ T) (hn : A.nnz = nnz) :
    ReordInput (reordSize A.m nnz) (reordMem A) (reordArgs T A.m thr) A 1 0 2 (fun i => (i : Int) + 1) where
  rows := rfl
  wf := wf
  square := hsq
  sym := hs
  team := hT
  reduction := RedTree.chain_admissible T
  base := Or.inr rfl
  objects := ⟨Nat.succ_ne_zero 0, (Nat.succ_ne_zero 1).symm⟩
  vectors := by decide
  values := rfl
  noext := rfl
  pat := withVec_pat (csrMem_pat 0 1 A _ _)
  val := withVec_val (csrMem_val 0 1 A _ _)
  diag := nofun
  diagptr := nofun
  idiag := nofun
  vec := fun c hc => withVec_get hc
  room := Int.le_refl _
  room' := by subst hn; exact ⟨by simp [reordSize, csrSize, reordArgs], by simp [reordSize, csrSize, reordArgs], by simp [reordSize, csrSize, reordArgs],
    by simp [reordArgs], by simp [reordArgs], by simp [reordArgs], by simp [reordArgs]⟩

/-- The triangle, reordered by any team. -/
example (T : Nat) (hT : 1 ≤ T) : (reordOne (reordSize 3 6) (reordArgs T 3 65536) 1 0 2 .bfs).Ok (reordMem bfsTri) (fun b m =>
    (∃ perm inv, IsBfsNumbering bfsTri perm inv ∧ ReordGives (reordArgs T 3 65536) bfsTri 1 (fun i => (i : Int) + 1) perm inv b m) ∧
      ReordFrame (reordArgs T 3 65536) 1 2 (reordMem bfsTri) m) := by
  refine C70_bfs_team_partial (reordInput_mk bfsTri_wf rfl bfsTri_sym hT rfl) (show 2 ≤ T * 3 by omega) ?_
  intro i hi
  exact bfsTri_con i hi

/-- Three components, base 1, one of them as large as PAR_THR. -/
theorem reordSix_side : RcmSide (reordArgs 1 6 3) bfsSix where
  ints := ⟨by decide, by decide⟩
  short := fun s x d hs _ hd => six_long s x d hs hd
  sortPerm := rcmSort0_perm
  sorted := rcmSort0_sorted
  single := ⟨fun _ _ => Nat.mod_one _, fun _ _ => Nat.mod_one _, fun _ _ => Nat.mod_one _, fun _ _ => Nat.mod_one _⟩

example : ReordInput (reordSize 6 8) (reordMem bfsSix) (reordArgs 1 6 3) bfsSix 1 0 2 (fun i => (i : Int) + 1) ∧ NoDup bfsSix ∧ RcmSide (reordArgs 1 6 3) bfsSix :=
  ⟨reordInput_mk bfsSix_wf rfl bfsSix_sym (Nat.le_refl 1) rfl, bfsSix_nodup, reordSix_side⟩

/-- The bandwidths 3, 1, 1 and 1. -/
example : ((reordMain (reordSize 6 8) (reordArgs 1 6 4) 1 0 2).run (reordMem bfsSix)).map (·.1) = some (3, [1, 1, 1]) := by decide +kernel

/-- The program itself multiplies with the contents of an array nobody has written (test/reordering_test.cpp:105, 118, 238). -/
theorem C70_uninitialised_false : ¬ (∀ (sz : CArr → Int) (A : Csr Int) (m0 : Mem (CTy Int)), A.WF → A.n = A.m → PatSym A → NoDup A → 2 ≤ A.m →
    HoldsPat m0 0 1 A → HoldsVal m0 0 A → (∀ i, m0 (.vec 0) i = none) → (∀ j, (A.m : Int) ≤ sz (.vec j)) →
    (reordMain sz (reordArgs 1 A.m 4) 1 0 2).Ok m0 (fun _ _ => True)) := by
  intro h
  have h1 := (h (reordSize 6 8) bfsSix (csrMem 0 1 bfsSix (fun _ => 0) (fun _ => 0)) bfsSix_wf rfl bfsSix_sym bfsSix_nodup (show 2 ≤ 6 by omega)
    (csrMem_pat 0 1 bfsSix _ _) (csrMem_val 0 1 bfsSix _ _) (fun _ => rfl) (fun _ => Int.le_refl _)).not_runUB
  have h2 : (reordMain (R := Int) (reordSize 6 8) (reordArgs 1 6 4) 1 0 2).runUB (csrMem 0 1 bfsSix (fun _ => 0) (fun _ => 0)) = true := by decide +kernel
  rw [show bfsSix.m = 6 from rfl, h2] at h1
  cases h1

end SpMP.Props
