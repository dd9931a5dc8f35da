import Verif.BipUse
import Verif.Spec.RectReorder
import Verif.Props.Bip
import Verif.Props.Permute
import Verif.Props.Linear
import Verif.Props.Transpose
/-
C73: reordering the rows and columns of a rectangular matrix and using the result.
-/
namespace SpMP.Props
open SpMP Spec

set_option linter.unusedSectionVars false

variable {R : Type}

/-- Input of the program: a matrix `A` with values, at least one row and one column, stored as object `k`, and a vector with one element
per column. -/
structure BipInput (sz : CArr → Int) (m0 : Mem (CTy R)) (r : BipArgs) (A : Csr R) (y x tmp : Nat) (xv : Nat → R) : Prop where
  rows : r.m = A.m
  cols : r.n = A.n
  wf : A.WF
  nonempty : 0 < A.m ∧ 0 < A.n
  ints : (A.m : Int) + r.base ≤ intMax + 1 ∧ (A.n : Int) + r.base ≤ intMax + 1
  team : 1 ≤ r.T
  reduction : r.tr.Admissible r.T
  shares : PartRng r.T A.n fun t p => p = r.asg t
  shares' : PartRng r.T A.n fun t p => p = r.asg' t
  base : r.base = 0 ∨ r.base = 1
  objects : r.k ≠ r.kT ∧ r.k ≠ r.k2 ∧ r.k ≠ r.k3 ∧ r.kT ≠ r.k2 ∧ r.kT ≠ r.k3 ∧ r.k2 ≠ r.k3
  vectors : y ≠ x ∧ tmp ≠ y ∧ tmp ≠ x
  pat : HoldsPat m0 r.k r.base A
  val : HoldsVal m0 r.k A
  idiag : r.idiag = true → ∀ i : Nat, i < A.m → ∃ v, m0 (.idiag r.k) (i : Int) = some v
  vec : ∀ c : Nat, c < A.n → m0 (.vec x) (c : Int) = some (xv c)
  room : (A.m : Int) ≤ sz (.vec y) ∧ (A.n : Int) ≤ sz (.vec x)

section
variable {A B : Csr R} {rp cp ri ci : Nat → Nat}

theorem stores_row (A : Csr R) {i c : Nat} (hi : i < A.m) : Stores A i c ↔ ∃ v, (c, v) ∈ A.row i := by
  constructor
  · rintro ⟨j, ⟨_, h1, h2⟩, rfl⟩
    exact ⟨A.val j, Csr.mem_row.2 ⟨j, h1, h2, rfl⟩⟩
  · rintro ⟨v, h⟩
    obtain ⟨j, h1, h2, e⟩ := Csr.mem_row.1 h
    exact ⟨j, ⟨hi, h1, h2⟩, congrArg Prod.fst e⟩

theorem stores_lt (hA : A.WF) {i c : Nat} (h : Stores A i c) : i < A.m ∧ c < A.n := by
  obtain ⟨j, h1, rfl⟩ := h
  exact ⟨h1.1, hA.col_lt _ (h1.lt_nnz hA)⟩

theorem transpose_stores (hA : A.WF) (h : IsTranspose A B) (i c : Nat) : Stores A i c ↔ Stores B c i := by
  have key : ∀ i c, i < A.m → c < A.n → (Stores A i c ↔ Stores B c i) := by
    intro i c hi hc
    have e := h.entries i c hi hc
    rw [stores_row A hi, stores_row B (by rw [h.rows]; exact hc)]
    have hin : ∀ (l : List (Nat × R)) d, (∃ v, (d, v) ∈ l) ↔ inCol l d ≠ [] := by
      intro l d
      unfold inCol
      rw [Ne, List.map_eq_nil_iff, List.filter_eq_nil_iff]
      push Not
      constructor
      · rintro ⟨v, hv⟩; exact ⟨_, hv, by simp⟩
      · rintro ⟨⟨a, v⟩, hv, e⟩
        have : a = d := by simpa using e
        subst this; exact ⟨v, hv⟩
    rw [hin, hin, e]
  constructor
  · intro hs; obtain ⟨h1, h2⟩ := stores_lt hA hs; exact (key i c h1 h2).1 hs
  · intro hs
    obtain ⟨h1, h2⟩ := stores_lt h.wf hs
    rw [h.rows] at h1; rw [h.cols] at h2
    exact (key i c h2 h1).2 hs

theorem rect_stores (h : RenumberedRect A B rp cp) (hr : InversePerms A.m rp ri) {i c : Nat}
    (hi : i < A.m) : Stores B (rp i) c ↔ ∃ d, Stores A i d ∧ c = cp d := by
  rw [stores_row B (by rw [h.rows]; exact (hr.1 i hi).1), h.row i hi]
  constructor
  · rintro ⟨v, hv⟩
    obtain ⟨⟨d, v'⟩, h1, h2⟩ := List.mem_map.1 hv
    exact ⟨d, (stores_row A hi).2 ⟨v', h1⟩, congrArg Prod.fst h2.symm⟩
  · rintro ⟨d, hd, rfl⟩
    obtain ⟨v, hv⟩ := (stores_row A hi).1 hd
    exact ⟨v, List.mem_map.2 ⟨(d, v), hv, rfl⟩⟩

theorem rect_bandwidth (hA : A.WF) (hB : B.WF) (h : RenumberedRect A B rp cp) (hr : InversePerms A.m rp ri)
    {b : Int} (hb : IsBandwidthRect B id id b) : IsBandwidthRect A rp cp b := by
  constructor
  · intro i c hs
    exact hb.bound (rp i) (cp c) ((rect_stores h hr (stores_lt hA hs).1).2 ⟨c, hs, rfl⟩)
  · intro hn
    obtain ⟨i, hi⟩ := hA.exists_row hn
    obtain ⟨j, ⟨_, g1, g2⟩, _⟩ := (rect_stores h hr hi.1).2 ⟨_, ⟨_, hi, rfl⟩, rfl⟩
    have : 0 < B.nnz := by
      have := hB.ptr_le_nnz (i := rp i + 1) (by rw [h.rows]; exact (hr.1 i hi.1).1)
      omega
    obtain ⟨p, q, h1, h2⟩ := hb.attained this
    have hp : p < A.m := by rw [← h.rows]; exact (stores_lt hB h1).1
    obtain ⟨g3, g4⟩ := hr.2 p hp
    rw [← g4] at h1 h2
    obtain ⟨d, d1, rfl⟩ := (rect_stores h hr g3).1 h1
    exact ⟨_, _, d1, h2⟩

theorem sum_perm {n : Nat} {p q : Nat → Nat} {S : Type} [AddCommMonoid S] (h : InversePerms n p q) (f : Nat → S) :
    ∑ i ∈ Finset.range n, f (p i) = ∑ i ∈ Finset.range n, f i := by
  refine Finset.sum_nbij' p q ?_ ?_ ?_ ?_ ?_
  · intro i hi; simpa using (h.1 i (by simpa using hi)).1
  · intro i hi; simpa using (h.2 i (by simpa using hi)).1
  · intro i hi; exact (h.1 i (by simpa using hi)).2
  · intro i hi; exact (h.2 i (by simpa using hi)).2
  · intro i _; rfl

theorem avg_perm {n : Nat} {p q' : Nat → Nat} (h : InversePerms n p q') {S S' : Nat → Nat → Prop} {q : Rat} (hS : ∀ i, i < n → ∀ x, S (p i) x ↔ S' i x)
    (hq : IsAvgSpread n S q) : IsAvgSpread n S' q := by
  obtain ⟨w, h1, h2⟩ := hq
  refine ⟨fun i => w (p i), fun i hi => ?_, by rw [h2, sum_perm h w]⟩
  have := h1 (p i) (h.1 i hi).1
  rwa [show S (p i) = S' i from funext fun x => propext (hS i hi x)] at this

theorem width_spread {i w : Nat} (h : IsRowWidth A i w) : Spread (Stores A i) w := by
  rcases h with ⟨h1, h2⟩ | ⟨a, b, h1, h2, h3, h4⟩
  · left
    refine ⟨?_, h2⟩
    rintro c ⟨j, ⟨_, g1, g2⟩, _⟩
    omega
  · right
    refine ⟨_, _, ⟨a, h1, rfl⟩, ⟨b, h2, rfl⟩, ?_, h4⟩
    rintro c ⟨j, hj, rfl⟩
    exact h3 j hj

variable [CommRing R]

theorem rect_mulVec (hA : A.WF) (hB : B.WF) (h : RenumberedRect A B rp cp) (hr : InversePerms A.m rp ri) {i : Nat} (hi : i < A.m) (x : Nat → R) :
    B.mulVec x (rp i) = A.mulVec (fun c => x (cp c)) i := by
  rw [mulVec_eq_row hB (by rw [h.rows]; exact (hr.1 i hi).1), h.row i hi, List.map_map, mulVec_eq_row hA hi]
  rfl

theorem row_sum (A : Csr R) {i : Nat} (f : Nat → R → R) :
    ∑ j ∈ Finset.Ico (A.ptr i) (A.ptr (i + 1)), f (A.col j) (A.val j) = ((A.row i).map fun e => f e.1 e.2).sum := by
  rw [Finset.sum_Ico_eq_sum_range]
  have : (A.row i).map (fun e => f e.1 e.2) =
      (List.range (A.ptr (i + 1) - A.ptr i)).map fun q => f (A.col (A.ptr i + q)) (A.val (A.ptr i + q)) := by
    refine List.ext_getElem (by simp [Csr.row_length]) ?_
    intro q h1 h2
    rw [List.getElem_map, Csr.row_getElem, List.getElem_map, List.getElem_range]
  rw [this]
  rfl

theorem transMulVec_rows (hA : A.WF) (y : Nat → R) (c : Nat) :
    A.transMulVec y c = ∑ i ∈ Finset.range A.m, ((A.row i).map fun e => if e.1 = c then e.2 * y i else 0).sum := by
  refine Finset.sum_congr rfl fun i hi => ?_
  exact row_sum A fun d v => if d = c then v * y i else 0

theorem rect_transMulVec (hA : A.WF) (hB : B.WF) (h : RenumberedRect A B rp cp) (hr : InversePerms A.m rp ri) (hc : InversePerms A.n cp ci)
    {c : Nat} (hcn : c < A.n) (y : Nat → R) : B.transMulVec y (cp c) = A.transMulVec (fun i => y (rp i)) c := by
  rw [transMulVec_rows hB, transMulVec_rows hA, h.rows, ← sum_perm hr]
  refine Finset.sum_congr rfl fun i hi => ?_
  have hi' : i < A.m := by simpa using hi
  rw [h.row i hi', List.map_map]
  congr 1
  refine List.map_congr_left fun e he => ?_
  obtain ⟨j, g1, g2, rfl⟩ := Csr.mem_row.1 he
  have hlt : A.col j < A.n := by
    have := hA.ptr_le_nnz (i := i + 1) hi'
    exact hA.col_lt j (by omega)
  show (if cp (A.col j) = cp c then _ else _) = _
  by_cases e : A.col j = c
  · rw [if_pos e, if_pos (by rw [e])]
  · rw [if_neg e, if_neg fun e' => e (by rw [← (hc.1 _ hlt).2, e', (hc.1 _ hcn).2])]

theorem sum_by_col (l : List (Nat × R)) (m : Nat) (h : ∀ e ∈ l, e.1 < m) (y : Nat → R) :
    (l.map fun e => e.2 * y e.1).sum = ∑ i ∈ Finset.range m, ((inCol l i).map fun v => v * y i).sum := by
  induction l with
  | nil => simp [inCol]
  | cons e l ih =>
    rw [List.map_cons, List.sum_cons, ih fun x hx => h x (List.mem_cons_of_mem _ hx)]
    have : ∀ i, ((inCol (e :: l) i).map fun v => v * y i).sum = (if e.1 = i then e.2 * y i else 0) + ((inCol l i).map fun v => v * y i).sum := by
      intro i
      unfold inCol
      by_cases he : e.1 = i
      · simp [List.filter_cons, he]
      · simp [List.filter_cons, he]
    simp only [this]
    rw [Finset.sum_add_distrib]
    congr 1
    rw [Finset.sum_ite_eq, if_pos (by simpa using h e List.mem_cons_self)]

theorem inCol_sum (l : List (Nat × R)) (c : Nat) (z : R) :
    ((inCol l c).map fun v => v * z).sum = (l.map fun e => if e.1 = c then e.2 * z else 0).sum := by
  induction l with
  | nil => rfl
  | cons e l ih =>
    rw [List.map_cons, List.sum_cons, ← ih]
    unfold inCol
    by_cases he : e.1 = c
    · simp [List.filter_cons, he]
    · simp [List.filter_cons, he]

theorem transpose_mulVec (hA : A.WF) (h : IsTranspose A B) {c : Nat} (hc : c < A.n) (y : Nat → R) : B.mulVec y c = A.transMulVec y c := by
  have hc' : c < B.m := by rw [h.rows]; exact hc
  rw [mulVec_eq_row h.wf hc', transMulVec_rows hA, sum_by_col _ A.m]
  · refine Finset.sum_congr rfl fun i hi => ?_
    rw [h.entries i c (by simpa using hi) hc, inCol_sum]
  · intro e he
    obtain ⟨j, g1, g2, rfl⟩ := Csr.mem_row.1 he
    have := h.wf.ptr_le_nnz (i := c + 1) hc'
    rw [← h.cols]
    exact h.wf.col_lt j (by omega)

theorem transMulVec_congr {y y' : Nat → R} (h : ∀ i, i < A.m → y i = y' i) (c : Nat) : A.transMulVec y c = A.transMulVec y' c := by
  unfold Csr.transMulVec
  refine Finset.sum_congr rfl fun i hi => Finset.sum_congr rfl fun j _ => ?_
  rw [h i (by simpa using hi)]

end

/-- What is printed for `A` with rows and columns numbered by `rp` and `cp`: the largest distance of an entry from the diagonal, the
average over the rows of the spread of the columns, and the average over the columns of the spread of the rows. -/
def BipShows (A : Csr R) (rp cp : Nat → Nat) (p : BipPrint) : Prop :=
  IsBandwidthRect A rp cp p.bandwidth ∧ IsAvgSpread A.m (fun i q => ∃ c, Stores A i c ∧ q = cp c) p.width ∧
    IsAvgSpread A.n (fun c q => ∃ i, Stores A i c ∧ q = rp i) p.widthT

theorem rect_shows {A B : Csr R} {rp cp ri ci : Nat → Nat} (hA : A.WF) (hB : B.WF) (h : RenumberedRect A B rp cp) (hr : InversePerms A.m rp ri)
    (hc : InversePerms A.n cp ci) {p : BipPrint} (hp : BipShows B id id p) : BipShows A rp cp p := by
  obtain ⟨h1, h2, h3⟩ := hp
  rw [h.rows] at h2
  rw [h.cols] at h3
  refine ⟨rect_bandwidth hA hB h hr h1, avg_perm hr ?_ h2, avg_perm hc ?_ h3⟩
  · intro i hi x
    constructor
    · rintro ⟨c, h1, rfl⟩; exact (rect_stores h hr hi).1 h1
    · intro h1; exact ⟨x, (rect_stores h hr hi).2 h1, rfl⟩
  · intro c hcn x
    constructor
    · rintro ⟨i, h1, e⟩
      obtain rfl : x = i := e
      have hi : x < A.m := by rw [← h.rows]; exact (stores_lt hB h1).1
      obtain ⟨g1, g2⟩ := hr.2 x hi
      rw [← g2] at h1
      obtain ⟨d, d1, d2⟩ := (rect_stores h hr g1).1 h1
      have : d = c := by rw [← (hc.1 d (stores_lt hA d1).2).2, ← d2, (hc.1 c hcn).2]
      subst this
      exact ⟨_, d1, g2.symm⟩
    · rintro ⟨i, h1, rfl⟩
      exact ⟨rp i, (rect_stores h hr (stores_lt hA h1).1).2 ⟨c, h1, rfl⟩, rfl⟩

section
variable [CommRing R] [DecidableEq R] {sz : CArr → Int} {r : BipArgs} {A : Csr R} {y x tmp : Nat} {xv : Nat → R} {m0 : Mem (CTy R)}

theorem bipMeasure_ok {M MT : Csr R} {a b : Nat} (hM : M.WF) (hMT : IsTranspose M MT) (hrows : r.m = M.m) (hcols : r.n = M.n) (hT : 1 ≤ r.T)
    (hred : r.tr.Admissible r.T) (hints : (M.m : Int) + r.base ≤ intMax + 1 ∧ (M.n : Int) + r.base ≤ intMax + 1)
    (hvec : y ≠ x ∧ tmp ≠ y ∧ tmp ≠ x) (hroom : (M.m : Int) ≤ sz (.vec y) ∧ (M.n : Int) ≤ sz (.vec x))
    (hp : HoldsPat m0 a r.base M) (hv : HoldsVal m0 a M) (hpT : HoldsPat m0 b r.base MT) (hvT : HoldsVal m0 b MT)
    (hx : ∀ c : Nat, c < M.n → m0 (.vec x) (c : Int) = some (xv c)) :
    (bipMeasure sz r y x tmp a b).Ok m0 (fun p m => BipShows M id id p ∧
      (∀ i : Nat, i < M.m → m (.vec y) (i : Int) = some (M.mulVec xv i)) ∧
      (∀ c : Nat, c < M.n → m (.vec x) (c : Int) = some (M.transMulVec (M.mulVec xv) c)) ∧
      ∀ a, a ≠ .vec y → a ≠ .vec x → a ≠ .vec tmp → m a = m0 a) := by
  unfold bipMeasure
  rw [hrows, hcols, Script.ok_bind]
  refine Script.Ok.mono (C27_bandwidth hT hred hM hp) ?_
  rintro bw m' ⟨e, w1, w2, _⟩
  subst m'
  rw [Script.ok_bind]
  obtain ⟨w, hw, hok⟩ := C27_averageWidth (sz := sz) (tr := r.tr) (sorted := false) hT hred hM hp (by simp) hints.2
  refine Script.Ok.mono hok ?_
  rintro q m' ⟨e, hq⟩
  subst m'
  rw [Script.ok_bind]
  have hints1 : (MT.n : Int) + r.base ≤ intMax + 1 := by rw [hMT.cols]; exact hints.1
  obtain ⟨w', hw', hok'⟩ := C27_averageWidth (sz := sz) (tr := r.tr) (sorted := false) hT hred hMT.wf hpT (by simp) hints1
  rw [hMT.rows] at hok' hw'
  refine Script.Ok.mono hok' ?_
  rintro q' m' ⟨e, hq'⟩
  subst m'
  rw [Script.ok_bind]
  refine Script.Ok.mono (multiplyWithVector_ok (pat := false) (xv := xv) (yv := fun _ => 0) hT ⟨hvec.2.1, hvec.2.2, hvec.2.1⟩
    (fun e => absurd e hvec.1) hM hp (fun _ => hv) ?_ (fun h => absurd ⟨rfl, rfl, rfl⟩ h) hroom.1 (fun e => absurd e hvec.1)) ?_
  · intro c hc
    rw [if_neg hvec.1] at hc
    exact hx c (by omega)
  rintro _ m1 ⟨p1, _, p3⟩
  have p1' : ∀ i : Nat, i < M.m → m1 (.vec y) (i : Int) = some (M.mulVec xv i) := by
    intro i hi; rw [p1 i hi]; simp [Csr.eff]
  rw [Script.ok_bind]
  have f1 : ∀ a, a ≠ .vec y → a ≠ .vec tmp → m1 a = m0 a := p3
  have hok2 := multiplyWithVector_ok (sz := sz) (T := r.T) (k := b) (base := r.base) (A := MT) (pat := false) (w := x) (x := y) (y := x) (tmp := tmp)
    (α := 1) (β := 0) (γ := 0) (m0 := m1) (xv := M.mulVec xv) (yv := fun _ => 0) hT ⟨hvec.2.2, hvec.2.1, hvec.2.2⟩
    (fun e => absurd e.symm hvec.1) hMT.wf
    ⟨fun i hi => by rw [f1 _ (by simp) (by simp)]; exact hpT.rowptr i hi, fun j hj => by rw [f1 _ (by simp) (by simp)]; exact hpT.colidx j hj⟩
    (fun _ => fun j hj => by rw [f1 _ (by simp) (by simp)]; exact hvT j hj) ?_ (fun h => absurd ⟨rfl, rfl, rfl⟩ h)
    (by rw [hMT.rows]; exact hroom.2) (fun e => absurd e.symm hvec.1)
  · rw [hMT.rows] at hok2
    refine Script.Ok.mono hok2 ?_
    rintro _ m2 ⟨s1, _, s3⟩
    have f2 : ∀ a, a ≠ .vec x → a ≠ .vec tmp → m2 a = m1 a := s3
    refine ⟨⟨⟨?_, ?_⟩, ⟨w, ?_, hq⟩, ⟨w', ?_, hq'⟩⟩, ?_, ?_, ?_⟩
    · rintro i c ⟨j, hj, rfl⟩; exact w1 i j hj
    · intro hn
      obtain ⟨i, j, hj, e⟩ := w2 hn
      exact ⟨i, _, ⟨j, hj, rfl⟩, e⟩
    · intro i hi
      have := width_spread (hw i hi)
      rwa [show Stores M i = fun q => ∃ c, Stores M i c ∧ q = id c from funext fun q => propext ⟨fun h => ⟨q, h, rfl⟩, by rintro ⟨c, h, rfl⟩; exact h⟩] at this
    · intro c hc
      have := width_spread (hw' c hc)
      rwa [show Stores MT c = fun q => ∃ i, Stores M i c ∧ q = id i from funext fun q => propext
        ⟨fun h => ⟨q, (transpose_stores hM hMT q c).2 h, rfl⟩, by rintro ⟨i, h, e⟩; obtain rfl : q = i := e; exact (transpose_stores hM hMT q c).1 h⟩] at this
    · intro i hi
      rw [f2 _ (by simpa using hvec.1) (by simpa using hvec.2.1.symm)]; exact p1' i hi
    · intro c hc
      rw [s1 c hc, ← transpose_mulVec hM hMT hc]; simp [Csr.eff]
    · intro a a1 a2 a3
      rw [f2 a a2 a3, f1 a a1 a3]
  · intro c hc
    rw [if_neg (Ne.symm hvec.1), hMT.cols] at hc
    exact p1' c (by omega)

/-- **C73.**  The program for a matrix that has fewer columns than rows or no full row, with any team: in every execution the four
arrays are two pairs of inverse permutations; the permuted matrix is the matrix with rows and columns renumbered and the last matrix is its
transpose; what is printed before and after is the bandwidth and the average widths of the matrix as it is and as it is renumbered; and the
two last products are those of the matrix and of its transpose, read through the numberings. The matrix is unchanged.  Missing: a full row
with at least as many columns as rows (false of the code, C46_dense_row_false), no rows or no columns (C09_zero_cols_false). -/
theorem C73_reorder_partial (hin : BipInput sz m0 r A y x tmp xv) (hbig : 2 ≤ r.T * max A.m A.n)
    (hroom : A.n < A.m ∨ ∀ i, i < A.m → ∃ c, c < A.n ∧ ¬ Stores A i c) :
    (bipMain sz r y x tmp).Ok m0 (fun p m => ∃ rp ri cp ci : Nat → Nat, InversePerms A.m rp ri ∧ InversePerms A.n cp ci ∧
      (∀ i : Nat, i < A.m → m (bipPrm 0) (i : Int) = some (rp i : Int) ∧ m (bipInv 0) (i : Int) = some (ri i : Int)) ∧
      (∀ c : Nat, c < A.n → m (bipPrm 1) (c : Int) = some (cp c : Int) ∧ m (bipInv 1) (c : Int) = some (ci c : Int)) ∧
      (∃ B C : Csr R, B.WF ∧ RenumberedRect A B rp cp ∧ IsTranspose B C ∧ HoldsPat m r.k2 r.base B ∧ HoldsVal m r.k2 B ∧
        HoldsPat m r.k3 r.base C ∧ HoldsVal m r.k3 C) ∧
      BipShows A id id p.1 ∧ BipShows A rp cp p.2 ∧
      (let x1 := A.transMulVec (A.mulVec xv)
       let y2 := A.mulVec fun c => x1 (cp c)
       (∀ i, i < A.m → m (.vec y) (rp i : Int) = some (y2 i)) ∧ ∀ c, c < A.n → m (.vec x) (cp c : Int) = some (A.transMulVec y2 c)) ∧
      ∀ a, ¬ a.ofObj r.kT → ¬ a.ofObj r.k2 → ¬ a.ofObj r.k3 → (∀ j, a ≠ .itmp j) → a ≠ .vec y → a ≠ .vec x → a ≠ .vec tmp → m a = m0 a) := by
  obtain ⟨o1, o2, o3, o4, o5, o6⟩ := hin.objects
  have hne : ∀ {k k' : Nat} {a : CArr}, a.ofObj k → k ≠ k' → ¬ a.ofObj k' := by
    intro k k' a ha hk
    cases a <;> first | exact (fun h : False => h) | exact (fun h => hk (Eq.trans (Eq.symm ha) h))
  have keepP : ∀ {m m' : Mem (CTy R)} {k : Nat} {M : Csr R}, (∀ a, a.ofObj k → m' a = m a) → HoldsPat m k r.base M → HoldsPat m' k r.base M :=
    fun hf h => ⟨fun i hi => by rw [hf (.rowptr _) rfl]; exact h.rowptr i hi, fun j hj => by rw [hf (.colidx _) rfl]; exact h.colidx j hj⟩
  have keepV : ∀ {m m' : Mem (CTy R)} {k : Nat} {M : Csr R}, (∀ a, a.ofObj k → m' a = m a) → HoldsVal m k M → HoldsVal m' k M :=
    fun hf h j hj => by rw [hf (.values _) rfl]; exact h j hj
  have objv : ∀ {k : Nat} {a : CArr}, a.ofObj k → (∀ j, a ≠ .itmp j) ∧ ∀ j, a ≠ .vec j := by
    intro k a ha
    exact ⟨by rintro j rfl; exact ha, by rintro j rfl; exact ha⟩
  unfold bipMain
  rw [hin.rows, hin.cols, Script.ok_bind]
  refine Script.Ok.mono (C09_transpose_partial hin.team (Ne.symm o1) hin.wf hin.nonempty.2 hin.shares hin.pat (fun _ => hin.val)) ?_
  rintro _ m1 ⟨AT, t1, t2, t3, _, t4⟩
  have f1 : ∀ a, ¬ a.ofObj r.kT → m1 a = m0 a := by
    intro a ha
    funext i
    refine t4 a i ?_ ?_ ?_ ?_ <;> (rintro rfl; exact ha rfl)
  have g1 : ∀ a, a.ofObj r.k → m1 a = m0 a := fun a ha => f1 a (hne ha o1)
  rw [Script.ok_bind]
  refine Script.Ok.mono (bipMeasure_ok hin.wf t1 hin.rows hin.cols hin.team hin.reduction hin.ints hin.vectors hin.room (keepP g1 hin.pat)
    (keepV g1 hin.val) t2 (t3 rfl) (xv := xv) (fun c hc => by rw [f1 (.vec x) (fun h => h)]; exact hin.vec c hc)) ?_
  rintro p m2 ⟨s1, _, s2, s3⟩
  have f2 : ∀ {k : Nat} {a : CArr}, a.ofObj k → m2 a = m1 a := fun ha => s3 _ ((objv ha).2 _) ((objv ha).2 _) ((objv ha).2 _)
  have hA2 : HoldsPat m2 r.k r.base A := keepP (fun a ha => f2 ha) (keepP g1 hin.pat)
  have hV2 : HoldsVal m2 r.k A := keepV (fun a ha => f2 ha) (keepV g1 hin.val)
  rw [Script.ok_bind]
  unfold bipReorder
  rw [hin.rows, hin.cols, Script.ok_bind]
  refine Script.Ok.mono (C46_room_partial hin.wf t1.wf ⟨t1.rows, t1.cols, fun i c => transpose_stores hin.wf t1 i c⟩ hin.team hbig hroom hA2
    (keepP (fun a ha => f2 ha) t2)) ?_
  rintro _ m3 ⟨⟨rp, ri, hr, r1, r2⟩, ⟨cp, ci, hc, c1, c2⟩, f3'⟩
  have f3 : ∀ a, (∀ j, a ≠ .itmp j) → m3 a = m2 a := fun a ha => funext fun i => f3' a i ha
  rw [Script.ok_bind]
  refine Script.Ok.mono (bipPass_ok r2 c1) ?_
  rintro _ m4 ⟨q0, q1, q2⟩
  have f4 : ∀ a, (∀ j, a ≠ .itmp j) → m4 a = m2 a := fun a ha => by rw [q2 a (ha 0) (ha 1), f3 a ha]
  have g4 : ∀ {k : Nat} (a : CArr), a.ofObj k → m4 a = m2 a := fun a ha => f4 a (objv ha).1
  have hri : IsPermFn A.m ri := ⟨fun i hi => (hr.2 i hi).1, fun i j hi hj e => by rw [← (hr.2 i hi).2, ← (hr.2 j hj).2, e]⟩
  have hcp : IsPermFn A.n cp := ⟨fun i hi => (hc.1 i hi).1, fun i j hi hj e => by rw [← (hc.1 i hi).2, ← (hc.1 j hj).2, e]⟩
  rw [Script.ok_bind]
  refine Script.Ok.mono (C18_permute_partial (ep := fun i => A.ptr (i + 1)) (nl := A.n) (ri := ri) (cp := cp) (base := r.base) hin.team o2 hin.base
    hin.wf (keepP g4 hA2) (fun _ => keepV g4 hV2) ⟨by simp, fun _ _ _ => rfl, fun i hi => ⟨hin.wf.ptr_mono (by omega) hi, Nat.le_refl _⟩⟩
    (fun _ => q0) (by simp) hri q1 hcp (Nat.le_refl _) ?_ (by simp) ?_ (by simp) (by simp) (by simp)) ?_
  · intro i j hi h1 h2
    have := hin.wf.ptr_le_nnz (i := i + 1) hi
    exact hin.wf.col_lt j (by omega)
  · intro e i hi
    rw [g4 (k := r.k) (.idiag r.k) rfl, f2 (k := r.k) (a := .idiag r.k) rfl, g1 (.idiag r.k) rfl]
    exact hin.idiag e i hi
  rintro _ m5 ⟨⟨B, b1, b2, b3, b4, b5, b6⟩, f5⟩
  have hren : RenumberedRect A B rp cp := by
    refine ⟨b1, b2, fun i hi => ?_⟩
    obtain ⟨g1, g2⟩ := hr.1 i hi
    obtain ⟨L, l1, _, l2, _⟩ := b6 (rp i) g1
    rw [l1, l2 rfl, g2]
    rw [List.drop_eq_nil_of_le (by rw [Csr.row_length]), List.append_nil, List.take_of_length_le (by rw [Csr.row_length])]
  have htr := C09_transpose_partial (sz := sz) (T := r.T) (k := r.k2) (k' := r.k3) (base := r.base) (A := B) (vals := true) (diag := false) (asg := r.asg')
    (m0 := m5) hin.team (Ne.symm o6) b3 (by rw [b2]; exact hin.nonempty.2) (by rw [b2]; exact hin.shares') b4 (fun _ => b5 rfl)
  rw [b1, b2] at htr
  refine Script.Ok.mono htr ?_
  rintro _ m6 ⟨C, u1, u2, u3, _, u4⟩
  have f6 : ∀ a, ¬ a.ofObj r.k3 → m6 a = m5 a := by
    intro a ha
    funext i
    refine u4 a i ?_ ?_ ?_ ?_ <;> (rintro rfl; exact ha rfl)
  have hB6 : HoldsPat m6 r.k2 r.base B := keepP (fun a ha => f6 a (hne ha o6)) b4
  have hBV6 : HoldsVal m6 r.k2 B := keepV (fun a ha => f6 a (hne ha o6)) (b5 rfl)
  rw [Script.ok_bind]
  refine Script.Ok.mono (bipMeasure_ok (sz := sz) (y := y) (x := x) (tmp := tmp) (xv := A.transMulVec (A.mulVec xv)) b3 u1 (by rw [b1]; exact hin.rows) (by rw [b2]; exact hin.cols) hin.team hin.reduction
    (by rw [b1, b2]; exact hin.ints) hin.vectors (by rw [b1, b2]; exact hin.room) hB6 hBV6 u2 (u3 rfl) ?_) ?_
  · intro c hcn
    rw [b2] at hcn
    rw [f6 (.vec x) (fun h => h), f5 (.vec x) (fun h => h), f4 _ (by simp)]
    exact s2 c hcn
  rintro p' m7 ⟨v1, v2, v3, v4⟩
  have f7 : ∀ {k : Nat} (a : CArr), a.ofObj k → m7 a = m6 a := fun a ha => v4 _ ((objv ha).2 _) ((objv ha).2 _) ((objv ha).2 _)
  have keepI : ∀ j, j ≠ 0 → j ≠ 1 → m7 (.itmp j) = m3 (.itmp j) := by
    intro j j0 j1
    rw [v4 _ (by simp) (by simp) (by simp), f6 (.itmp j) (fun h => h), f5 (.itmp j) (fun h => h), q2 _ (by simpa using j0) (by simpa using j1)]
  refine Script.ok_done_of ⟨rp, ri, cp, ci, hr, hc, ?_, ?_, ⟨B, C, b3, hren, u1, keepP f7 hB6, keepV f7 hBV6, keepP f7 u2, keepV f7 (u3 rfl)⟩, s1,
    rect_shows hin.wf b3 hren hr hc v1, ⟨?_, ?_⟩, ?_⟩
  · intro i hi
    exact ⟨by rw [keepI _ (by omega) (by omega)]; exact r1 i hi, by rw [keepI _ (by omega) (by omega)]; exact r2 i hi⟩
  · intro c hcn
    exact ⟨by rw [keepI _ (by omega) (by omega)]; exact c1 c hcn, by rw [keepI _ (by omega) (by omega)]; exact c2 c hcn⟩
  · intro i hi
    rw [v2 (rp i) (by rw [b1]; exact (hr.1 i hi).1), rect_mulVec hin.wf b3 hren hr hi]
  · intro c hcn
    rw [v3 (cp c) (by rw [b2]; exact (hc.1 c hcn).1), rect_transMulVec hin.wf b3 hren hr hc hcn]
    refine congrArg some (transMulVec_congr (fun i hi => ?_) c)
    exact rect_mulVec hin.wf b3 hren hr hi _
  · intro a a1 a2 a3 a4 a5 a6 a7
    rw [v4 a a5 a6 a7, f6 a a3, f5 a a2, f4 a a4, s3 a a5 a6 a7, f1 a a1]

end

/-! ### Witnesses -/

/-- Arguments of the witnesses: team `T`, base 1, `m` rows and `n` columns. -/
def bipArgs (T m n : Nat) (idiag : Bool) : BipArgs :=
  ⟨T, 0, 1, 2, 3, 1, m, n, false, idiag, true, fun t => (simpleBegin T t n, simpleEnd T t n), fun t => (simpleBegin T t n, simpleEnd T t n), .chain T⟩

/-- Room for object 0 and the vectors 0 (x) and 1 (y). -/
def bipRoom (m n nnz : Nat) : CArr → Int
  | .vec 0 => n
  | .vec 1 => m
  | a => csrSize 0 m nnz ⟨true, false, false, false, false⟩ a

/-- A memory with the matrix and the vector `i ↦ i + 1`. -/
def bipMem (A : Csr Int) : Mem (CTy Int) := withVec (csrMem 0 1 A (fun _ => 0) (fun _ => 0)) 0 A.n (fun i => (i : Int) + 1)

theorem bipInput_mk {A : Csr Int} {T nnz : Nat} (wf : A.WF) (hne : 0 < A.m ∧ 0 < A.n) (hs : (A.m : Int) + 1 ≤ intMax + 1 ∧ (A.n : Int) + 1 ≤ intMax + 1)
    (hT : 1 ≤ T) : BipInput (bipRoom A.m A.n nnz) (bipMem A) (bipArgs T A.m A.n false) A 1 0 2 (fun i => (i : Int) + 1) where
  rows := rfl
  cols := rfl
  wf := wf
  nonempty := hne
  ints := hs
  team := hT
  reduction := RedTree.chain_admissible T
  shares := asg_simple T _ hT
  shares' := asg_simple T _ hT
  base := Or.inr rfl
  objects := by simp [bipArgs]
  vectors := by decide
  pat := withVec_pat (csrMem_pat 0 1 A _ _)
  val := withVec_val (csrMem_val 0 1 A _ _)
  idiag := nofun
  vec := fun c hc => withVec_get hc
  room := ⟨Int.le_refl _, Int.le_refl _⟩

theorem bipA_wf : bipA.WF := by
  refine Csr.ofRows_wf ?_
  intro i hi p hp
  interval_cases i <;> simp at hp <;> rcases hp with rfl | rfl <;> decide

/-- The hypotheses of `C73_reorder_partial` hold for a matrix of three rows and four columns with an empty row and an empty column, any
team and base 1. -/
example (T : Nat) (hT : 1 ≤ T) : BipInput (bipRoom 3 4 4) (bipMem bipA) (bipArgs T 3 4 false) bipA 1 0 2 (fun i => (i : Int) + 1) ∧
    2 ≤ T * max bipA.m bipA.n ∧ ∀ i, i < bipA.m → ∃ c, c < bipA.n ∧ ¬ Stores bipA i c := by
  refine ⟨bipInput_mk (A := bipA) bipA_wf (by decide) (by decide) hT, ?_, ?_⟩
  · show 2 ≤ T * 4; omega
  · intro r hr
    refine ⟨2, by decide, ?_⟩
    unfold bipA
    rw [stores_ofRows]
    rintro ⟨_, h⟩
    change r < 3 at hr
    interval_cases r <;> simp at h

/-- Two rows and columns, one entry: row 0, column 1. -/
def bipOff : Csr Int := Csr.ofRows 2 2 (fun i => match i with | 0 => [(1, 1)] | _ => []) 0

theorem bipOff_wf : bipOff.WF := by
  refine Csr.ofRows_wf ?_
  intro i hi p hp
  interval_cases i <;> simp at hp
  subst hp; decide

theorem bipOff_room : ∀ i, i < bipOff.m → ∃ c, c < bipOff.n ∧ ¬ Stores bipOff i c := by
  intro r hr
  refine ⟨0, by decide, ?_⟩
  unfold bipOff
  rw [stores_ofRows]
  rintro ⟨_, h⟩
  change r < 2 at hr
  interval_cases r <;> simp at h

/-- C73 fails for a matrix that came with an array of inverse diagonals and has a row without diagonal entry: the constructor from a
text leaves the inverse diagonal of that row unset (COO.cpp:173-180) and permute copies it. -/
theorem C73_no_diagonal_false :
    ¬ (∀ (sz : CArr → Int) (A : Csr Int) (m0 : Mem (CTy Int)) (xv : Nat → Int),
      BipInput sz m0 (bipArgs 1 A.m A.n false) A 1 0 2 xv → 2 ≤ max A.m A.n → (∀ i, i < A.m → ∃ c, c < A.n ∧ ¬ Stores A i c) →
      (bipMain sz (bipArgs 1 A.m A.n true) 1 0 2).Ok m0 (fun _ _ => True)) := by
  intro h
  have h1 := (h (bipRoom 2 2 1) bipOff (bipMem bipOff) _ (bipInput_mk (A := bipOff) bipOff_wf (by decide) (by decide) (by decide)) (by decide)
    bipOff_room).not_runUB
  have h3 : (bipMain (R := Int) (bipRoom 2 2 1) (bipArgs 1 2 2 true) 1 0 2).runUB (bipMem bipOff) = true := by decide +kernel
  rw [show bipOff.m = 2 from rfl, show bipOff.n = 2 from rfl, h3] at h1
  cases h1

/-- C73 fails as the program is written, which never sets the vector it multiplies with (test/BFSBipartite_test.cpp:51-66). -/
theorem C73_vector_unset_false :
    ¬ (∀ (sz : CArr → Int) (A : Csr Int) (m0 m1 : Mem (CTy Int)) (xv : Nat → Int),
      BipInput sz m0 (bipArgs 1 A.m A.n false) A 1 0 2 xv → 2 ≤ max A.m A.n → (∀ i, i < A.m → ∃ c, c < A.n ∧ ¬ Stores A i c) →
      (∀ a, a ≠ .vec 0 → m1 a = m0 a) → (bipMain sz (bipArgs 1 A.m A.n false) 1 0 2).Ok m1 (fun _ _ => True)) := by
  intro h
  have h1 := (h (bipRoom 2 2 1) bipOff (bipMem bipOff) (csrMem 0 1 bipOff (fun _ => 0) (fun _ => 0)) _
    (bipInput_mk (A := bipOff) bipOff_wf (by decide) (by decide) (by decide)) (by decide) bipOff_room ?_).not_runUB
  · have h3 : (bipMain (R := Int) (bipRoom 2 2 1) (bipArgs 1 2 2 false) 1 0 2).runUB (csrMem 0 1 bipOff (fun _ => 0) (fun _ => 0)) = true := by
      decide +kernel
    rw [show bipOff.m = 2 from rfl, show bipOff.n = 2 from rfl, h3] at h1
    cases h1
  · intro a ha
    cases a <;> try rfl
    rename_i j
    have : j ≠ 0 := fun e => ha (by rw [e])
    funext i
    show _ = if j = 0 then _ else _
    rw [if_neg this]

end SpMP.Props
