import Verif.Spec.PcgIlu
import Verif.PcgMath
import Verif.IluMath
/-
Algebra of preconditioning by incomplete factors: for a symmetric matrix the factors are L D and its transpose, so that the
preconditioner is symmetric, and positive definite if the pivots are positive; the pivots of a diagonally dominant matrix with
non-positive entries off the diagonal are positive. Models no function.
-/
namespace SpMP
open Spec Finset

set_option linter.unusedSectionVars false

variable {R : Type}

section ring
variable [CommRing R]

/-- The value that positions `lo .. hi-1` store in column `c`. -/
def partEntry (A : Csr R) (f : Nat → R) (lo hi c : Nat) : R := ∑ j ∈ Ico lo hi, if A.col j = c then f j else 0

theorem sum_partEntry (A : Csr R) (f g : Nat → R) {lo hi n : Nat} (h : ∀ j, lo ≤ j → j < hi → A.col j < n) :
    ∑ j ∈ Ico lo hi, f j * g (A.col j) = ∑ c ∈ range n, partEntry A f lo hi c * g c := by
  unfold partEntry
  simp only [Finset.sum_mul]
  rw [Finset.sum_comm]
  refine Finset.sum_congr rfl fun j hj => ?_
  obtain ⟨h1, h2⟩ := Finset.mem_Ico.1 hj
  have : ∀ c, (if A.col j = c then f j else 0) * g c = if A.col j = c then f j * g (A.col j) else 0 := by
    intro c
    by_cases hc : A.col j = c
    · rw [if_pos hc, if_pos hc, hc]
    · rw [if_neg hc, if_neg hc, zero_mul]
  rw [Finset.sum_congr rfl fun c _ => this c, Finset.sum_ite_eq, if_pos (Finset.mem_range.2 (h j h1 h2))]

theorem partEntry_zero {A : Csr R} {f : Nat → R} {lo hi c : Nat} (h : ∀ j, lo ≤ j → j < hi → A.col j ≠ c) :
    partEntry A f lo hi c = 0 := by
  refine Finset.sum_eq_zero fun j hj => ?_
  obtain ⟨h1, h2⟩ := Finset.mem_Ico.1 hj
  rw [if_neg (h j h1 h2)]

theorem partEntry_single {A : Csr R} {f : Nat → R} {lo hi c k : Nat} (h1 : lo ≤ k) (h2 : k < hi) (hk : A.col k = c)
    (h : ∀ j, lo ≤ j → j < hi → A.col j = c → j = k) : partEntry A f lo hi c = f k := by
  unfold partEntry
  rw [Finset.sum_eq_single k, if_pos hk]
  · intro j hj hne
    obtain ⟨h3, h4⟩ := Finset.mem_Ico.1 hj
    rw [if_neg fun hc => hne (h j h3 h4 hc)]
  · intro hn; exact absurd (Finset.mem_Ico.2 ⟨h1, h2⟩) hn

theorem sorted_inj {A : Csr R} {i : Nat} (hs : A.RowSorted i) {j k : Nat} (h1 : A.ptr i ≤ j) (h2 : j < A.ptr (i + 1))
    (h3 : A.ptr i ≤ k) (h4 : k < A.ptr (i + 1)) (h : A.col j = A.col k) : j = k := by
  rcases Nat.lt_trichotomy j k with hlt | heq | hgt
  · have := hs j k h1 hlt h4; omega
  · exact heq
  · have := hs k j h3 hgt h2; omega

theorem sum_range' (g : Nat → R) (n lo : Nat) : ((List.range' lo n).map g).sum = ∑ j ∈ Ico lo (lo + n), g j := by
  induction n generalizing lo with
  | zero => simp
  | succ n ih =>
    rw [List.range'_succ, List.map_cons, List.sum_cons, ih, Finset.sum_eq_sum_Ico_succ_bot (by omega : lo < lo + (n + 1))]
    rw [show lo + 1 + n = lo + (n + 1) from by omega]

theorem sum_filter_eq (c : Nat) (l : List (Nat × R)) :
    ((l.filter fun e => e.1 = c).map (·.2)).sum = (l.map fun e => if e.1 = c then e.2 else 0).sum := by
  induction l with
  | nil => simp
  | cons a l ih =>
    by_cases h : a.1 = c
    · simp [h, ← ih]
    · simp [h, ← ih]

theorem entry_eq_part {A : Csr R} (hwf : A.WF) {i : Nat} (hi : i < A.m) (c : Nat) :
    A.entry i c = partEntry A A.val (A.ptr i) (A.ptr (i + 1)) c := by
  have hle := hwf.ptr_mono (i := i) (j := i + 1) (by omega) hi
  unfold Csr.entry Csr.row partEntry
  rw [sum_filter_eq, List.map_map, sum_range', show A.ptr i + (A.ptr (i + 1) - A.ptr i) = A.ptr (i + 1) from by omega]
  rfl

/-- Entry (i, c) of the strictly lower factor stored in `lu`. -/
def loE (A : Csr R) (dp : Nat → Nat) (lu : Nat → R) (i c : Nat) : R := partEntry A lu (A.ptr i) (dp i) c

/-- Entry (i, c) of the upper factor stored in `lu`. -/
def upE (A : Csr R) (dp : Nat → Nat) (lu : Nat → R) (i c : Nat) : R := partEntry A lu (dp i) (A.ptr (i + 1)) c

variable {A : Csr R} {dp ep : Nat → Nat} {lu : Nat → R}

theorem loE_zero (hsp : SplitRows A dp ep) {i c : Nat} (hi : i < A.m) (h : i ≤ c) : loE A dp lu i c = 0 :=
  partEntry_zero fun j h1 h2 => by have := hsp.lower i j hi h1 h2; omega

theorem split_right (hsp : SplitRows A dp ep) {i j : Nat} (hi : i < A.m) (h1 : dp i < j) (h2 : j < A.ptr (i + 1)) : i < A.col j := by
  by_cases h : j < ep i
  · exact hsp.upper i j hi h1 h
  · have := hsp.ext i j hi (by omega) h2; omega

theorem upE_zero (hsp : SplitRows A dp ep) {i c : Nat} (hi : i < A.m) (h : c < i) : upE A dp lu i c = 0 :=
  partEntry_zero fun j h1 h2 => by
    rcases Nat.eq_or_lt_of_le h1 with rfl | h1
    · rw [hsp.diag i hi]; omega
    · have := split_right hsp hi h1 h2; omega

theorem upE_diag (hsp : SplitRows A dp ep) {i : Nat} (hi : i < A.m) : upE A dp lu i i = lu (dp i) := by
  have hb := hsp.bounds i hi
  refine partEntry_single (Nat.le_refl _) (by omega) (hsp.diag i hi) fun j h1 h2 hj => ?_
  rcases Nat.eq_or_lt_of_le h1 with rfl | h1
  · rfl
  · have := split_right hsp hi h1 h2; omega

/-- Where nothing is stored the factors are zero. -/
theorem unstored (hsp : SplitRows A dp ep) {i c : Nat} (hi : i < A.m) (h : ∀ j, A.InRow i j → A.col j ≠ c) :
    loE A dp lu i c = 0 ∧ upE A dp lu i c = 0 := by
  have hb := hsp.bounds i hi
  exact ⟨partEntry_zero fun j h1 h2 => h j ⟨hi, h1, by omega⟩, partEntry_zero fun j h1 h2 => h j ⟨hi, by omega, h2⟩⟩

end ring

section field
variable [Field R] {A : Csr R} {dp ep : Nat → Nat} {lu : Nat → R}

theorem upperEntry_eq (hsp : SplitRows A dp ep) (hs : ∀ i, i < A.m → A.RowSorted i) {i : Nat} (hi : i < A.m) (c : Nat) :
    upperEntry A dp lu i c = upE A dp lu i c := by
  have hb := hsp.bounds i hi
  unfold upperEntry upE
  cases hf : findCol A (dp i) (A.ptr (i + 1)) c with
  | none =>
    dsimp only
    refine (partEntry_zero fun j h1 h2 hc => ?_).symm
    unfold findCol at hf
    rw [List.find?_eq_none] at hf
    have := hf j (by rw [List.mem_range'_1]; omega)
    simp [hc] at this
  | some k =>
    dsimp only
    obtain ⟨h1, h2, h3⟩ := findCol_some hf
    refine (partEntry_single h1 h2 h3 fun j h4 h5 h6 => ?_).symm
    exact sorted_inj (hs i hi) (by omega) h5 (by omega) h2 (by omega)

theorem productEntry_eq (hsp : SplitRows A dp ep) (hs : ∀ i, i < A.m → A.RowSorted i) {i : Nat} (hi : i < A.m) (c : Nat) :
    productEntry A dp lu i c = ∑ e ∈ range A.m, loE A dp lu i e * upE A dp lu e c + upE A dp lu i c := by
  have hb := hsp.bounds i hi
  unfold productEntry
  rw [sum_range', show A.ptr i + (dp i - A.ptr i) = dp i from by omega, upperEntry_eq hsp hs hi]
  congr 1
  have : ∀ j ∈ Ico (A.ptr i) (dp i), lu j * upperEntry A dp lu (A.col j) c = lu j * upE A dp lu (A.col j) c := by
    intro j hj
    obtain ⟨h1, h2⟩ := Finset.mem_Ico.1 hj
    have := hsp.lower i j hi h1 h2
    rw [upperEntry_eq hsp hs (by omega)]
  rw [Finset.sum_congr rfl this]
  exact sum_partEntry A lu (fun e => upE A dp lu e c) fun j h1 h2 => by have := hsp.lower i j hi h1 h2; omega

/-- The product of the factors is the matrix on its pattern, row by row. -/
theorem ilu_entry (hwf : A.WF) (hsp : SplitRows A dp ep) (hs : ∀ i, i < A.m → A.RowSorted i) {i k : Nat}
    (hpiv : ∀ e, e < i → ilu0 A dp A.m A.val (dp e) ≠ 0) (hk : A.InRow i k) :
    ∑ e ∈ range A.m, loE A dp (ilu0 A dp A.m A.val) i e * upE A dp (ilu0 A dp A.m A.val) e (A.col k) +
      upE A dp (ilu0 A dp A.m A.val) i (A.col k) = A.entry i (A.col k) := by
  rw [← productEntry_eq hsp hs hk.1, ilu0_product_row hwf hsp hs hpiv hk, entry_eq_part hwf hk.1]
  exact (partEntry_single hk.2.1 hk.2.2 rfl fun j h1 h2 h3 => sorted_inj (hs i hk.1) h1 h2 hk.2.1 hk.2.2 h3).symm

/-- The incomplete factors of a symmetric matrix: the upper one is the transpose of the lower one, scaled by the pivots. -/
theorem ilu_symm (hwf : A.WF) (hsp : SplitRows A dp ep) (hs : ∀ i, i < A.m → A.RowSorted i) (hsy : A.Symm) (hpat : SymPat A)
    (hpiv : ∀ i, i < A.m → ilu0 A dp A.m A.val (dp i) ≠ 0) :
    ∀ i c, i < c → c < A.m → upE A dp (ilu0 A dp A.m A.val) i c =
      loE A dp (ilu0 A dp A.m A.val) c i * upE A dp (ilu0 A dp A.m A.val) i i := by
  have hprod := fun i k (hk : A.InRow i k) => ilu_entry hwf hsp hs (i := i) (k := k) (fun e he => hpiv e (by have := hk.1; omega)) hk
  generalize ilu0 A dp A.m A.val = F at *
  intro i
  induction i using Nat.strong_induction_on with
  | _ i ih =>
    intro c hic hc
    have hi : i < A.m := by omega
    by_cases hst : ∃ k, A.InRow i k ∧ A.col k = c
    · obtain ⟨k', hk', hc'⟩ := hpat i c hi hc hst
      obtain ⟨k, hk, rfl⟩ := hst
      have e1 := hprod i k hk
      have e2 := hprod (A.col k) k' hk'
      rw [hc'] at e2
      rw [hsy i (A.col k) hi hc, ← e2, upE_zero hsp hc hic, add_zero] at e1
      have h1 : ∑ e ∈ range A.m, loE A dp F i e * upE A dp F e (A.col k) =
          ∑ e ∈ range A.m, if e < i then loE A dp F i e * (loE A dp F (A.col k) e * upE A dp F e e) else 0 := by
        refine Finset.sum_congr rfl fun e he => ?_
        have he := Finset.mem_range.1 he
        by_cases hei : e < i
        · rw [if_pos hei, ih e hei (A.col k) (by omega) hc]
        · rw [if_neg hei, loE_zero hsp hi (by omega), zero_mul]
      have h2 : ∑ e ∈ range A.m, loE A dp F (A.col k) e * upE A dp F e i =
          ∑ e ∈ range A.m, ((if e < i then loE A dp F i e * (loE A dp F (A.col k) e * upE A dp F e e) else 0) +
            if e = i then loE A dp F (A.col k) i * upE A dp F i i else 0) := by
        refine Finset.sum_congr rfl fun e he => ?_
        have he := Finset.mem_range.1 he
        rcases Nat.lt_trichotomy e i with hlt | rfl | hgt
        · rw [if_pos hlt, if_neg (by omega), ih e hlt i hlt hi]; ring
        · rw [if_neg (by omega), if_pos rfl, zero_add]
        · rw [if_neg (by omega), if_neg (by omega), upE_zero hsp he hgt]; ring
      rw [Finset.sum_add_distrib, Finset.sum_ite_eq', if_pos (Finset.mem_range.2 hi)] at h2
      rw [h1, h2] at e1
      linear_combination e1
    · have h1 := (unstored (lu := F) hsp hi (c := c) fun j hj h => hst ⟨j, hj, h⟩).2
      have h2 := (unstored (lu := F) hsp hc (c := i) fun j hj h => hst (hpat c i hc hi ⟨j, hj, h⟩)).1
      rw [h1, h2, zero_mul]

/-- Applying the factors, with rows as functions of the column. -/
theorem iluPrec_iff (hwf : A.WF) (hsq : A.n = A.m) (hsp : SplitRows A dp ep) {z r : Nat → R} :
    IluPrec A dp lu z r ↔ ∃ y : Nat → R, (∀ i, i < A.m → ∑ c ∈ range A.m, upE A dp lu i c * z c = y i) ∧
      ∀ i, i < A.m → ∑ c ∈ range A.m, loE A dp lu i c * y c + y i = r i := by
  have hcol : ∀ i j, i < A.m → A.ptr i ≤ j → j < A.ptr (i + 1) → A.col j < A.m := fun i j hi h1 h2 =>
    hsq ▸ hwf.col_lt j (Csr.InRow.lt_nnz hwf ⟨hi, h1, h2⟩)
  have e1 : ∀ (z : Nat → R) i, i < A.m → ∑ j ∈ Ico (dp i) (A.ptr (i + 1)), lu j * z (A.col j) = ∑ c ∈ range A.m, upE A dp lu i c * z c :=
    fun z i hi => sum_partEntry A lu z fun j h1 h2 => hcol i j hi (by have := hsp.bounds i hi; omega) h2
  have e2 : ∀ (y : Nat → R) i, i < A.m → ∑ j ∈ Ico (A.ptr i) (dp i), lu j * y (A.col j) = ∑ c ∈ range A.m, loE A dp lu i c * y c :=
    fun y i hi => sum_partEntry A lu y fun j h1 h2 => hcol i j hi h1 (by have := hsp.bounds i hi; omega)
  constructor
  · rintro ⟨y, h1, h2⟩
    exact ⟨y, fun i hi => by rw [← e1 z i hi]; exact h1 i hi, fun i hi => by rw [← e2 y i hi]; exact h2 i hi⟩
  · rintro ⟨y, h1, h2⟩
    exact ⟨y, fun i hi => by rw [e1 z i hi]; exact h1 i hi, fun i hi => by rw [e2 y i hi]; exact h2 i hi⟩

/-- The factors can be applied to every vector if no pivot is zero. -/
theorem iluPrec_exists (hwf : A.WF) (hsq : A.n = A.m) (hsp : SplitRows A dp ep) (hpiv : ∀ i, i < A.m → lu (dp i) ≠ 0) (r : Nat → R) :
    ∃ z, IluPrec A dp lu z r := by
  have hlow : ∀ n, n ≤ A.m → ∃ y : Nat → R, ∀ i, i < n → ∑ c ∈ range A.m, loE A dp lu i c * y c + y i = r i := by
    intro n
    induction n with
    | zero => intro _; exact ⟨fun _ => 0, fun i hi => by omega⟩
    | succ n ih =>
      intro hn
      obtain ⟨y, hy⟩ := ih (by omega)
      have hc : ∀ v i, i ≤ n → ∑ c ∈ range A.m, loE A dp lu i c * Function.update y n v c = ∑ c ∈ range A.m, loE A dp lu i c * y c := by
        intro v i hi
        refine Finset.sum_congr rfl fun c _ => ?_
        by_cases h : c < i
        · rw [Function.update_of_ne (by omega)]
        · rw [loE_zero hsp (by omega) (by omega), zero_mul, zero_mul]
      refine ⟨Function.update y n (r n - ∑ c ∈ range A.m, loE A dp lu n c * y c), fun i hi => ?_⟩
      rw [hc _ i (by omega)]
      by_cases h : i = n
      · subst h
        rw [Function.update_self]; ring
      · rw [Function.update_of_ne h]; exact hy i (by omega)
  obtain ⟨y, hy⟩ := hlow A.m (Nat.le_refl _)
  have hup : ∀ n, n ≤ A.m → ∃ z : Nat → R, ∀ i, A.m - n ≤ i → i < A.m → ∑ c ∈ range A.m, upE A dp lu i c * z c = y i := by
    intro n
    induction n with
    | zero => intro _; exact ⟨fun _ => 0, fun i h1 h2 => by omega⟩
    | succ n ih =>
      intro hn
      obtain ⟨z, hz⟩ := ih (by omega)
      obtain ⟨q, hq⟩ : ∃ q, q = A.m - (n + 1) := ⟨_, rfl⟩
      have hqm : q < A.m := by omega
      have hc : ∀ v i, q ≤ i → i < A.m → ∑ c ∈ range A.m, upE A dp lu i c * Function.update z q v c =
          ∑ c ∈ range A.m, upE A dp lu i c * z c + if i = q then lu (dp q) * (v - z q) else 0 := by
        intro v i hi him
        by_cases h : i = q
        · subst h
          rw [if_pos rfl, ← upE_diag (lu := lu) hsp him]
          have : ∀ c ∈ range A.m, upE A dp lu i c * Function.update z i v c =
              upE A dp lu i c * z c + if c = i then upE A dp lu i i * (v - z i) else 0 := by
            intro c _
            by_cases h : c = i
            · subst h; rw [Function.update_self, if_pos rfl]; ring
            · rw [Function.update_of_ne h, if_neg h, add_zero]
          rw [Finset.sum_congr rfl this, Finset.sum_add_distrib, Finset.sum_ite_eq', if_pos (Finset.mem_range.2 him)]
        · rw [if_neg h, add_zero]
          refine Finset.sum_congr rfl fun c _ => ?_
          by_cases hc : c = q
          · subst hc; rw [upE_zero hsp him (by omega), zero_mul, zero_mul]
          · rw [Function.update_of_ne hc]
      refine ⟨Function.update z q (z q + (y q - ∑ c ∈ range A.m, upE A dp lu q c * z c) / lu (dp q)), fun i h1 h2 => ?_⟩
      rw [hc _ i (by omega) h2]
      by_cases h : i = q
      · subst h
        rw [if_pos rfl]
        have := hpiv i h2
        field_simp
        ring
      · rw [if_neg h, add_zero]; exact hz i (by omega) h2
  obtain ⟨z, hz⟩ := hup A.m (Nat.le_refl _)
  exact ⟨z, (iluPrec_iff hwf hsq hsp).2 ⟨y, fun i hi => hz i (by omega) hi, hy⟩⟩

/-- The inner product of a preconditioned residual with a residual, in terms of the intermediate vectors. -/
theorem ilu_dot (hsp : SplitRows A dp ep) (hpiv : ∀ i, i < A.m → lu (dp i) ≠ 0)
    (hsy : ∀ i c, i < c → c < A.m → upE A dp lu i c = loE A dp lu c i * upE A dp lu i i) {z' r y y' : Nat → R}
    (hy' : ∀ i, i < A.m → ∑ c ∈ range A.m, upE A dp lu i c * z' c = y' i)
    (hr : ∀ i, i < A.m → ∑ c ∈ range A.m, loE A dp lu i c * y c + y i = r i) :
    dotN A.m z' r = ∑ i ∈ range A.m, y i * y' i / lu (dp i) := by
  have h1 : ∀ e ∈ range A.m, y e * y' e / lu (dp e) = z' e * y e + ∑ i ∈ range A.m, z' i * (loE A dp lu i e * y e) := by
    intro e he
    have he := Finset.mem_range.1 he
    have hz := upE_diag (lu := lu) hsp he
    have hs : ∑ c ∈ range A.m, upE A dp lu e c * z' c = lu (dp e) * (z' e + ∑ i ∈ range A.m, z' i * loE A dp lu i e) := by
      have : ∀ c ∈ range A.m, upE A dp lu e c * z' c = lu (dp e) * (z' c * loE A dp lu c e) + if c = e then lu (dp e) * z' e else 0 := by
        intro c hc
        have hc := Finset.mem_range.1 hc
        rcases Nat.lt_trichotomy e c with hlt | rfl | hgt
        · rw [if_neg (by omega), hsy e c hlt hc, hz]; ring
        · rw [if_pos rfl, hz, loE_zero hsp he (Nat.le_refl _)]; ring
        · rw [if_neg (by omega), upE_zero hsp he hgt, loE_zero hsp hc (by omega)]; ring
      rw [Finset.sum_congr rfl this, Finset.sum_add_distrib, Finset.sum_ite_eq', if_pos (Finset.mem_range.2 he), ← Finset.mul_sum]
      ring
    rw [← hy' e he, hs]
    have hne := hpiv e he
    have : ∑ i ∈ range A.m, z' i * (loE A dp lu i e * y e) = (∑ i ∈ range A.m, z' i * loE A dp lu i e) * y e := by
      rw [Finset.sum_mul]; exact Finset.sum_congr rfl fun i _ => by ring
    rw [this]
    field_simp
  rw [Finset.sum_congr rfl h1, Finset.sum_add_distrib, Finset.sum_comm, ← Finset.sum_add_distrib]
  refine Finset.sum_congr rfl fun i hi => ?_
  rw [← hr i (Finset.mem_range.1 hi), mul_add, Finset.mul_sum, add_comm]

end field

section order
variable [Field R] [LinearOrder R] [IsStrictOrderedRing R] {A : Csr R} {dp ep : Nat → Nat} {lu : Nat → R}

/-- Incomplete factors with positive pivots, the upper one a scaled transpose of the lower one, are a symmetric positive
definite preconditioner. -/
theorem ilu_precond_of (hwf : A.WF) (hsq : A.n = A.m) (hsp : SplitRows A dp ep) (hpos : ∀ i, i < A.m → 0 < lu (dp i))
    (hsy : ∀ i c, i < c → c < A.m → upE A dp lu i c = loE A dp lu c i * upE A dp lu i i) : Precond A.m (IluPrec A dp lu) := by
  have hne : ∀ i, i < A.m → lu (dp i) ≠ 0 := fun i hi => ne_of_gt (hpos i hi)
  have htot := iluPrec_exists hwf hsq hsp hne
  have hsym : ∀ z r z' r', IluPrec A dp lu z r → IluPrec A dp lu z' r' → dotN A.m z' r = dotN A.m z r' := by
    intro z r z' r' h h'
    obtain ⟨y, a1, a2⟩ := (iluPrec_iff hwf hsq hsp).1 h
    obtain ⟨y', b1, b2⟩ := (iluPrec_iff hwf hsq hsp).1 h'
    rw [ilu_dot hsp hne hsy b1 a2, ilu_dot hsp hne hsy a1 b2]
    exact Finset.sum_congr rfl fun i _ => by ring
  refine ⟨htot, ?_, hsym, ?_⟩
  · intro z r z' r' h h' hr
    obtain ⟨w, hw⟩ := htot fun i => z i - z' i
    have e1 := hsym _ _ _ _ hw h
    have e2 := hsym _ _ _ _ hw h'
    have e3 : dotN A.m w r = dotN A.m w r' := dotN_congr (fun _ _ => rfl) hr
    have e4 : dotN A.m (fun i => z i - z' i) (fun i => z i - z' i) = 0 := by
      have : dotN A.m (fun i => z i - z' i) (fun i => z i - z' i) = dotN A.m z (fun i => z i - z' i) - dotN A.m z' (fun i => z i - z' i) := by
        unfold dotN
        rw [← Finset.sum_sub_distrib]
        exact Finset.sum_congr rfl fun i _ => by ring
      rw [this, e1, e2, e3, sub_self]
    by_contra hc
    push Not at hc
    obtain ⟨i, hi, hne⟩ := hc
    exact absurd e4 (ne_of_gt (dotN_self_pos ⟨i, hi, sub_ne_zero.2 hne⟩))
  · intro z r h hr
    obtain ⟨y, a1, a2⟩ := (iluPrec_iff hwf hsq hsp).1 h
    rw [ilu_dot hsp hne hsy a1 a2]
    have hy : ∃ i, i < A.m ∧ y i ≠ 0 := by
      by_contra hc
      push Not at hc
      obtain ⟨i, hi, h⟩ := hr
      apply h
      rw [← a2 i hi, hc i hi, add_zero]
      exact Finset.sum_eq_zero fun c hcm => by rw [hc c (Finset.mem_range.1 hcm), mul_zero]
    obtain ⟨i, hi, h⟩ := hy
    refine Finset.sum_pos' (fun j hj => div_nonneg (mul_self_nonneg _) (le_of_lt (hpos j (Finset.mem_range.1 hj)))) ⟨i, Finset.mem_range.2 hi, ?_⟩
    exact div_pos (lt_of_le_of_ne (mul_self_nonneg _) (Ne.symm (mul_self_ne_zero.2 h))) (hpos i hi)

/-- The incomplete factorisation of a symmetric matrix with positive pivots is a symmetric positive definite preconditioner. -/
theorem ilu_precond (hwf : A.WF) (hsq : A.n = A.m) (hsp : SplitRows A dp ep) (hs : ∀ i, i < A.m → A.RowSorted i) (hsy : A.Symm)
    (hpat : SymPat A) (hpos : ∀ i, i < A.m → 0 < ilu0 A dp A.m A.val (dp i)) : Precond A.m (IluPrec A dp (ilu0 A dp A.m A.val)) :=
  ilu_precond_of hwf hsq hsp hpos (ilu_symm hwf hsp hs hsy hpat fun i hi => ne_of_gt (hpos i hi))

/-- The pivots are positive if no entry off the diagonal is positive, no row sum is negative, and every row with sum 0 has a
negative entry right of the diagonal. -/
theorem ilu_pivots (hwf : A.WF) (hsq : A.n = A.m) (hsp : SplitRows A dp ep) (hs : ∀ i, i < A.m → A.RowSorted i)
    (hoff : ∀ i c, i < A.m → c < A.m → i ≠ c → A.entry i c ≤ 0) (hdom : ∀ i, i < A.m → 0 ≤ ∑ c ∈ range A.m, A.entry i c)
    (hstr : ∀ i, i < A.m → 0 < ∑ c ∈ range A.m, A.entry i c ∨ ∃ c, i < c ∧ c < A.m ∧ A.entry i c < 0) :
    ∀ i, i < A.m → 0 < ilu0 A dp A.m A.val (dp i) := by
  have hprod := fun i k h (hk : A.InRow i k) => ilu_entry hwf hsp hs (i := i) (k := k) h hk
  generalize ilu0 A dp A.m A.val = F at *
  have hzero : ∀ i c, i < A.m → (∀ j, A.InRow i j → A.col j ≠ c) → A.entry i c = 0 := by
    intro i c hi h
    rw [entry_eq_part hwf hi]
    exact partEntry_zero fun j h1 h2 => h j ⟨hi, h1, h2⟩
  have key : ∀ i, i < A.m → 0 < F (dp i) ∧ (∀ c, i < c → c < A.m → upE A dp F i c ≤ 0) ∧ 0 ≤ ∑ c ∈ range A.m, upE A dp F i c := by
    intro i
    induction i using Nat.strong_induction_on with
    | _ i ih =>
      intro hi
      have hpe : ∀ e, e < i → 0 < F (dp e) := fun e he => (ih e he (by omega)).1
      have hp := fun k hk => hprod i k (fun e he => ne_of_gt (hpe e he)) hk
      -- the multipliers are not positive
      have hlo : ∀ c, c < i → loE A dp F i c ≤ 0 := by
        intro c
        induction c using Nat.strong_induction_on with
        | _ c ihc =>
          intro hc
          by_cases hst : ∃ k, A.InRow i k ∧ A.col k = c
          · obtain ⟨k, hk, rfl⟩ := hst
            have e := hp k hk
            rw [upE_zero hsp hi hc, add_zero] at e
            have hsum : ∑ e ∈ range A.m, loE A dp F i e * upE A dp F e (A.col k) =
                (∑ e ∈ range A.m, if e < A.col k then loE A dp F i e * upE A dp F e (A.col k) else 0) + loE A dp F i (A.col k) * F (dp (A.col k)) := by
              have : ∀ e ∈ range A.m, loE A dp F i e * upE A dp F e (A.col k) =
                  (if e < A.col k then loE A dp F i e * upE A dp F e (A.col k) else 0) +
                    if e = A.col k then loE A dp F i (A.col k) * F (dp (A.col k)) else 0 := by
                intro e he
                have he := Finset.mem_range.1 he
                rcases Nat.lt_trichotomy e (A.col k) with hlt | heq | hgt
                · rw [if_pos hlt, if_neg (by omega), add_zero]
                · rw [if_neg (by omega), if_pos heq, zero_add, heq, upE_diag hsp (by omega)]
                · rw [if_neg (by omega), if_neg (by omega), upE_zero hsp he hgt]; ring
              rw [Finset.sum_congr rfl this, Finset.sum_add_distrib, Finset.sum_ite_eq', if_pos (Finset.mem_range.2 (by omega))]
            have hnn : 0 ≤ ∑ e ∈ range A.m, if e < A.col k then loE A dp F i e * upE A dp F e (A.col k) else 0 := by
              refine Finset.sum_nonneg fun e _ => ?_
              split
              · next h => exact mul_nonneg_of_nonpos_of_nonpos (ihc e h (by omega)) ((ih e (by omega) (by omega)).2.1 _ h (by omega))
              · exact le_refl _
            have ho := hoff i (A.col k) hi (by omega) (by omega)
            have hd := hpe (A.col k) hc
            by_contra hcon
            have hcon := lt_of_not_ge hcon
            have := mul_pos hcon hd
            linarith
          · rw [(unstored hsp hi fun j hj h => hst ⟨j, hj, h⟩).1]
      -- every product entry is at least the entry of the matrix, with equality where one is stored
      have hge : ∀ c, c < A.m → A.entry i c ≤ ∑ e ∈ range A.m, loE A dp F i e * upE A dp F e c + upE A dp F i c := by
        intro c hc
        by_cases hst : ∃ k, A.InRow i k ∧ A.col k = c
        · obtain ⟨k, hk, rfl⟩ := hst
          exact le_of_eq (hp k hk).symm
        · have hun := unstored (lu := F) hsp hi (c := c) fun j hj h => hst ⟨j, hj, h⟩
          rw [hzero i c hi fun j hj h => hst ⟨j, hj, h⟩, hun.2, add_zero]
          refine Finset.sum_nonneg fun e he => ?_
          have he := Finset.mem_range.1 he
          by_cases hei : e < i
          · rcases Nat.lt_trichotomy e c with hlt | rfl | hgt
            · exact mul_nonneg_of_nonpos_of_nonpos (hlo e hei) ((ih e hei he).2.1 c hlt hc)
            · rw [hun.1, zero_mul]
            · rw [upE_zero hsp he hgt, mul_zero]
          · rw [loE_zero hsp hi (by omega), zero_mul]
      have hup : ∀ c, i < c → c < A.m → upE A dp F i c ≤ A.entry i c := by
        intro c hic hc
        by_cases hst : ∃ k, A.InRow i k ∧ A.col k = c
        · obtain ⟨k, hk, rfl⟩ := hst
          rw [← hp k hk]
          have : 0 ≤ ∑ e ∈ range A.m, loE A dp F i e * upE A dp F e (A.col k) := by
            refine Finset.sum_nonneg fun e he => ?_
            have he := Finset.mem_range.1 he
            by_cases hei : e < i
            · exact mul_nonneg_of_nonpos_of_nonpos (hlo e hei) ((ih e hei he).2.1 _ (by omega) hc)
            · rw [loE_zero hsp hi (by omega), zero_mul]
          linarith
        · rw [hzero i c hi fun j hj h => hst ⟨j, hj, h⟩, (unstored hsp hi fun j hj h => hst ⟨j, hj, h⟩).2]
      have hup0 : ∀ c, i < c → c < A.m → upE A dp F i c ≤ 0 := fun c h1 h2 => (hup c h1 h2).trans (hoff i c hi h2 (by omega))
      have hsum : ∑ c ∈ range A.m, A.entry i c ≤ ∑ c ∈ range A.m, upE A dp F i c := by
        have h1 := Finset.sum_le_sum fun c hc => hge c (Finset.mem_range.1 hc)
        rw [Finset.sum_add_distrib, Finset.sum_comm] at h1
        have h2 : ∑ e ∈ range A.m, ∑ c ∈ range A.m, loE A dp F i e * upE A dp F e c ≤ 0 := by
          refine Finset.sum_nonpos fun e he => ?_
          have he := Finset.mem_range.1 he
          rw [← Finset.mul_sum]
          by_cases hei : e < i
          · exact mul_nonpos_of_nonpos_of_nonneg (hlo e hei) (ih e hei he).2.2
          · rw [loE_zero hsp hi (by omega), zero_mul]
        linarith
      have hdiag : ∑ c ∈ range A.m, upE A dp F i c = F (dp i) + ∑ c ∈ range A.m, if i < c then upE A dp F i c else 0 := by
        have : ∀ c ∈ range A.m, upE A dp F i c = (if c = i then F (dp i) else 0) + if i < c then upE A dp F i c else 0 := by
          intro c _
          rcases Nat.lt_trichotomy i c with hlt | rfl | hgt
          · rw [if_neg (by omega), if_pos hlt, zero_add]
          · rw [if_pos rfl, if_neg (by omega), add_zero, upE_diag hsp hi]
          · rw [if_neg (by omega), if_neg (by omega), upE_zero hsp hi hgt, add_zero]
        rw [Finset.sum_congr rfl this, Finset.sum_add_distrib, Finset.sum_ite_eq', if_pos (Finset.mem_range.2 hi)]
      have hterm : ∀ c ∈ range A.m, (if i < c then upE A dp F i c else 0) ≤ 0 := by
        intro c hc
        split
        · next h => exact hup0 c h (Finset.mem_range.1 hc)
        · exact le_refl _
      have hle := Finset.sum_nonpos hterm
      have hd := hdom i hi
      refine ⟨?_, hup0, hd.trans hsum⟩
      rcases hstr i hi with h | ⟨c, h1, h2, h3⟩
      · linarith
      · have hlt : ∑ c ∈ range A.m, (if i < c then upE A dp F i c else 0) < 0 := by
          refine Finset.sum_neg' hterm ⟨c, Finset.mem_range.2 h2, ?_⟩
          rw [if_pos h1]
          exact lt_of_le_of_lt (hup c h1 h2) h3
        linarith
  exact fun i hi => (key i hi).1

end order
end SpMP
