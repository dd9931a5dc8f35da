import Verif.Qsort
import Verif.Spec.Coo
import Mathlib.Data.List.Nodup
/-
Sorting every row of a CSR matrix in a parallel loop (/repo/COO.cpp:135-141).
-/

namespace SpMP
open Spec

set_option linter.unusedSectionVars false

variable {R : Type} [Races CArr]

/-- COO.cpp:138-139, iteration `i`: qsort of row `i`, then the assertion that it is sorted (`is_sorted`). -/
def sortRow (k : Nat) (ob : Int) (i : Int) : Prog (CTy R) Unit := do
  let lo ← Prog.read (ty := CTy R) (.rowptr k) i
  let hi ← Prog.read (ty := CTy R) (.rowptr k) (i + 1)
  qsortKV k ((hi : Int) - lo).toNat ((lo : Int) - ob) ((hi : Int) - 1 - ob)
  Prog.forUp (ty := CTy R) ((lo : Int) - ob) ((hi : Int) - ob - 1) () fun j _ => do
    let b ← Prog.read (ty := CTy R) (.colidx k) (j + 1)
    let a ← Prog.read (ty := CTy R) (.colidx k) j
    Prog.assert (ty := CTy R) (¬ (b : Int) < a)

/-- COO.cpp:136-140. -/
def sortRows (sz : CArr → Int) (k m : Nat) (ob : Int) : Script (CTy R) Unit :=
  .phase sz m (fun i => sortRow k ob i) fun _ => .done ()

/-! ### Proofs -/

theorem range'_perm {σ : Equiv.Perm Nat} {p len : Nat} (h : Within σ p (p + len)) :
    ((List.range' p len).map σ).Perm (List.range' p len) := by
  refine (List.perm_ext_iff_of_nodup ?_ List.nodup_range').mpr ?_
  · exact (List.nodup_range').map σ.injective
  · intro x
    simp only [List.mem_map, List.mem_range'_1]
    constructor
    · rintro ⟨y, hy, rfl⟩; exact h.mem hy.1 hy.2
    · intro hx
      refine ⟨σ.symm x, ?_, σ.apply_symm_apply x⟩
      by_contra hc
      have := h _ hc
      rw [σ.apply_symm_apply] at this
      rw [← this] at hc; exact hc hx

theorem wp_sortRow {sz : CArr → Int} {W Rd : CArr → Int → Prop} {k base i : Nat} {A : Csr R} {m : Mem (CTy R)} (hwf : A.WF) (hi : i < A.m)
    (hp : HoldsPat m k base A) (hv : HoldsVal m k A)
    (hW : ∀ a x, KVCell k (A.ptr i) (A.ptr (i + 1)) a x → W a x)
    (hR : ∀ a x, KVCell k (A.ptr i) (A.ptr (i + 1)) a x ∨ a = .rowptr k → Rd a x)
    (hs : (A.nnz : Int) ≤ sz (.colidx k) ∧ (A.nnz : Int) ≤ sz (.values k)) :
    wp sz W Rd (sortRow k base i) m (fun _ m' => ∃ σ : Equiv.Perm Nat, Within σ (A.ptr i) (A.ptr (i + 1)) ∧
      KV m' k (A.ptr i) (A.ptr (i + 1)) (fun j => (A.col (σ j) : Int) + base) (fun j => A.val (σ j)) ∧
      ∀ x y, A.ptr i ≤ x → x ≤ y → y < A.ptr (i + 1) → A.col (σ x) ≤ A.col (σ y)) := by
  unfold sortRow
  have hle := hwf.ptr_step i hi
  have hnn := hwf.ptr_le_nnz (i := i + 1) hi
  have h1 := hp.rowptr (i + 1) hi
  push_cast at h1
  refine wp_rd _ (hR _ _ (Or.inr rfl)) (hp.rowptr i (by omega)) ?_
  refine wp_rd _ (hR _ _ (Or.inr rfl)) h1 ?_
  rw [wp_bind]
  show wp sz W Rd (qsortKV k ((A.ptr (i + 1) : Int) + base - ((A.ptr i : Int) + base)).toNat ((A.ptr i : Int) + base - base)
    ((A.ptr (i + 1) : Int) + base - 1 - base)) m _
  rw [show (A.ptr i : Int) + base - base = (A.ptr i : Int) by omega,
    show (A.ptr (i + 1) : Int) + base - 1 - base = (A.ptr (i + 1) : Int) - 1 by omega]
  refine wp_qsortKV (k := k) _ (kf := fun j => (A.col j : Int) + base) (vf := fun j => A.val j) (by omega) ?_ hW
    (fun a x hx => hR a x (Or.inl hx)) ⟨by omega, by omega⟩ ?_
  · intro j g1 g2; exact ⟨hp.colidx j (by omega), hv j (by omega)⟩
  intro σ m' w h3 ord f
  show wp sz W Rd (Prog.forUp (ty := CTy R) (A.ptr i : Int) ((A.ptr (i + 1) : Int) + base - base - 1) () _) m' _
  have fin : ∃ σ : Equiv.Perm Nat, Within σ (A.ptr i) (A.ptr (i + 1)) ∧
      KV m' k (A.ptr i) (A.ptr (i + 1)) (fun j => (A.col (σ j) : Int) + base) (fun j => A.val (σ j)) ∧
      ∀ x y, A.ptr i ≤ x → x ≤ y → y < A.ptr (i + 1) → A.col (σ x) ≤ A.col (σ y) := by
    refine ⟨σ, w, h3, ?_⟩
    intro x y g1 g2 g3
    have : (A.col (σ x) : Int) + base ≤ (A.col (σ y) : Int) + base := ord x y g1 g2 g3
    omega
  by_cases he : A.ptr (i + 1) = A.ptr i
  · refine wp_forUp (I := fun _ _ mm => mm = m') rfl ?_ ?_
    · intro j _ _ g1 g2; omega
    · rintro _ _ rfl; exact fin
  refine wp_forN (b := 0) (lo := A.ptr i) (hi := A.ptr (i + 1) - 1) (fun _ _ mm => mm = m') (by omega) rfl ?_ ?_
    (by omega) (by omega)
  · rintro x _ _ g1 g2 rfl
    rw [Int.add_zero, show (x : Int) + 1 = ((x + 1 : Nat) : Int) by omega]
    refine wp_rd _ (hR _ _ (Or.inl ⟨Or.inl rfl, by omega, by omega⟩)) (h3 (x + 1) (by omega) (by omega)).1 ?_
    refine wp_rd _ (hR _ _ (Or.inl ⟨Or.inl rfl, by omega, by omega⟩)) (h3 x (by omega) (by omega)).1 ?_
    rw [wp_assert]
    refine ⟨?_, rfl⟩
    have := ord x (x + 1) (by omega) (by omega) (by omega)
    exact Int.not_lt.mpr this
  · rintro _ _ rfl; exact fin

theorem row_unique {A : Csr R} (hwf : A.WF) {i i' j : Nat} (h1 : A.InRow i j) (h2 : A.InRow i' j) : i = i' := by
  rcases Nat.lt_trichotomy i i' with h | h | h
  · have := hwf.ptr_mono (show i + 1 ≤ i' from h) (by have := h2.1; omega)
    have := h1.2.2; have := h2.2.1; omega
  · exact h
  · have := hwf.ptr_mono (show i' + 1 ≤ i from h) (by have := h1.1; omega)
    have := h2.2.2; have := h1.2.1; omega

theorem sortRows_ok {sz : CArr → Int} {k base : Nat} {A : Csr R} {m0 : Mem (CTy R)} (hwf : A.WF)
    (hp : HoldsPat m0 k base A) (hv : HoldsVal m0 k A)
    (hs : (A.nnz : Int) ≤ sz (.colidx k) ∧ (A.nnz : Int) ≤ sz (.values k)) :
    (sortRows sz k A.m base).Ok m0 (fun _ m => ∃ B : Csr R, SortedRows A B ∧ HoldsPat m k base B ∧ HoldsVal m k B ∧
      ∀ a i, a ≠ .colidx k → a ≠ .values k → m a i = m0 a i) := by
  unfold sortRows
  refine par_rule
    (W := fun i a x => KVCell k (A.ptr i) (A.ptr (i + 1)) a x)
    (R := fun i a x => KVCell k (A.ptr i) (A.ptr (i + 1)) a x ∨ a = .rowptr k)
    (Q := fun i _ m' => ∃ σ : Equiv.Perm Nat, Within σ (A.ptr i) (A.ptr (i + 1)) ∧
      KV m' k (A.ptr i) (A.ptr (i + 1)) (fun j => (A.col (σ j) : Int) + base) (fun j => A.val (σ j)) ∧
      ∀ x y, A.ptr i ≤ x → x ≤ y → y < A.ptr (i + 1) → A.col (σ x) ≤ A.col (σ y)) ?_ ?_ ?_
  · rintro t u a x ht hu htu ⟨ha, h1, h2⟩ (⟨_, h3, h4⟩ | rfl)
    · rcases Nat.lt_trichotomy t u with h | h | h
      · have := hwf.ptr_mono (show t + 1 ≤ u from h) (by omega); omega
      · exact htu h
      · have := hwf.ptr_mono (show u + 1 ≤ t from h) (by omega); omega
    · rcases ha with ha | ha <;> cases ha
  · intro i hi
    exact wp_sortRow hwf hi hp hv (fun _ _ h => h) (fun _ _ h => h) hs
  · intro r m hq hfr
    have hq' : ∀ i, ∃ σ : Equiv.Perm Nat, i < A.m → Within σ (A.ptr i) (A.ptr (i + 1)) ∧
        KV m k (A.ptr i) (A.ptr (i + 1)) (fun j => (A.col (σ j) : Int) + base) (fun j => A.val (σ j)) ∧
        ∀ x y, A.ptr i ≤ x → x ≤ y → y < A.ptr (i + 1) → A.col (σ x) ≤ A.col (σ y) := by
      intro i
      by_cases hi : i < A.m
      · obtain ⟨mt, ⟨σ, h1, h2, h3⟩, h4⟩ := hq i hi
        refine ⟨σ, fun _ => ⟨h1, ?_, h3⟩⟩
        intro j g1 g2
        have e : ∀ a, a = .colidx k ∨ a = .values k → m a (j : Int) = mt a (j : Int) := fun a ha =>
          h4 a _ (Or.inl ⟨ha, by omega, by omega⟩)
        rw [e _ (Or.inl rfl), e _ (Or.inr rfl)]
        exact h2 j g1 g2
      · exact ⟨1, fun h => absurd h hi⟩
    choose σ hσ using hq'
    -- the row of a position
    have hrow : ∀ j, ∃ i, j < A.nnz → A.InRow i j := by
      intro j
      by_cases hj : j < A.nnz
      · obtain ⟨i, h⟩ := hwf.exists_row hj; exact ⟨i, fun _ => h⟩
      · exact ⟨0, fun h => absurd h hj⟩
    choose rw_ hrw using hrow
    have hin : ∀ i j, A.InRow i j → rw_ j = i := fun i j h => row_unique hwf (hrw j (h.lt_nnz hwf)) h
    let B : Csr R := ⟨A.m, A.n, A.ptr, fun j => A.col (σ (rw_ j) j), fun j => A.val (σ (rw_ j) j)⟩
    have hBr : ∀ i, i < A.m → B.row i = (List.range' (A.ptr i) (A.ptr (i + 1) - A.ptr i)).map
        fun j => (A.col (σ i j), A.val (σ i j)) := by
      intro i hi
      show (List.range' (A.ptr i) (A.ptr (i + 1) - A.ptr i)).map (fun j => (A.col (σ (rw_ j) j), A.val (σ (rw_ j) j))) = _
      refine List.map_congr_left ?_
      intro j hj
      rw [List.mem_range'_1] at hj
      have := hwf.ptr_step i hi
      rw [hin i j ⟨hi, hj.1, by omega⟩]
    have hcell : ∀ j, j < A.nnz → m (.colidx k) (j : Int) = some ((B.col j : Int) + base) ∧
        m (.values k) (j : Int) = some (B.val j) := by
      intro j hj
      have h := hrw j hj
      exact (hσ _ h.1).2.1 j h.2.1 h.2.2
    refine ⟨B, ⟨rfl, rfl, rfl, ⟨hwf.ptr_zero, hwf.ptr_step, ?_⟩, ?_, ?_⟩, ⟨?_, fun j hj => (hcell j hj).1⟩,
      fun j hj => (hcell j hj).2, ?_⟩
    · intro j hj
      have h := hrw j hj
      have h2 := (hσ _ h.1).1.mem h.2.1 h.2.2
      exact hwf.col_lt _ (Nat.lt_of_lt_of_le h2.2 (hwf.ptr_le_nnz h.1))
    · intro i hi
      rw [hBr i hi]
      have hst := hwf.ptr_step i hi
      have := (range'_perm (σ := σ i) (p := A.ptr i) (len := A.ptr (i + 1) - A.ptr i)
        (by rw [show A.ptr i + (A.ptr (i + 1) - A.ptr i) = A.ptr (i + 1) by omega]; exact (hσ i hi).1)).map
        fun j => (A.col j, A.val j)
      rw [List.map_map] at this
      exact this
    · intro i hi
      rw [hBr i hi, List.pairwise_map]
      have hst := hwf.ptr_step i hi
      refine List.Pairwise.imp_of_mem ?_ (List.pairwise_lt_range' (s := A.ptr i) (n := A.ptr (i + 1) - A.ptr i))
      intro x y hx hy hxy
      rw [List.mem_range'_1] at hx hy
      exact (hσ i hi).2.2 x y hx.1 (by omega) (by omega)
    · intro i hi
      rw [hfr _ _ (by rintro t _ ⟨h | h, _⟩ <;> cases h)]
      exact hp.rowptr i hi
    · intro a i h1 h2
      refine hfr a i ?_
      rintro t _ ⟨h | h, _⟩
      · exact h1 h
      · exact h2 h

end SpMP
