import Verif.Pcg
/-
Proofs about the pieces of pcg_symgs: triangular solves, inner products, scaling. Models no function.
-/
namespace SpMP
open Spec

set_option linter.unusedSectionVars false

variable {R : Type} [Races CArr]

/-- Vector `j` holds `v` on the first `n` components. -/
def VecIs (m : Mem (CTy R)) (j n : Nat) (v : Nat → R) : Prop := ∀ i : Nat, i < n → m (.vec j) (i : Int) = some (v i)

theorem VecIs.frame {m m' : Mem (CTy R)} {j n : Nat} {v : Nat → R} (h : VecIs m j n v) (e : m' (.vec j) = m (.vec j)) :
    VecIs m' j n v := fun i hi => by rw [e]; exact h i hi

section ring
variable [CommRing R]

theorem Csr.mulVec_congr_row {B : Csr R} {i : Nat} {x y : Nat → R}
    (h : ∀ j, B.ptr i ≤ j → j < B.ptr (i + 1) → x (B.col j) = y (B.col j)) : B.mulVec x i = B.mulVec y i :=
  Finset.sum_congr rfl fun j hj => by
    rw [Finset.mem_Ico] at hj
    rw [h j hj.1 hj.2]

theorem wp_triRow {sz : CArr → Int} {k base y b : Nat} {B : Csr R} {m : Mem (CTy R)} {bv ev yv : Nat → R} {i : Nat}
    {Q : Unit → Mem (CTy R) → Prop} (hwf : B.WF) (hp : HoldsPat m k base B) (hv : HoldsVal m k B) (hi : i < B.m)
    (hb : m (.vec b) (i : Int) = some (bv i)) (he : m (.idiag k) (i : Int) = some (ev i))
    (hy : ∀ j, B.ptr i ≤ j → j < B.ptr (i + 1) → m (.vec y) (B.col j : Int) = some (yv (B.col j)))
    (hsz : (B.m : Int) ≤ sz (.vec y))
    (hQ : Q () (m.set (.vec y) (i : Int) ((bv i - B.mulVec yv i) * ev i))) :
    wp sz (fun _ _ => True) (fun _ _ => True) (triRow k y b base ((i : Int) + base)) m Q := by
  have hmono := hwf.ptr_step i hi
  have e1 : (i : Int) + base - base = i := by omega
  have e2 : (i : Int) + base + 1 - base = ((i + 1 : Nat) : Int) := by omega
  unfold triRow
  rw [e1, e2]
  refine wp_rd _ trivial hb ?_
  refine wp_rd _ trivial (hp.rowptr i (by omega)) ?_
  refine wp_rd _ trivial (hp.rowptr (i + 1) (by omega)) ?_
  rw [wp_bind]
  refine wp_forUp (I := fun q s m' => m' = m ∧ ∃ j : Nat, q = (j : Int) + base ∧ B.ptr i ≤ j ∧ j ≤ B.ptr (i + 1) ∧
    s = bv i - ∑ t ∈ Finset.Ico (B.ptr i) j, B.val t * yv (B.col t)) ?_ ?_ ?_
  · exact ⟨rfl, B.ptr i, rfl, Nat.le_refl _, hmono, by simp⟩
  · rintro q s m' h1 h2 ⟨rfl, j, rfl, h3, h4, h5⟩
    have hlt : j < B.ptr (i + 1) := by omega
    have hj : j < B.nnz := Csr.InRow.lt_nnz hwf ⟨hi, h3, hlt⟩
    have e : (j : Int) + base - base = j := by omega
    have e3 : (B.col j : Int) + base - base = (B.col j : Int) := by omega
    rw [e]
    refine wp_rd _ trivial (hv j hj) ?_
    refine wp_rd _ trivial (hp.colidx j hj) ?_
    rw [e3]
    refine wp_rd _ trivial (hy j h3 hlt) ?_
    rw [wp_pure]
    refine ⟨rfl, j + 1, by push_cast; omega, by omega, hlt, ?_⟩
    rw [Finset.sum_Ico_succ_top h3, h5]; ring
  · rintro s m' ⟨rfl, j, h1, h2, h3, h4⟩
    have : j = B.ptr (i + 1) := by omega
    subst this
    refine wp_rd _ trivial he ?_
    rw [wp_write]
    refine ⟨trivial, by omega, by omega, ?_⟩
    rw [h4]
    exact hQ

/-- The forward solve: row by row with the values computed before. -/
theorem wp_forwardSolveRef {sz : CArr → Int} {k base y b : Nat} {B : Csr R} {m0 : Mem (CTy R)} {bv ev : Nat → R}
    {Q : Unit → Mem (CTy R) → Prop} (hwf : B.WF) (hp : HoldsPat m0 k base B) (hv : HoldsVal m0 k B) (hyb : y ≠ b)
    (hlow : ∀ i j, i < B.m → B.ptr i ≤ j → j < B.ptr (i + 1) → B.col j < i)
    (hb : VecIs m0 b B.m bv) (he : ∀ i : Nat, i < B.m → m0 (.idiag k) (i : Int) = some (ev i))
    (hsz : (B.m : Int) ≤ sz (.vec y))
    (hQ : ∀ m yv, VecIs m y B.m yv → (∀ i, i < B.m → yv i = (bv i - B.mulVec yv i) * ev i) →
      (∀ a, a ≠ .vec y → m a = m0 a) → Q () m) :
    wp sz (fun _ _ => True) (fun _ _ => True) (forwardSolveRef k B.m y b) m0 Q := by
  unfold forwardSolveRef
  refine wp_rd _ trivial (hp.rowptr 0 (by omega)) ?_
  rw [hwf.ptr_zero]
  have e0 : ((0 : Nat) : Int) + base = base := by omega
  rw [e0, Int.toNat_natCast]
  refine wp_forUp (I := fun q _ m => (∀ a, a ≠ .vec y → m a = m0 a) ∧ ∃ i : Nat, q = (i : Int) + base ∧ i ≤ B.m ∧
    ∃ yv : Nat → R, (∀ c : Nat, c < i → m (.vec y) (c : Int) = some (yv c)) ∧
      ∀ c, c < i → yv c = (bv c - B.mulVec yv c) * ev c) ?_ ?_ ?_
  · exact ⟨fun _ _ => rfl, 0, by omega, by omega, fun _ => 0, fun c hc => by omega, fun c hc => by omega⟩
  · rintro q _ m h1 h2 ⟨hf, i, rfl, hi, yv, hy, heq⟩
    have hi : i < B.m := by omega
    refine wp_triRow (yv := yv) (bv := bv) (ev := ev) hwf ⟨?_, ?_⟩ ?_ hi ?_ ?_ ?_ hsz ?_
    · intro c hc; rw [hf _ (by simp)]; exact hp.rowptr c hc
    · intro c hc; rw [hf _ (by simp)]; exact hp.colidx c hc
    · intro c hc; rw [hf _ (by simp)]; exact hv c hc
    · rw [hf _ (by simpa using fun h => hyb h.symm)]; exact hb i hi
    · rw [hf _ (by simp)]; exact he i hi
    · intro j h3 h4; exact hy _ (hlow i j hi h3 h4)
    · refine ⟨fun a ha => by rw [Mem.set_other _ _ _ _ _ ha]; exact hf a ha, i + 1, by push_cast; omega, hi,
        Function.update yv i ((bv i - B.mulVec yv i) * ev i), ?_, ?_⟩
      · intro c hc
        by_cases hci : c = i
        · subst hci; rw [Mem.get_same, Function.update_self]
        · rw [Mem.get_ne _ _ _ _ _ (by omega), Function.update_of_ne hci]; exact hy c (by omega)
      · intro c hc
        have hcong : B.mulVec (Function.update yv i ((bv i - B.mulVec yv i) * ev i)) c = B.mulVec yv c :=
          Csr.mulVec_congr_row fun j h3 h4 => by
            have := hlow c j (by omega) h3 h4
            exact Function.update_of_ne (by omega) _ _
        rw [hcong]
        by_cases hci : c = i
        · subst hci; rw [Function.update_self]
        · rw [Function.update_of_ne hci]; exact heq c (by omega)
  · rintro _ m ⟨hf, i, h1, h2, yv, h3, h4⟩
    have : i = B.m := by omega
    subst this
    exact hQ m yv h3 h4 hf

/-- The backward solve. -/
theorem wp_backwardSolveRef {sz : CArr → Int} {k base y b : Nat} {B : Csr R} {m0 : Mem (CTy R)} {bv ev : Nat → R}
    {Q : Unit → Mem (CTy R) → Prop} (hwf : B.WF) (hsq : B.n = B.m) (hp : HoldsPat m0 k base B) (hv : HoldsVal m0 k B)
    (hyb : y ≠ b) (hup : ∀ i j, i < B.m → B.ptr i ≤ j → j < B.ptr (i + 1) → i < B.col j)
    (hb : VecIs m0 b B.m bv) (he : ∀ i : Nat, i < B.m → m0 (.idiag k) (i : Int) = some (ev i))
    (hsz : (B.m : Int) ≤ sz (.vec y))
    (hQ : ∀ m yv, VecIs m y B.m yv → (∀ i, i < B.m → yv i = (bv i - B.mulVec yv i) * ev i) →
      (∀ a, a ≠ .vec y → m a = m0 a) → Q () m) :
    wp sz (fun _ _ => True) (fun _ _ => True) (backwardSolveRef k B.m y b) m0 Q := by
  unfold backwardSolveRef
  refine wp_rd _ trivial (hp.rowptr 0 (by omega)) ?_
  rw [hwf.ptr_zero]
  have e0 : ((0 : Nat) : Int) + base = base := by omega
  rw [e0, Int.toNat_natCast]
  refine wp_forDown (I := fun q _ m => (∀ a, a ≠ .vec y → m a = m0 a) ∧ ∃ i : Nat, q = (i : Int) + base ∧ i ≤ B.m ∧
    ∃ yv : Nat → R, (∀ c : Nat, i ≤ c → c < B.m → m (.vec y) (c : Int) = some (yv c)) ∧
      ∀ c, i ≤ c → c < B.m → yv c = (bv c - B.mulVec yv c) * ev c) ?_ ?_ ?_
  · exact ⟨fun _ _ => rfl, B.m, by omega, by omega, fun _ => 0, fun c hc => by omega, fun c hc => by omega⟩
  · rintro q _ m h1 h2 ⟨hf, i', hq, hi', yv, hy, heq⟩
    obtain ⟨i, rfl⟩ : ∃ i, i' = i + 1 := ⟨i' - 1, by omega⟩
    have hq' : q = (i : Int) + base := by push_cast at hq; omega
    subst hq'
    have hi : i < B.m := by omega
    have hcol : ∀ c j, c < B.m → B.ptr c ≤ j → j < B.ptr (c + 1) → B.col j < B.m := by
      intro c j hc h3 h4
      have := hwf.col_lt j (Csr.InRow.lt_nnz hwf ⟨hc, h3, h4⟩)
      omega
    refine wp_triRow (yv := yv) (bv := bv) (ev := ev) hwf ⟨?_, ?_⟩ ?_ hi ?_ ?_ ?_ hsz ?_
    · intro c hc; rw [hf _ (by simp)]; exact hp.rowptr c hc
    · intro c hc; rw [hf _ (by simp)]; exact hp.colidx c hc
    · intro c hc; rw [hf _ (by simp)]; exact hv c hc
    · rw [hf _ (by simpa using fun h => hyb h.symm)]; exact hb i hi
    · rw [hf _ (by simp)]; exact he i hi
    · intro j h3 h4; exact hy _ (hup i j hi h3 h4) (hcol i j hi h3 h4)
    · refine ⟨fun a ha => by rw [Mem.set_other _ _ _ _ _ ha]; exact hf a ha, i, rfl, by omega,
        Function.update yv i ((bv i - B.mulVec yv i) * ev i), ?_, ?_⟩
      · intro c hc hcm
        by_cases hci : c = i
        · subst hci; rw [Mem.get_same, Function.update_self]
        · rw [Mem.get_ne _ _ _ _ _ (by omega), Function.update_of_ne hci]; exact hy c (by omega) hcm
      · intro c hc hcm
        have hcong : B.mulVec (Function.update yv i ((bv i - B.mulVec yv i) * ev i)) c = B.mulVec yv c :=
          Csr.mulVec_congr_row fun j h3 h4 => by
            have := hup c j hcm h3 h4
            exact Function.update_of_ne (by omega) _ _
        rw [hcong]
        by_cases hci : c = i
        · subst hci; rw [Function.update_self]
        · rw [Function.update_of_ne hci]; exact heq c (by omega) hcm
  · rintro _ m ⟨hf, i, h1, h2, yv, h3, h4⟩
    have : i = 0 := by omega
    subst this
    exact hQ m yv (fun c hc => h3 c (by omega) hc) (fun c hc => h4 c (by omega) hc) hf

theorem wp_dotLoop {sz : CArr → Int} {W : CArr → Int → Prop} {x y n : Nat} {m : Mem (CTy R)} {xv yv : Nat → R}
    (hx : VecIs m x n xv) (hy : VecIs m y n yv) :
    ∀ (l : List Nat) (s : R), (∀ i, i ∈ l → i < n) →
      wp sz W (fun _ _ => True) (dotLoop x y l s) m
        (fun r m' => m' = m ∧ r = s + (l.map fun i => xv i * yv i).sum) := by
  intro l
  induction l with
  | nil => intro s _; unfold dotLoop; rw [wp_pure]; exact ⟨rfl, by simp⟩
  | cons i l ih =>
    intro s hl
    have hi := hl i List.mem_cons_self
    unfold dotLoop
    refine wp_rd _ trivial (hx i hi) ?_
    refine wp_rd _ trivial (hy i hi) ?_
    refine wp_mono (ih (s + xv i * yv i) fun j hj => hl j (List.mem_cons_of_mem _ hj)) ?_
    rintro r m' ⟨h1, h2⟩
    exact ⟨h1, by rw [h2]; simp [add_assoc]⟩

/-- dot computes the inner product for every team, every sharing of the iterations and every order of combination. -/
theorem dotV_ok {sz : CArr → Int} {T x y n : Nat} {sh : Share} {m : Mem (CTy R)} {xv yv : Nat → R}
    {Q : R → Mem (CTy R) → Prop} (hsh : sh.Covers T n)
    (hx : VecIs m x n xv) (hy : VecIs m y n yv) (hQ : Q (dotN n xv yv) m) : (dotV sz T x y sh).Ok m Q := by
  unfold dotV
  have hmem : ∀ t i, t < T → i ∈ sh.its t → i < n := by
    intro t i ht hi
    have : i ∈ (List.range T).flatMap sh.its := List.mem_flatMap.2 ⟨t, List.mem_range.2 ht, hi⟩
    exact List.mem_range.1 (hsh.1.mem_iff.1 this)
  refine par_rule (W := fun _ _ _ => False) (R := fun _ _ _ => True)
    (Q := fun t r m' => m' = m ∧ r = 0 + ((sh.its t).map fun i => xv i * yv i).sum) ?_ ?_ ?_
  · intro t u a i _ _ _ h; exact h.elim
  · intro t ht; exact wp_dotLoop hx hy _ _ fun i hi => hmem t i ht hi
  · intro r m' h1 h2
    have hm : m' = m := by funext a i; exact h2 a i fun _ _ h => h
    subst hm
    have hr : ∀ t, t < T → r t = ((sh.its t).map fun i => xv i * yv i).sum := by
      intro t ht
      obtain ⟨mt, ⟨_, h⟩, _⟩ := h1 t ht
      rw [h, zero_add]
    refine Script.ok_done_of ?_
    rw [RedTree.eval_add_eq hsh.2, add_zero, Finset.sum_congr rfl fun t ht => hr t (Finset.mem_range.1 ht)]
    have : ∑ t ∈ Finset.range T, ((sh.its t).map fun i => xv i * yv i).sum = dotN n xv yv := by
      rw [← list_range_sum]
      have e := (hsh.1.map fun i => xv i * yv i).sum_eq
      rw [list_range_sum] at e
      unfold dotN
      rw [← e]
      generalize List.range T = l
      induction l with
      | nil => simp
      | cons a l ih => simp [ih]
    rw [this]
    exact hQ

/-- The scaling of U. -/
theorem scaleU_ok {sz : CArr → Int} {k : Nat} {U : Csr R} {m : Mem (CTy R)} {ev : Nat → R}
    (hwf : U.WF) (hp : HoldsPat m k 0 U) (hv : HoldsVal m k U)
    (he : ∀ i : Nat, i < U.m → m (.idiag k) (i : Int) = some (ev i)) :
    (scaleU sz k U.m).Ok m (fun _ m' =>
      (∀ i j, i < U.m → U.ptr i ≤ j → j < U.ptr (i + 1) → m' (.values k) (j : Int) = some (U.val j * ev i)) ∧
      (∀ i : Nat, i < U.m → m' (.idiag k) (i : Int) = some 1) ∧ ∀ a, a ≠ .values k → a ≠ .idiag k → m' a = m a) := by
  unfold scaleU
  refine seq_rule ?_
  refine wp_rd _ trivial (hp.rowptr U.m (Nat.le_refl _)) ?_
  refine wp_rd _ trivial (hp.rowptr 0 (by omega)) ?_
  rw [wp_pure, hwf.ptr_zero]
  have hdis : ∀ t u j : Nat, t < U.m → u < U.m → t ≠ u → U.ptr t ≤ j → j < U.ptr (t + 1) →
      ¬ (U.ptr u ≤ j ∧ j < U.ptr (u + 1)) := by
    intro t u j ht hu htu h1 h2 ⟨h3, h4⟩
    rcases Nat.lt_or_gt_of_ne htu with h | h
    · have := hwf.ptr_mono (i := t + 1) (j := u) h (by omega); omega
    · have := hwf.ptr_mono (i := u + 1) (j := t) h (by omega); omega
  refine par_rule
    (W := fun t a i => (a = .values k ∧ (U.ptr t : Int) ≤ i ∧ i < U.ptr (t + 1)) ∨ (a = .idiag k ∧ i = (t : Int)))
    (R := fun t a i => (a = .rowptr k) ∨ (a = .values k ∧ (U.ptr t : Int) ≤ i ∧ i < U.ptr (t + 1)) ∨
      (a = .idiag k ∧ i = (t : Int)))
    (Q := fun t _ m' => (∀ j, U.ptr t ≤ j → j < U.ptr (t + 1) → m' (.values k) (j : Int) = some (U.val j * ev t)) ∧
      m' (.idiag k) (t : Int) = some 1) ?_ ?_ ?_
  · rintro t u a i ht hu htu (⟨rfl, h1, h2⟩ | ⟨rfl, rfl⟩) (h | ⟨h, h3, h4⟩ | ⟨h, h3⟩)
    · cases h
    · obtain ⟨j, rfl⟩ := Int.eq_ofNat_of_zero_le (a := i) (by omega)
      exact hdis t u j ht hu htu (by omega) (by omega) ⟨by omega, by omega⟩
    · cases h
    · cases h
    · cases h
    · omega
  · intro t ht
    have hmono := hwf.ptr_step t ht
    have hle := hwf.ptr_le_nnz (i := t + 1) ht
    unfold scaleRow
    refine wp_rd _ (Or.inl rfl) (hp.rowptr t (by omega)) ?_
    refine wp_rd _ (Or.inl rfl) (show m (.rowptr k) ((t : Int) + 1) = _ from hp.rowptr (t + 1) (by omega)) ?_
    rw [wp_bind]
    have es : (scaleSize sz k U.m ((U.ptr U.m : Int) + ((0 : Nat) : Int) - (((0 : Nat) : Int) + ((0 : Nat) : Int)))) (.values k) =
        U.ptr U.m := by
      simp [scaleSize]
    have ei : (scaleSize sz k U.m ((U.ptr U.m : Int) + ((0 : Nat) : Int) - (((0 : Nat) : Int) + ((0 : Nat) : Int)))) (.idiag k) = U.m := by
      simp [scaleSize]
    refine wp_forUp (I := fun q _ m' => m' (.idiag k) (t : Int) = some (ev t) ∧ ∃ p : Nat, q = (p : Int) ∧ U.ptr t ≤ p ∧
      p ≤ U.ptr (t + 1) ∧ (∀ j, U.ptr t ≤ j → j < p → m' (.values k) (j : Int) = some (U.val j * ev t)) ∧
      ∀ j, p ≤ j → j < U.ptr (t + 1) → m' (.values k) (j : Int) = some (U.val j)) ?_ ?_ ?_
    · exact ⟨he t ht, U.ptr t, by omega, Nat.le_refl _, hmono, fun j h1 h2 => by omega,
        fun j h1 h2 => hv j (Csr.InRow.lt_nnz hwf ⟨ht, h1, h2⟩)⟩
    · rintro q _ m' h1 h2 ⟨hd, p, rfl, h3, h4, h5, h6⟩
      have hlt : p < U.ptr (t + 1) := by omega
      refine wp_rd _ (Or.inr (Or.inl ⟨rfl, by omega, by omega⟩)) (h6 p (Nat.le_refl _) hlt) ?_
      refine wp_rd _ (Or.inr (Or.inr ⟨rfl, rfl⟩)) hd ?_
      rw [wp_write]
      refine ⟨Or.inl ⟨rfl, by omega, by omega⟩, by omega, ?_, ?_⟩
      · rw [es]; have : U.ptr U.m = U.nnz := rfl
        omega
      · refine ⟨by rw [Mem.set_other _ _ _ _ _ (by simp)]; exact hd, p + 1, by omega, by omega, hlt, ?_, ?_⟩
        · intro j h7 h8
          by_cases hj : j = p
          · subst hj; rw [Mem.get_same]
          · rw [Mem.get_ne _ _ _ _ _ (by omega)]; exact h5 j h7 (by omega)
        · intro j h7 h8
          rw [Mem.get_ne _ _ _ _ _ (by omega)]; exact h6 j (by omega) h8
    · rintro _ m' ⟨hd, p, h1, h2, h3, h4, h5⟩
      have : p = U.ptr (t + 1) := by omega
      subst this
      rw [wp_write]
      refine ⟨Or.inr ⟨rfl, rfl⟩, by omega, by rw [ei]; omega, ?_, by rw [Mem.get_same]⟩
      intro j h6 h7
      rw [Mem.set_other _ _ _ _ _ (by simp)]; exact h4 j h6 h7
  · intro r m' h1 h2
    refine Script.ok_done_of ⟨?_, ?_, ?_⟩
    · intro i j hi h3 h4
      obtain ⟨mt, ⟨q1, _⟩, q2⟩ := h1 i hi
      rw [q2 _ _ (Or.inr (Or.inl ⟨rfl, by omega, by omega⟩))]; exact q1 j h3 h4
    · intro i hi
      obtain ⟨mt, ⟨_, q1⟩, q2⟩ := h1 i hi
      rw [q2 _ _ (Or.inr (Or.inr ⟨rfl, rfl⟩))]; exact q1
    · intro a ha hb
      funext i
      refine h2 a i ?_
      rintro t _ (⟨h, _⟩ | ⟨h, _⟩)
      · exact ha h
      · exact hb h

end ring
end SpMP
