import Verif.SymPatPhases
import Verif.PermuteRows
/-
Proofs about getSymmetricNnzPattern, continued: the row-wise phases and the whole function, base 0.
-/

namespace SpMP
open Spec

variable {R : Type}

/-- Row starts of the result. -/
def symStart (A : Csr R) (ep : Nat → Nat) : Nat → Nat
  | 0 => 0
  | i + 1 => symStart A ep i + ((A.ptr (i + 1) - A.ptr i) + (symMiss A ep i).length)

/-- What row `i` of the result holds; `L` is its local part. -/
def SymRow (m : Mem (CTy R)) (A : Csr R) (ext : Bool) (ep : Nat → Nat) (i : Nat) (L : List Nat) : Prop :=
  L.Perm (locCols A ep i ++ symMiss A ep i) ∧ L.Pairwise (· ≤ ·) ∧
  (∀ q (h : q < L.length), m (.itmp 3) ((symStart A ep i : Int) + q) = some (L[q] : Int)) ∧
  (∀ q : Nat, q < A.ptr (i + 1) - ep i → m (.itmp 3) ((symStart A ep i : Int) + L.length + q) = some (A.col (ep i + q) : Int)) ∧
  (ext = true → m (.itmp 2) (i : Int) = some ((symStart A ep i : Int) + L.length)) ∧
  ((∃ j : Nat, symStart A ep i ≤ j ∧ j < symStart A ep (i + 1) ∧ m (.itmp 3) (j : Int) = some (i : Int)) →
    ∃ j : Nat, symStart A ep i ≤ j ∧ j < symStart A ep (i + 1) ∧ m (.itmp 3) (j : Int) = some (i : Int) ∧ m (.itmp 1) (i : Int) = some (j : Int))

section
variable {sz : CArr → Int} {W Rd : CArr → Int → Prop} {k T : Nat} {A : Csr R} {ext : Bool} {ep : Nat → Nat} {m0 m1 : Mem (CTy R)}

theorem symStart_mono {i j : Nat} (h : i ≤ j) : symStart A ep i ≤ symStart A ep j := by
  induction j with
  | zero => rw [show i = 0 by omega]
  | succ j ih =>
    by_cases he : i = j + 1
    · rw [he]
    · have := ih (by omega)
      have e : symStart A ep (j + 1) = symStart A ep j + ((A.ptr (j + 1) - A.ptr j) + (symMiss A ep j).length) := rfl
      omega

theorem symStart_succ (i : Nat) : symStart A ep (i + 1) = symStart A ep i + ((A.ptr (i + 1) - A.ptr i) + (symMiss A ep i).length) := rfl

/-- SymGS.cpp:192-194. -/
theorem wp_symPrefix {m1 : Mem (CTy R)} {mm : Nat} {f S : Nat → Nat} (h0 : m1 (.itmp 0) 0 = some (0 : Int)) (hS0 : S 0 = 0)
    (hS : ∀ i, i < mm → S (i + 1) = S i + f i)
    (h1 : ∀ c : Nat, c < mm → m1 (.itmp 0) ((c : Int) + 1) = some (f c : Int)) (hz : (mm : Int) + 1 ≤ sz (.itmp 0))
    {Q : Unit → Mem (CTy R) → Prop}
    (hQ : ∀ m, (∀ i : Nat, i ≤ mm → m (.itmp 0) (i : Int) = some (S i : Int)) → (∀ a i, a ≠ .itmp 0 → m a i = m1 a i) → Q () m) :
    wp sz (fun _ _ => True) (fun _ _ => True) (symPrefix mm 0) m1 Q := by
  unfold symPrefix
  refine wp_forN (b := 0) (lo := 0) (hi := mm) (fun q _ m => (∀ i : Nat, i ≤ q → m (.itmp 0) (i : Int) = some (S i : Int)) ∧
    (∀ c : Nat, q ≤ c → c < mm → m (.itmp 0) ((c : Int) + 1) = some (f c : Int)) ∧ (∀ a i, a ≠ .itmp 0 → m a i = m1 a i)) (by omega) ?_ ?_ ?_ (by simp) (by simp)
  · refine ⟨?_, fun c _ hc => h1 c hc, fun _ _ _ => rfl⟩
    intro i hi
    obtain rfl : i = 0 := by omega
    rw [hS0]; exact h0
  · rintro i _ m hi1 hi2 ⟨g1, g2, g3⟩
    simp only [Int.add_zero, Nat.cast_zero, Int.sub_zero]
    refine wp_rd (f i : Int) trivial (g2 i (by omega) hi2) ?_
    refine wp_rd (S i : Int) trivial (g1 i (by omega)) ?_
    refine wp_wr1 trivial ⟨by omega, by omega⟩ ?_
    refine ⟨?_, ?_, ?_⟩
    · intro x hx
      by_cases he : x = i + 1
      · subst he
        rw [show ((i + 1 : Nat) : Int) = (i : Int) + 1 by omega, Mem.get_same]
        exact congrArg some (show ((f i : Int) + (S i : Int) : Int) = _ by rw [hS i hi2]; push_cast; omega)
      · rw [Mem.get_ne _ _ _ _ _ (by omega)]; exact g1 x (by omega)
    · intro c hc1 hc2
      rw [Mem.get_ne _ _ _ _ _ (by omega)]; exact g2 c (by omega) hc2
    · intro a x ha
      rw [Mem.set_other _ _ _ _ _ ha]; exact g3 a x ha
  · rintro _ m ⟨g1, _, g3⟩
    exact hQ m g1 g3

/-- SymGS.cpp:153-156, one row. -/
theorem wp_symDeg {m : Mem (CTy R)} (h : SymHyp m k A ext ep) (hR : ∀ a i, symSrc k a → Rd a i) {i : Nat} (hi : i < A.m)
    (hW : W (.itmp 0) ((i : Int) + 1)) (hz : (A.m : Int) + 1 ≤ sz (.itmp 0)) :
    wp sz W Rd (symDeg k 0 (i : Int)) m (fun _ m' => m' (.itmp 0) ((i : Int) + 1) = some ((A.ptr (i + 1) - A.ptr i : Nat) : Int)) := by
  unfold symDeg
  simp only [Nat.cast_zero, Int.sub_zero]
  refine wp_rd (A.ptr (i + 1) : Int) (hR _ _ (Or.inl rfl)) (h.pat.rp1 hi) ?_
  refine wp_rd (A.ptr i : Int) (hR _ _ (Or.inl rfl)) (h.pat.rp0 (by omega)) ?_
  refine wp_wr1 hW ⟨by omega, by omega⟩ ?_
  rw [Mem.get_same]
  have := h.wf.ptr_step i hi
  exact congrArg some (show ((A.ptr (i + 1) : Int) - (A.ptr i : Int) : Int) = _ by omega)

/-- SymGS.cpp:217-222, one row. -/
theorem wp_symForward {m : Mem (CTy R)} (h : SymHyp m k A ext ep) (hR : ∀ a i, symSrc k a → Rd a i) (hR0 : ∀ i, Rd (.itmp 0) i) {i S : Nat} (hi : i < A.m)
    (hS : m (.itmp 0) (i : Int) = some (S : Int)) (hW4 : W (.itmp 4) (i : Int))
    (hW3 : ∀ x : Nat, x < ep i - A.ptr i → W (.itmp 3) ((S : Int) + x)) (hz4 : (A.m : Int) ≤ sz (.itmp 4))
    (hz3 : (S : Int) + (ep i - A.ptr i : Nat) ≤ sz (.itmp 3)) :
    wp sz W Rd (symForward k 0 ext (i : Int)) m (fun _ m' => m' (.itmp 4) (i : Int) = some ((ep i - A.ptr i : Nat) : Int) ∧
      ∀ x : Nat, x < ep i - A.ptr i → m' (.itmp 3) ((S : Int) + x) = some (A.col (A.ptr i + x) : Int)) := by
  have hx := h.ext.2.2 i hi
  have hnn := h.wf.ptr_le_nnz (i := i + 1) (by omega)
  unfold symForward
  rw [wp_bind]
  refine wp_symBounds h hR hi ?_
  dsimp only
  refine wp_wr hW4 ⟨by omega, by omega⟩ ?_
  simp only [Nat.cast_zero, Int.sub_zero]
  refine wp_rd (S : Int) (hR0 _) (by rw [Mem.set_other _ _ _ _ _ (by simp)]; exact hS) ?_
  refine wp_copySeg (s := S) (f := A.ptr i) (n := ep i - A.ptr i) (by simp) (fun x => (A.col (A.ptr i + x) : Int)) ?_ ?_ hW3 hz3 rfl rfl (by omega) ?_
  · intro x hx'
    rw [Mem.set_other _ _ _ _ _ (by simp)]
    have := h.pat.col0 (j := A.ptr i + x) (by omega)
    rw [← this]; push_cast; rfl
  · intro x _; exact hR _ _ (Or.inr (Or.inr rfl))
  · intro m' g1 g2
    refine ⟨?_, g1⟩
    rw [g2 _ _ (by rintro ⟨h, _⟩; cases h), Mem.get_same]
    exact congrArg some (show ((ep i : Int) - (A.ptr i : Int) : Int) = _ by omega)

/-- SymGS.cpp:258-269, one row. -/
theorem wp_symFinish {m : Mem (CTy R)} (h : SymHyp m k A ext ep) (hR : ∀ a i, symSrc k a → Rd a i)
    (hR0 : ∀ i, Rd (.itmp 0) i) {i : Nat} (hi : i < A.m) {M : List Nat} (hM : M.Perm (symMiss A ep i))
    (hS : ∀ x : Nat, x ≤ A.m → m (.itmp 0) (x : Int) = some (symStart A ep x : Int))
    (hR4 : Rd (.itmp 4) (i : Int)) (h4 : m (.itmp 4) (i : Int) = some (((ep i - A.ptr i : Nat) : Int) + ((symMiss A ep i).length : Nat)))
    (hRW3 : ∀ x : Int, symStart A ep i ≤ x → x < symStart A ep (i + 1) → Rd (.itmp 3) x ∧ W (.itmp 3) x)
    (hW1 : W (.itmp 1) (i : Int)) (hW2 : W (.itmp 2) (i : Int))
    (hz1 : (A.m : Int) ≤ sz (.itmp 1)) (hz2 : (A.m : Int) ≤ sz (.itmp 2)) (hz3 : (symStart A ep A.m : Int) ≤ sz (.itmp 3))
    (hl : ∀ x : Nat, x < ep i - A.ptr i → m (.itmp 3) ((symStart A ep i : Int) + x) = some (A.col (A.ptr i + x) : Int))
    (hm : ∀ s (hs : s < M.length), m (.itmp 3) ((symStart A ep i : Int) + (ep i - A.ptr i : Nat) + s) = some (M[s] : Int)) :
    wp sz W Rd (symFinish k 0 ext (i : Int)) m (fun _ m' => ∃ L, SymRow m' A ext ep i L) := by
  have hx := h.ext.2.2 i hi
  have hnn := h.wf.ptr_le_nnz (i := i + 1) (by omega)
  have hss := symStart_succ (A := A) (ep := ep) i
  have hsm := symStart_mono (A := A) (ep := ep) (i := i + 1) (j := A.m) (by omega)
  have hMl := hM.length_eq
  unfold symFinish
  simp only [Nat.cast_zero, Int.sub_zero]
  refine wp_rd (symStart A ep i : Int) (hR0 _) (hS i (by omega)) ?_
  refine wp_rd _ hR4 h4 ?_
  rw [wp_bind]
  have hll := locCols_length (A := A) (ep := ep) i
  refine wp_stdSort (l := (locCols A ep i ++ M).map (fun c : Nat => (c : Int))) (by omega) ?_ ?_ ?_ ?_
  · rw [List.length_map, List.length_append, hll, hMl]; push_cast; omega
  · intro _; omega
  · intro q hq
    rw [List.length_map, List.length_append, hll, hMl] at hq
    have := hRW3 ((symStart A ep i : Int) + q) (by omega) (by omega)
    refine ⟨this.1, this.2, ?_⟩
    rw [List.getElem_map]
    by_cases hql : q < ep i - A.ptr i
    · rw [List.getElem_append_left (by rw [hll]; exact hql), locCols_get]; exact hl q hql
    · rw [List.getElem_append_right (by rw [hll]; omega)]
      have := hm (q - (locCols A ep i).length) (by omega)
      rw [← this]
      exact congrArg (m (.itmp 3)) (by omega)
  intro s m2 hp hs hc hf
  -- the sorted list as naturals
  obtain ⟨L, hLp, rfl⟩ : ∃ L : List Nat, L.Perm (locCols A ep i ++ M) ∧ s = L.map (fun c : Nat => (c : Int)) := by
    refine ⟨s.map Int.toNat, ?_, ?_⟩
    · have := hp.map Int.toNat
      rw [List.map_map] at this
      refine this.trans (List.Perm.of_eq ?_)
      conv_rhs => rw [← List.map_id (locCols A ep i ++ M)]
      refine List.map_congr_left ?_
      intro a _; simp
    · rw [List.map_map]
      conv_lhs => rw [← List.map_id s]
      refine List.map_congr_left ?_
      intro a ha
      obtain ⟨b, _, rfl⟩ := List.mem_map.1 (hp.subset ha)
      simp
  have hLl : L.length = (ep i - A.ptr i) + (symMiss A ep i).length := by rw [hLp.length_eq, List.length_append, hll, hMl]
  have h2 : SymHyp m2 k A ext ep := h.transfer (by
    intro a x ha; refine hf a x ?_
    rintro ⟨rfl, _⟩; simp [symSrc] at ha)
  rw [wp_bind]
  refine wp_symBounds h2 hR hi ?_
  refine wp_rd (A.ptr (i + 1) : Int) (hR _ _ (Or.inl rfl)) (h2.pat.rp1 hi) ?_
  rw [wp_bind]
  dsimp only
  refine wp_copySeg (s := symStart A ep i + L.length) (f := ep i) (n := A.ptr (i + 1) - ep i) (by simp) (fun x => (A.col (ep i + x) : Int)) ?_ ?_ ?_ ?_
    (by rw [hLl]; push_cast; omega) rfl (by omega) ?_
  · intro x hx'
    have := h2.pat.col0 (j := ep i + x) (by omega)
    rw [← this]; push_cast; rfl
  · intro x _; exact hR _ _ (Or.inr (Or.inr rfl))
  · intro x hx'; exact (hRW3 _ (by push_cast; omega) (by push_cast; omega)).2
  · push_cast; omega
  intro m3 hc3 hf3
  rw [wp_bind]
  have hcont : ∀ m4 : Mem (CTy R), (ext = true → m4 (.itmp 2) (i : Int) = some ((symStart A ep i : Int) + L.length)) →
      (∀ a x, a ≠ .itmp 2 → m4 a x = m3 a x) →
      wp sz W Rd (do
        let s1 ← Prog.read (ty := CTy R) (.itmp 0) ((i : Int) + 1)
        Prog.forUp (ty := CTy R) (symStart A ep i : Int) (s1 : Int) () fun j _ => do
          let c ← Prog.read (ty := CTy R) (.itmp 3) j
          if (c : Int) = (i : Int) then Prog.write (ty := CTy R) (.itmp 1) (i : Int) j else pure ()) m4 (fun _ m' => ∃ L, SymRow m' A ext ep i L) := by
    intro m4 q1 q2
    have hs1 : m4 (.itmp 0) ((i : Int) + 1) = some (symStart A ep (i + 1) : Int) := by
      rw [q2 _ _ (by simp), hf3 _ _ (by rintro ⟨h, _⟩; cases h), hf _ _ (by rintro ⟨h, _⟩; cases h)]
      exact hS (i + 1) (by omega)
    have hcell : ∀ j : Nat, symStart A ep i ≤ j → j < symStart A ep (i + 1) → ∃ c : Nat, m4 (.itmp 3) (j : Int) = some (c : Int) := by
      intro j hj1 hj2
      rw [q2 _ _ (by simp)]
      by_cases hj : j < symStart A ep i + L.length
      · have := hc (j - symStart A ep i) (by rw [List.length_map]; omega)
        rw [List.getElem_map] at this
        rw [hf3 _ _ (by rintro ⟨_, h, _⟩; push_cast at h; omega)]
        exact ⟨_, by rw [← this]; exact congrArg (m2 (.itmp 3)) (by omega)⟩
      · have := hc3 (j - (symStart A ep i + L.length)) (by omega)
        exact ⟨_, by rw [← this]; exact congrArg (m3 (.itmp 3)) (by push_cast; omega)⟩
    refine wp_rd _ (hR0 _) hs1 ?_
    refine wp_forN (b := 0) (lo := symStart A ep i) (hi := symStart A ep (i + 1)) (fun q _ m' =>
      (∀ a x, a ≠ .itmp 1 → m' a x = m4 a x) ∧
      ((∃ j : Nat, symStart A ep i ≤ j ∧ j < q ∧ m4 (.itmp 3) (j : Int) = some (i : Int)) →
        ∃ j : Nat, symStart A ep i ≤ j ∧ j < q ∧ m4 (.itmp 3) (j : Int) = some (i : Int) ∧ m' (.itmp 1) (i : Int) = some (j : Int))) (by omega) ?_ ?_ ?_ (by simp) (by simp)
    · exact ⟨fun _ _ _ => rfl, by rintro ⟨j, h1, h2, _⟩; omega⟩
    · rintro j _ m5 hj1 hj2 ⟨g1, g2⟩
      rw [Int.add_zero]
      obtain ⟨c, hcj⟩ := hcell j hj1 hj2
      refine wp_rd _ (hRW3 _ (by omega) (by omega)).1 (by rw [g1 _ _ (by simp)]; exact hcj) ?_
      by_cases hci : c = i
      · have qq : (c : Int) = (i : Int) := by omega
        rw [if_pos qq]
        refine wp_wr1 hW1 ⟨by omega, by omega⟩ ⟨?_, ?_⟩
        · intro a x ha; rw [Mem.set_other _ _ _ _ _ ha]; exact g1 a x ha
        · intro _; exact ⟨j, hj1, by omega, by rw [hcj, hci], Mem.get_same _ _ _ _⟩
      · have qq : ¬ (c : Int) = (i : Int) := by omega
        rw [if_neg qq, wp_pure]
        refine ⟨g1, ?_⟩
        rintro ⟨j', e1, e2, e3⟩
        obtain ⟨j2, f1, f2, f3⟩ := g2 ⟨j', e1, by
          rcases Nat.lt_succ_iff_lt_or_eq.1 e2 with hlt | he
          · exact hlt
          · subst he; rw [hcj] at e3; exact absurd (Option.some.inj e3) qq, e3⟩
        exact ⟨j2, f1, by omega, f3⟩
    · rintro _ m5 ⟨g1, g2⟩
      refine ⟨L, hLp.trans (hM.append_left _), ?_, ?_, ?_, ?_, ?_⟩
      · rw [List.pairwise_map] at hs
        exact hs.imp (by intro a b hab; omega)
      · intro q hq
        have := hc q (by rw [List.length_map]; exact hq)
        rw [List.getElem_map] at this
        rw [g1 _ _ (by simp), q2 _ _ (by simp), hf3 _ _ (by rintro ⟨_, h, _⟩; push_cast at h; omega)]
        exact this
      · intro q hq
        rw [g1 _ _ (by simp), q2 _ _ (by simp)]
        have := hc3 q hq
        rw [← this]; push_cast; rfl
      · intro he; rw [g1 _ _ (by simp)]; exact q1 he
      · have g3 : ∀ x, m5 (.itmp 3) x = m4 (.itmp 3) x := fun x => g1 _ _ (by simp)
        simp only [g3]
        exact g2
  cases ext with
  | true =>
    rw [if_pos rfl]
    refine wp_wr1 hW2 ⟨by omega, by omega⟩ ?_
    refine hcont _ (fun _ => ?_) ?_
    · rw [Mem.get_same]
      exact congrArg some (show ((symStart A ep i : Int) + (((ep i - A.ptr i : Nat) : Int) + ((symMiss A ep i).length : Nat)) : Int) = _ by rw [hLl]; push_cast; omega)
    · intro a x ha; rw [Mem.set_other _ _ _ _ _ ha]
  | false =>
    rw [if_neg (by simp), wp_pure]
    exact hcont _ (fun h => by cases h) (fun _ _ _ => rfl)

/-- What getSymmetricNnzPattern leaves behind. -/
structure SymResult (m0 m : Mem (CTy R)) (k : Nat) (A : Csr R) (ext : Bool) (ep : Nat → Nat) (L : Nat → List Nat) : Prop where
  ptr : ∀ i : Nat, i ≤ A.m → m (.itmp 0) (i : Int) = some (symStart A ep i : Int)
  row : ∀ i, i < A.m → SymRow m A ext ep i (L i)
  frame : ∀ a i, (∀ j, a ≠ .itmp j) → m a i = m0 a i

variable (A ep) in
/-- The cells of row `r` of symColIdx. -/
def symSeg (r : Int) (a : CArr) (x : Int) : Prop := a = .itmp 3 ∧ (symStart A ep r.toNat : Int) ≤ x ∧ x < symStart A ep (r.toNat + 1)

omit m0 m1 in
theorem symSeg_disj {r r' : Int} {a : CArr} {x : Int} (h0 : 0 ≤ r) (h0' : 0 ≤ r') (hne : r ≠ r') (h : symSeg A ep r a x) : ¬ symSeg A ep r' a x := by
  rintro ⟨_, g1, g2⟩
  obtain ⟨_, g3, g4⟩ := h
  rcases Int.lt_or_gt_of_ne hne with hlt | hgt
  · have := symStart_mono (A := A) (ep := ep) (i := r.toNat + 1) (j := r'.toNat) (by omega)
    omega
  · have := symStart_mono (A := A) (ep := ep) (i := r'.toNat + 1) (j := r.toNat) (by omega)
    omega

theorem symBuild_ok (hT : 1 ≤ T) (h : SymHyp m1 k A ext ep) (h0 : m1 (.itmp 0) 0 = some (0 : Int))
    (hc : ∀ c : Nat, c < A.m → m1 (.itmp 0) ((c : Int) + 1) = some ((A.ptr (c + 1) - A.ptr c + (symMiss A ep c).length : Nat) : Int)) :
    (symBuild (R := R) sz T k 0 A.m ext).Ok m1 (fun _ m => ∃ L, SymResult m1 m k A ext ep L) := by
  unfold symBuild
  refine seq_rule ?_
  refine wp_symPrefix (S := symStart A ep) h0 rfl (fun i _ => symStart_succ i) hc (by show (A.m : Int) + 1 ≤ A.m + 1; omega) ?_
  intro m2 p1 p2
  refine seq_rule ?_
  rw [wp_read]
  refine ⟨trivial, (symStart A ep A.m : Int), by simpa using p1 A.m (Nat.le_refl _), ?_⟩
  have h2 : SymHyp m2 k A ext ep := h.transfer (by intro a x ha; exact p2 a x (by rintro rfl; simp [symSrc] at ha))
  have hd : ∀ i, i < A.m → ep i - A.ptr i ≤ A.ptr (i + 1) - A.ptr i := by
    intro i hi; have := h.ext.2.2 i hi; omega
  -- forward direction
  refine rows_rule (n := A.m) (off := ((0 : Nat) : Int)) (Rng := SimpleRng T A.m) (simpleRng T A.m hT (by omega))
    (body := fun _ => symForward k 0 ext) (fun _ _ => False)
    (fun r a x => (a = .itmp 4 ∧ x = r) ∨ symSeg A ep r a x)
    (fun r a x => symSrc k a ∨ a = .itmp 0 ∨ (a = .itmp 4 ∧ x = r) ∨ symSeg A ep r a x)
    (fun r m => ∀ i : Nat, r = (i : Int) → m (.itmp 4) (i : Int) = some ((ep i - A.ptr i : Nat) : Int) ∧
      ∀ x : Nat, x < ep i - A.ptr i → m (.itmp 3) ((symStart A ep i : Int) + x) = some (A.col (A.ptr i + x) : Int)) ?_ ?_ ?_ ?_ ?_
  · intro t _; unfold symPart; rw [wp_pure]; exact ⟨rfl, rfl⟩
  · intro r a x _ _ _ h; exact h
  · rintro r r' a x hr0 _ hr0' _ hne hw (hs | rfl | ⟨rfl, rfl⟩ | hs)
    · rcases hw with ⟨rfl, _⟩ | ⟨rfl, _⟩ <;> simp [symSrc] at hs
    · rcases hw with ⟨hw, _⟩ | ⟨hw, _⟩ <;> cases hw
    · rcases hw with ⟨_, hw⟩ | ⟨hw, _⟩
      · exact hne hw.symm
      · cases hw
    · rcases hw with ⟨rfl, _⟩ | hw
      · cases hs.1
      · exact symSeg_disj hr0 hr0' hne hw hs
  · intro t r ht hr0 hr1
    obtain ⟨i, rfl⟩ := Int.eq_ofNat_of_zero_le hr0
    have hi : i < A.m := by omega
    have hss := symStart_succ (A := A) (ep := ep) i
    have hsm := symStart_mono (A := A) (ep := ep) (i := i + 1) (j := A.m) (by omega)
    have hdi := hd i hi
    rw [Nat.cast_zero, Int.add_zero]
    refine wp_mono (wp_symForward (S := symStart A ep i) h2 ?_ ?_ hi (p1 i (by omega)) (Or.inl ⟨rfl, rfl⟩) ?_ (Int.le_refl _) ?_) ?_
    · intro a x ha; exact Or.inl ha
    · intro x; exact Or.inr (Or.inl rfl)
    · intro x hx; exact Or.inr ⟨rfl, by simp, by simp; omega⟩
    · show _ ≤ (symStart A ep A.m : Int)
      omega
    · intro _ m hq j hj
      obtain rfl : i = j := by omega
      exact hq
  intro _ m3 hq3 hf3
  have hf3' : ∀ a x, a ≠ .itmp 3 → a ≠ .itmp 4 → m3 a x = m2 a x := by
    intro a x ha hb
    refine hf3 a x ?_
    rintro r _ _ (⟨rfl, _⟩ | ⟨rfl, _⟩)
    · exact hb rfl
    · exact ha rfl
  have hq3' : ∀ i, i < A.m → m3 (.itmp 4) (i : Int) = some ((ep i - A.ptr i : Nat) : Int) ∧
      ∀ x : Nat, x < ep i - A.ptr i → m3 (.itmp 3) ((symStart A ep i : Int) + x) = some (A.col (A.ptr i + x) : Int) := by
    intro i hi
    obtain ⟨mt, g1, g2⟩ := hq3 (i : Int) (by omega) (by omega)
    have g1 := g1 i rfl
    have hss := symStart_succ (A := A) (ep := ep) i
    have hdi := hd i hi
    refine ⟨?_, ?_⟩
    · rw [g2 _ _ (Or.inr (Or.inr (Or.inl ⟨rfl, rfl⟩)))]; exact g1.1
    · intro x hx
      rw [g2 _ _ (Or.inr (Or.inr (Or.inr ⟨rfl, by simp, by simp; omega⟩)))]; exact g1.2 x hx
  have h3 : SymHyp m3 k A ext ep := h2.transfer (by
    intro a x ha
    refine hf3' a x ?_ ?_ <;> (rintro rfl; simp [symSrc] at ha))
  have hp3 : ∀ i : Nat, i ≤ A.m → m3 (.itmp 0) (i : Int) = some (symStart A ep i : Int) := by
    intro i hi; rw [hf3' _ _ (by simp) (by simp)]; exact p1 i hi
  -- backward direction
  refine ParOk.mono (symPut_par (D := fun c => ep c - A.ptr c) (Sl := symStart A ep) hT h3 ?_ (fun c hc => hp3 c (by omega)) (Int.le_refl _) ?_ ?_) ?_
  · intro c hc; rw [Nat.cast_zero, Int.add_zero]; exact (hq3' c hc).1
  · intro c c' s s' hc hc' hs hs' he
    rw [bkN_sym hT] at hs hs'
    dsimp only at he
    have h1 := hd c hc
    have h1' := hd c' hc'
    have hss := symStart_succ (A := A) (ep := ep) c
    have hss' := symStart_succ (A := A) (ep := ep) c'
    rcases Nat.lt_trichotomy c c' with hlt | heq | hgt
    · have := symStart_mono (A := A) (ep := ep) (i := c + 1) (j := c') (by omega)
      omega
    · exact heq
    · have := symStart_mono (A := A) (ep := ep) (i := c' + 1) (j := c) (by omega)
      omega
  · intro c s hc hs
    rw [bkN_sym hT] at hs
    have h1 := hd c hc
    have hss := symStart_succ (A := A) (ep := ep) c
    have := symStart_mono (A := A) (ep := ep) (i := c + 1) (j := A.m) (by omega)
    show _ < (symStart A ep A.m : Int)
    omega
  rintro _ m4 ⟨hD, _⟩
  have hf4 : ∀ a x, a ≠ .itmp 3 → a ≠ .itmp 4 → m4 a x = m3 a x := by
    intro a x ha hb
    exact hD.frame a x (fun h => hb h.1) (fun h => ha h.2.1)
  have h4 : SymHyp m4 k A ext ep := h3.transfer (by
    intro a x ha
    refine hf4 a x ?_ ?_ <;> (rintro rfl; simp [symSrc] at ha))
  have hp4 : ∀ i : Nat, i ≤ A.m → m4 (.itmp 0) (i : Int) = some (symStart A ep i : Int) := by
    intro i hi; rw [hf4 _ _ (by simp) (by simp)]; exact hp3 i hi
  have hloc4 : ∀ i, i < A.m → ∀ x : Nat, x < ep i - A.ptr i → m4 (.itmp 3) ((symStart A ep i : Int) + x) = some (A.col (A.ptr i + x) : Int) := by
    intro i hi x hx
    rw [hD.frame _ _ (by rintro ⟨h, _⟩; cases h) ?_]
    · exact (hq3' i hi).2 x hx
    · rintro ⟨_, _, c, s, hc, hs, he⟩
      rw [bkN_sym hT] at hs
      have h1 := hd c hc
      have h1' := hd i hi
      have hss := symStart_succ (A := A) (ep := ep) c
      have hss' := symStart_succ (A := A) (ep := ep) i
      rcases Nat.lt_trichotomy c i with hlt | heq | hgt
      · have := symStart_mono (A := A) (ep := ep) (i := c + 1) (j := i) (by omega)
        omega
      · subst heq; omega
      · have := symStart_mono (A := A) (ep := ep) (i := i + 1) (j := c) (by omega)
        omega
  -- sort, copy the external part, diagonal
  refine rows_rule (n := A.m) (off := ((0 : Nat) : Int)) (Rng := SimpleRng T A.m) (simpleRng T A.m hT (by omega))
    (body := fun _ => symFinish k 0 ext) (fun _ _ => False)
    (fun r a x => (a = .itmp 1 ∧ x = r) ∨ (a = .itmp 2 ∧ x = r) ∨ symSeg A ep r a x)
    (fun r a x => symSrc k a ∨ a = .itmp 0 ∨ (a = .itmp 4 ∧ x = r) ∨ (a = .itmp 1 ∧ x = r) ∨ (a = .itmp 2 ∧ x = r) ∨ symSeg A ep r a x)
    (fun r m => ∀ i : Nat, r = (i : Int) → ∃ L, SymRow m A ext ep i L) ?_ ?_ ?_ ?_ ?_
  · intro t _; unfold symPart; rw [wp_pure]; exact ⟨rfl, rfl⟩
  · intro r a x _ _ _ h; exact h
  · rintro r r' a x hr0 _ hr0' _ hne hw (hs | rfl | ⟨rfl, rfl⟩ | ⟨rfl, rfl⟩ | ⟨rfl, rfl⟩ | hs)
    · rcases hw with ⟨rfl, _⟩ | ⟨rfl, _⟩ | ⟨rfl, _⟩ <;> simp [symSrc] at hs
    · rcases hw with ⟨hw, _⟩ | ⟨hw, _⟩ | ⟨hw, _⟩ <;> cases hw
    · rcases hw with ⟨hw, _⟩ | ⟨hw, _⟩ | ⟨hw, _⟩ <;> cases hw
    · rcases hw with ⟨_, hw⟩ | ⟨hw, _⟩ | ⟨hw, _⟩
      · exact hne hw.symm
      · cases hw
      · cases hw
    · rcases hw with ⟨hw, _⟩ | ⟨_, hw⟩ | ⟨hw, _⟩
      · cases hw
      · exact hne hw.symm
      · cases hw
    · rcases hw with ⟨rfl, _⟩ | ⟨rfl, _⟩ | hw
      · cases hs.1
      · cases hs.1
      · exact symSeg_disj hr0 hr0' hne hw hs
  · intro t r ht hr0 hr1
    obtain ⟨i, rfl⟩ := Int.eq_ofNat_of_zero_le hr0
    have hi : i < A.m := by omega
    obtain ⟨M, hM1, hM2⟩ := hD.slot rfl i hi
    rw [symThr_all hT] at hM1
    have hct := hD.ctr i hi
    rw [Nat.cast_zero, Int.add_zero, bkN_sym hT] at hct
    rw [Nat.cast_zero, Int.add_zero]
    refine wp_mono (wp_symFinish (M := M) h4 ?_ ?_ hi hM1 hp4 ?_ hct ?_ ?_ ?_ ?_ ?_ (Int.le_refl _) (hloc4 i hi) hM2) ?_
    · intro a x ha; exact Or.inl ha
    · intro x; exact Or.inr (Or.inl rfl)
    · exact Or.inr (Or.inr (Or.inl ⟨rfl, rfl⟩))
    · intro x hx1 hx2
      have : symSeg A ep (i : Int) (.itmp 3) x := ⟨rfl, hx1, hx2⟩
      exact ⟨Or.inr (Or.inr (Or.inr (Or.inr (Or.inr this)))), Or.inr (Or.inr this)⟩
    · exact Or.inl ⟨rfl, rfl⟩
    · exact Or.inr (Or.inl ⟨rfl, rfl⟩)
    · show (A.m : Int) ≤ A.m + 1
      omega
    · show (A.m : Int) ≤ A.m + 1
      omega
    · intro _ m hq j hj
      obtain rfl : i = j := by omega
      exact hq
  intro _ m5 hq5 hf5
  have hf5' : ∀ a x, a ≠ .itmp 1 → a ≠ .itmp 2 → a ≠ .itmp 3 → m5 a x = m4 a x := by
    intro a x h1 h2 h3
    refine hf5 a x ?_
    rintro r _ _ (⟨rfl, _⟩ | ⟨rfl, _⟩ | ⟨rfl, _⟩)
    · exact h1 rfl
    · exact h2 rfl
    · exact h3 rfl
  refine Script.ok_done_of ?_
  have hrow : ∀ i, ∃ L, i < A.m → SymRow m5 A ext ep i L := by
    intro i
    by_cases hi : i < A.m
    · obtain ⟨mt, g1, g2⟩ := hq5 (i : Int) (by omega) (by omega)
      obtain ⟨L, r1, r2, r3, r4, r5, r6⟩ := g1 i rfl
      refine ⟨L, fun _ => ?_⟩
      have hss := symStart_succ (A := A) (ep := ep) i
      have hx := h.ext.2.2 i hi
      have hLl := r1.length_eq
      rw [List.length_append, locCols_length] at hLl
      have hseg : ∀ x : Int, (symStart A ep i : Int) ≤ x → x < symStart A ep (i + 1) → m5 (.itmp 3) x = mt (.itmp 3) x :=
        fun x hx1 hx2 => g2 _ _ (Or.inr (Or.inr (Or.inr (Or.inr (Or.inr ⟨rfl, hx1, hx2⟩)))))
      refine ⟨r1, r2, ?_, ?_, ?_, ?_⟩
      · intro q hq; rw [hseg _ (by omega) (by omega)]; exact r3 q hq
      · intro q hq; rw [hseg _ (by omega) (by omega)]; exact r4 q hq
      · intro he; rw [g2 _ _ (Or.inr (Or.inr (Or.inr (Or.inr (Or.inl ⟨rfl, rfl⟩)))))]; exact r5 he
      · rintro ⟨j, j1, j2, j3⟩
        rw [hseg _ (by omega) (by omega)] at j3
        obtain ⟨j', k1, k2, k3, k4⟩ := r6 ⟨j, j1, j2, j3⟩
        refine ⟨j', k1, k2, ?_, ?_⟩
        · rw [hseg _ (by omega) (by omega)]; exact k3
        · rw [g2 _ _ (Or.inr (Or.inr (Or.inr (Or.inl ⟨rfl, rfl⟩))))]; exact k4
    · exact ⟨[], fun h => absurd h hi⟩
  choose L hL using hrow
  refine ⟨L, ?_, hL, ?_⟩
  · intro i hi
    rw [hf5' _ _ (by simp) (by simp) (by simp)]; exact hp4 i hi
  · intro a x ha
    rw [hf5' _ _ (ha 1) (ha 2) (ha 3), hf4 _ _ (ha 3) (ha 4), hf3' _ _ (ha 3) (ha 4), p2 _ _ (ha 0)]

/-- SymGS.cpp:120-314, base 0. -/
theorem symPattern_ok (hT : 1 ≤ T) (h : SymHyp m0 k A ext ep) :
    (symPattern (R := R) sz T k A.m ext).Ok m0 (fun r m => (r = true ↔ symAll A ep = []) ∧ (∀ a i, (∀ j, a ≠ .itmp j) → m a i = m0 a i) ∧
      (r = false → ∃ L, SymResult m0 m k A ext ep L)) := by
  unfold symPattern
  refine seq_rule ?_
  rw [wp_read]
  refine ⟨trivial, _, h.pat.rowptr 0 (by omega), ?_⟩
  have hb : ((A.ptr 0 : Int) + ((0 : Nat) : Int)).toNat = 0 := by rw [h.wf.ptr_zero]; rfl
  dsimp only
  rw [hb]
  refine seq_rule ?_
  refine wp_wr1 trivial ⟨by omega, by show (0 : Int) < A.m + 1; omega⟩ ?_
  let m1 : Mem (CTy R) := m0.set (.itmp 0) 0 ((0 : Nat) : Int)
  have hm1 : ∀ a x, a ≠ .itmp 0 → m1 a x = m0 a x := fun a x ha => congrFun (Mem.set_other _ _ _ _ _ ha) _
  have h1 : SymHyp m1 k A ext ep := h.transfer (by intro a x ha; exact hm1 a x (by rintro rfl; simp [symSrc] at ha))
  refine rows_rule (n := A.m) (off := ((0 : Nat) : Int)) (Rng := SimpleRng T A.m) (simpleRng T A.m hT (by omega)) (m0 := m1)
    (body := fun _ => symDeg k 0) (fun _ _ => False)
    (fun r a x => a = .itmp 0 ∧ x = r + 1)
    (fun r a x => symSrc k a ∨ (a = .itmp 0 ∧ x = r + 1))
    (fun r m => ∀ i : Nat, r = (i : Int) → m (.itmp 0) ((i : Int) + 1) = some ((A.ptr (i + 1) - A.ptr i : Nat) : Int)) ?_ ?_ ?_ ?_ ?_
  · intro t _; unfold symPart; rw [wp_pure]; exact ⟨rfl, rfl⟩
  · intro r a x _ _ _ h; exact h
  · rintro r r' a x hr0 _ hr0' _ hne ⟨rfl, hw⟩ (hs | ⟨_, hs⟩)
    · simp [symSrc] at hs
    · omega
  · intro t r ht hr0 hr1
    obtain ⟨i, rfl⟩ := Int.eq_ofNat_of_zero_le hr0
    rw [Nat.cast_zero, Int.add_zero]
    refine wp_mono (wp_symDeg h1 (fun a x ha => Or.inl ha) (by omega) (W := fun a x => a = .itmp 0 ∧ x = (i : Int) + 1) ⟨rfl, rfl⟩ (Int.le_refl _)) ?_
    intro _ m hq j hj
    obtain rfl : i = j := by omega
    exact hq
  intro _ m2 hq2 hf2
  have hf2' : ∀ a x, a ≠ .itmp 0 → m2 a x = m1 a x := by
    intro a x ha
    refine hf2 a x ?_
    rintro r _ _ ⟨rfl, _⟩; exact ha rfl
  have hz2 : m2 (.itmp 0) 0 = some (0 : Int) := by
    rw [hf2 _ _ (by rintro r h1 h2 ⟨_, h⟩; omega)]; exact Mem.get_same _ _ _ _
  have hd2 : ∀ c : Nat, c < A.m → m2 (.itmp 0) ((c : Int) + (1 : Nat)) = some ((A.ptr (c + 1) - A.ptr c : Nat) : Int) := by
    intro c hc
    obtain ⟨mt, g1, g2⟩ := hq2 (c : Int) (by omega) (by omega)
    rw [Nat.cast_one, g2 _ _ (Or.inr ⟨rfl, rfl⟩)]; exact g1 c rfl
  have h2 : SymHyp m2 k A ext ep := h1.transfer (by intro a x ha; exact hf2' a x (by rintro rfl; simp [symSrc] at ha))
  refine ParOk.mono (symCount_par (D := fun c => A.ptr (c + 1) - A.ptr c) hT h2 hd2 (Int.le_refl _)) ?_
  rintro r m3 ⟨hD, hr⟩
  have hfr : ∀ a x, a ≠ .itmp 0 → m3 a x = m0 a x := by
    intro a x ha
    rw [hD.frame a x (fun h => ha h.1) (fun h => by cases h.1), hf2' _ _ ha, hm1 _ _ ha]
  dsimp only
  by_cases hall : (List.range T).all r = true
  · rw [if_pos hall]
    refine Script.ok_done_of ⟨by simpa using hr.1 hall, fun a x ha => hfr a x (ha 0), fun h => by cases h⟩
  · rw [if_neg hall, Script.ok_bind]
    have h3 : SymHyp m3 k A ext ep := h.transfer (by intro a x ha; exact hfr a x (by rintro rfl; simp [symSrc] at ha))
    refine Script.Ok.mono (symBuild_ok hT h3 ?_ ?_) ?_
    · rw [hD.frame _ _ (by rintro ⟨_, c, _, h⟩; omega) (fun h => by cases h.1)]; exact hz2
    · intro c hc
      have := hD.ctr c hc
      rw [bkN_sym hT] at this
      rw [Nat.cast_one] at this
      rw [this]; push_cast; rfl
    · rintro _ m4 ⟨L, hL⟩
      refine Script.ok_done_of ⟨?_, ?_, fun _ => ⟨L, hL.ptr, hL.row, ?_⟩⟩
      · rw [← hr]; simpa using hall
      · intro a x ha; rw [hL.frame a x ha, hfr a x (ha 0)]
      · intro a x ha; rw [hL.frame a x ha, hfr a x (ha 0)]

end

end SpMP
