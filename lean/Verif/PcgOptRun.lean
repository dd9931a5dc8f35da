import Verif.PcgOptMath
import Verif.PcgOptSolve
import Verif.PcgIluRun
/-
The proof that pcg_symgs_opt and pcg_ilu0_opt follow the textbook method on the original system. Models no function.
-/
namespace SpMP
open Spec

set_option linter.unusedSectionVars false

variable {R : Type} [Races CArr]

section ring
variable [CommRing R] {sz : CArr → Int} {m : Mem (CTy R)}

theorem storePerms_ok {S : Schedule} (hq : IsPermFn S.m S.perm) (h0 : (S.m : Int) ≤ sz (.itmp 0)) (h1 : (S.m : Int) ≤ sz (.itmp 1)) :
    (storePerms sz S).Ok m (fun _ m' => (∀ i : Nat, i < S.m → m' (.itmp 0) (i : Int) = some ((S.perm i : Nat) : Int)) ∧
      (∀ i : Nat, i < S.m → m' (.itmp 1) (S.perm i : Int) = some ((i : Nat) : Int)) ∧ ∀ a, a ≠ .itmp 0 → a ≠ .itmp 1 → m' a = m a) := by
  unfold storePerms
  refine par_rule
    (W := fun t b i => (b = .itmp 0 ∧ i = (t : Int)) ∨ (b = .itmp 1 ∧ i = (S.perm t : Int)))
    (R := fun t b i => (b = .itmp 0 ∧ i = (t : Int)) ∨ (b = .itmp 1 ∧ i = (S.perm t : Int)))
    (Q := fun t _ m' => m' (.itmp 0) (t : Int) = some ((S.perm t : Nat) : Int) ∧ m' (.itmp 1) (S.perm t : Int) = some ((t : Nat) : Int)) ?_ ?_ ?_
  · rintro t u b i ht hu htu (⟨rfl, rfl⟩ | ⟨rfl, rfl⟩) (⟨h, h'⟩ | ⟨h, h'⟩)
    · omega
    · cases h
    · cases h
    · exact htu (hq.2 t u ht hu (by omega))
  · intro t ht
    have := hq.1 t ht
    rw [wp_bind]
    refine wp_write.2 ⟨Or.inl ⟨rfl, rfl⟩, by omega, by omega, ?_⟩
    refine wp_write.2 ⟨Or.inr ⟨rfl, rfl⟩, by omega, by omega, ?_⟩
    refine ⟨?_, Mem.get_same _ _ _ _⟩
    rw [Mem.set_other _ _ _ _ _ (by simp)]
    exact Mem.get_same _ _ _ _
  · intro _ m' hQ hf
    refine Script.ok_done_of ⟨?_, ?_, ?_⟩
    · intro i hi
      obtain ⟨mt, g1, g2⟩ := hQ i hi
      rw [g2 _ _ (Or.inl ⟨rfl, rfl⟩)]; exact g1.1
    · intro i hi
      obtain ⟨mt, g1, g2⟩ := hQ i hi
      rw [g2 _ _ (Or.inr ⟨rfl, rfl⟩)]; exact g1.2
    · intro a ha0 ha1
      funext i
      refine hf a i ?_
      rintro t _ (⟨h, _⟩ | ⟨h, _⟩)
      · exact ha0 h
      · exact ha1 h

theorem reorderVec_ok {n dst src ip : Nat} {f : Nat → Nat} {v : Nat → R} (hne : dst ≠ src)
    (hq : ∀ i : Nat, i < n → m (.itmp ip) (i : Int) = some ((f i : Nat) : Int)) (hf : ∀ i, i < n → f i < n) (hv : VecIs m src n v)
    (hsz : (n : Int) ≤ sz (.vec dst)) :
    (reorderVec sz n dst src ip).Ok m (fun _ m' => VecIs m' dst n (fun i => v (f i)) ∧ ∀ a, a ≠ .vec dst → m' a = m a) := by
  unfold reorderVec
  refine par_rule
    (W := fun t b i => b = .vec dst ∧ i = (t : Int)) (R := fun t b i => b = .itmp ip ∨ b = .vec src ∨ (b = .vec dst ∧ i = (t : Int)))
    (Q := fun t _ m' => m' (.vec dst) (t : Int) = some (v (f t))) ?_ ?_ ?_
  · rintro t u b i ht hu htu ⟨rfl, rfl⟩ (h | h | ⟨_, h⟩)
    · cases h
    · exact hne (by simpa using h)
    · omega
  · intro t ht
    have := hf t ht
    refine wp_rd _ (Or.inl rfl) (hq t ht) ?_
    rw [wp_bind, wp_assert]
    refine ⟨⟨by omega, by omega⟩, ?_⟩
    refine wp_rd _ (Or.inr (Or.inl rfl)) (hv _ this) ?_
    refine wp_write.2 ⟨⟨rfl, rfl⟩, by omega, by omega, ?_⟩
    exact Mem.get_same _ _ _ _
  · intro _ m' hQ hfr
    refine Script.ok_done_of ⟨?_, ?_⟩
    · intro i hi
      obtain ⟨mt, g1, g2⟩ := hQ i hi
      rw [g2 _ _ (Or.inr (Or.inr ⟨rfl, rfl⟩))]; exact g1
    · intro a ha
      funext i
      refine hfr a i ?_
      rintro t _ ⟨h, _⟩
      exact ha h

/-- permute, for a square matrix without external columns. -/
theorem permObj_ok {T k k2 : Nat} {A : Csr R} {o : Opt} {dbg : Bool} {p q : Nat → Nat} (htol : Races.tol (CArr.rowptr k2) (A.m : Int))
    (hT : 1 ≤ T) (hk : k ≠ k2) (hwf : A.WF) (hsq : A.n = A.m) (hval : o.values = true) (hext : o.extptr = false)
    (hdg : o.diagptr = true → ∀ i, i < A.m → ∃ j, A.InRow i j ∧ A.col j = i)
    (hp : HoldsPat m k 0 A) (hv : HoldsVal m k A) (hid : o.idiag = true → ∀ i : Nat, i < A.m → ∃ v, m (.idiag k) (i : Int) = some v)
    (hi : InvPerms A.m p q) (h0 : ∀ i : Nat, i < A.m → m (.itmp 0) (i : Int) = some ((q i : Nat) : Int))
    (h1 : ∀ i : Nat, i < A.m → m (.itmp 1) (i : Int) = some ((p i : Nat) : Int)) :
    (permute sz T k k2 A.m o dbg true false).Ok m (fun _ m' => (∃ B, PermCsr p q A B ∧ HoldsPat m' k2 0 B ∧ HoldsVal m' k2 B ∧
      (o.idiag = true → ∀ i : Nat, i < A.m → m' (.idiag k2) (i : Int) = m (.idiag k) (q i : Int))) ∧ ∀ a, ¬ a.ofObj k2 → m' a = m a) := by
  have hqp : IsPermFn A.m q := ⟨hi.q_lt, fun i j a b e => by rw [← hi.pq i a, ← hi.pq j b, e]⟩
  have hh : PermHyp m k k2 0 A.m A o true false (fun i => A.ptr (i + 1)) q p := by
    refine ⟨hk, hwf, hp, fun _ => hv, ⟨by simp [hext], fun _ _ _ => rfl, fun i hi => ⟨hwf.ptr_mono (by omega) hi, Nat.le_refl _⟩⟩,
      ⟨fun _ => h0, by simp⟩, hqp, h1, hi.perm, by omega, ?_, ?_, hid, fun _ _ _ => rfl, by simp⟩
    · intro i j him g1 g2
      have : A.InRow i j := ⟨him, g1, g2⟩
      rw [← hsq]; exact hwf.col_lt j (this.lt_nnz hwf)
    · intro hd i him
      obtain ⟨j, g1, g2⟩ := hdg hd i him
      exact ⟨j, g1.2.1, g1.2.2, g2⟩
  refine Script.Ok.mono (permute_ok htol hh hT (Or.inl rfl) (fun _ => Or.inl rfl)) ?_
  rintro _ m' ⟨⟨B, b1, b2, b3, b4, b5, b6⟩, hfr⟩
  refine ⟨⟨B, ⟨b3, b1, b2, fun i him => ?_⟩, b4, b5 hval, fun ho i him => ?_⟩, hfr⟩
  · obtain ⟨L, l1, _, l3, _⟩ := b6 i him
    rw [l1, l3 rfl]
    unfold locRow extRow
    have hle : (A.row (q i)).length ≤ A.ptr (q i + 1) - A.ptr (q i) := by rw [Csr.row_length]
    rw [List.take_of_length_le hle, List.drop_eq_nil_of_le hle, List.append_nil]
  · obtain ⟨L, _, _, _, _, _, l6, _⟩ := b6 i him
    exact l6 ho

end ring

section run
variable [Field R] [LinearOrder R] [IsStrictOrderedRing R]
variable {S : Schedule} {sz : CArr → Int} {sh : Nat → Share} {nrm : R → R} {tol : R} {A : Csr R} {M : (Nat → R) → (Nat → R) → Prop}
  {b x0 : Nat → R}

/-- The part common to the two solvers. -/
theorem pcgReordered_ok {o ou : Opt} {dbg : Bool} {bv maxiter : Nat} {m0 : Mem (CTy R)} {lvl : Nat → Nat} {L U : Csr R} {el eu : Nat → R}
    (htol : ∀ k, k ∈ [4, 5, 6] → Races.tol (CArr.rowptr k) (A.m : Int)) (hS : S.Tiling) (hl : S.Levelled lvl) (hT : 1 ≤ S.T) (hSm : S.m = A.m)
    (hcf : S.CoversFwd A.Nbr) (hcb : S.CoversBwd A.Nbr) (hwf : A.WF) (hsq : A.n = A.m) (hpd : A.PosDef) (hM : Precond A.m M)
    (ho : o.values = true ∧ o.extptr = false) (hou : ou = ⟨true, false, true, false, false⟩)
    (hdg : o.diagptr = true → ∀ i, i < A.m → ∃ j, A.InRow i j ∧ A.col j = i)
    (hid : o.idiag = true → ∀ i : Nat, i < A.m → ∃ v, m0 (.idiag 0) (i : Int) = some v)
    (hp : HoldsPat m0 0 0 A) (hv : HoldsVal m0 0 A) (hobj : TriObj m0 1 2 A.m L U el eu)
    (hlow : ∀ i j, L.InRow i j → L.col j < i ∧ A.Nbr i (L.col j)) (hup : ∀ i j, U.InRow i j → i < U.col j ∧ A.Nbr i (U.col j))
    (hpre : ∀ z r, TriSolve A.m L U el eu z r → M z r)
    (hvx : VecIs m0 0 A.m x0) (hvb : VecIs m0 bv A.m b) (hbv : bv ≠ 8 ∧ bv ≠ 10) (hr0 : ∃ i, i < A.m ∧ b i ≠ A.mulVec x0 i)
    (hsh : ∀ n, (sh n).Covers S.T A.m) (hn0 : nrm 0 = 0) (hnp : ∀ v, 0 < v → 0 < nrm v) (htl : 0 < tol)
    (hsz : ∀ j, j ∈ [0, 2, 3, 4, 5, 6, 8, 10] → (A.m : Int) ≤ sz (.vec j)) (hf : (S.ntasks : Int) ≤ sz (.itmp 0))
    (hs0 : (A.m : Int) ≤ sz (.itmp 0)) (hs1 : (A.m : Int) ≤ sz (.itmp 1)) :
    (pcgReordered sz S A.m o ou dbg bv sh nrm tol maxiter).Ok m0 (fun res m' =>
      (∃ xf, VecIs m' 0 A.m xf ∧ PcgEnds A M b x0 nrm tol maxiter res xf) ∧
      ∀ a, ¬ a.ofObj 4 → ¬ a.ofObj 5 → ¬ a.ofObj 6 → a ≠ .itmp 0 → a ≠ .itmp 1 →
        (∀ j, a = .vec j → j ∉ [0, 2, 3, 4, 5, 6, 7, 8, 10]) → m' a = m0 a) := by
  obtain ⟨p, hi⟩ := InvPerms.of_perm hS.perm
  rw [hSm] at hi
  obtain ⟨l1, u1, l2, u2, ln, un, l3, l4, u4, u5, l6, u8⟩ := hobj
  unfold pcgReordered
  rw [Script.ok_bind]
  refine Script.Ok.mono (storePerms_ok hS.perm (by rw [hSm]; exact hs0) (by rw [hSm]; exact hs1)) ?_
  rintro _ m1 ⟨a1, a2, a3⟩
  rw [hSm] at a1 a2
  have a2 : ∀ i : Nat, i < A.m → m1 (.itmp 1) (i : Int) = some ((p i : Nat) : Int) := by
    intro i him
    have := a2 (p i) (hi.p_lt i him)
    rw [hi.qp i him] at this
    exact this
  rw [Script.ok_bind]
  refine Script.Ok.mono (permObj_ok (htol 4 (by simp)) hT (by omega) hwf hsq ho.1 ho.2 hdg (hp.of_eq (a3 _ (by simp) (by simp)) (a3 _ (by simp) (by simp)))
    (hv.of_eq (a3 _ (by simp) (by simp))) (fun h i him => by rw [a3 _ (by simp) (by simp)]; exact hid h i him) hi a1 a2) ?_
  rintro _ m2 ⟨⟨A', b1, b2, b3, _⟩, b5⟩
  rw [Script.ok_bind, ← l2]
  refine Script.Ok.mono (permObj_ok (A := L) (p := p) (q := S.perm) (by rw [l2]; exact htol 5 (by simp)) hT (by omega) l1 (by omega) rfl rfl (by simp)
    (l3.of_eq (by rw [b5 _ (by simp [CArr.ofObj]), a3 _ (by simp) (by simp)]) (by rw [b5 _ (by simp [CArr.ofObj]), a3 _ (by simp) (by simp)]))
    (l4.of_eq (by rw [b5 _ (by simp [CArr.ofObj]), a3 _ (by simp) (by simp)]))
    (fun _ i him => ⟨el i, by rw [b5 _ (by simp [CArr.ofObj]), a3 _ (by simp) (by simp)]; exact l6 i (by omega)⟩) (by rw [l2]; exact hi)
    (fun i him => by rw [b5 _ (by simp [CArr.ofObj])]; exact a1 i (by omega)) (fun i him => by rw [b5 _ (by simp [CArr.ofObj])]; exact a2 i (by omega))) ?_
  rw [l2]
  rintro _ m3 ⟨⟨L', c1, c2, c3, c4⟩, c5⟩
  rw [Script.ok_bind, ← u2, hou]
  refine Script.Ok.mono (permObj_ok (A := U) (p := p) (q := S.perm) (by rw [u2]; exact htol 6 (by simp)) hT (by omega) u1 (by omega) rfl rfl (by simp)
    (u4.of_eq (by rw [c5 _ (by simp [CArr.ofObj]), b5 _ (by simp [CArr.ofObj]), a3 _ (by simp) (by simp)])
      (by rw [c5 _ (by simp [CArr.ofObj]), b5 _ (by simp [CArr.ofObj]), a3 _ (by simp) (by simp)]))
    (u5.of_eq (by rw [c5 _ (by simp [CArr.ofObj]), b5 _ (by simp [CArr.ofObj]), a3 _ (by simp) (by simp)]))
    (fun _ i him => ⟨eu i, by rw [c5 _ (by simp [CArr.ofObj]), b5 _ (by simp [CArr.ofObj]), a3 _ (by simp) (by simp)]; exact u8 i (by omega)⟩)
    (by rw [u2]; exact hi)
    (fun i him => by rw [c5 _ (by simp [CArr.ofObj]), b5 _ (by simp [CArr.ofObj])]; exact a1 i (by omega))
    (fun i him => by rw [c5 _ (by simp [CArr.ofObj]), b5 _ (by simp [CArr.ofObj])]; exact a2 i (by omega))) ?_
  rw [u2]
  rintro _ m4 ⟨⟨U', d1, d2, d3, d4⟩, d5⟩
  have g4 : ∀ a, ¬ a.ofObj 4 → ¬ a.ofObj 5 → ¬ a.ofObj 6 → m4 a = m1 a := fun a h1 h2 h3 => by rw [d5 a h3, c5 a h2, b5 a h1]
  have hv4 : ∀ j, m4 (.vec j) = m0 (.vec j) := fun j => by
    rw [g4 _ (by simp [CArr.ofObj]) (by simp [CArr.ofObj]) (by simp [CArr.ofObj]), a3 _ (by simp) (by simp)]
  have hi0 : ∀ i : Nat, i < A.m → m4 (.itmp 0) (i : Int) = some ((S.perm i : Nat) : Int) := fun i him => by
    rw [g4 _ (by simp [CArr.ofObj]) (by simp [CArr.ofObj]) (by simp [CArr.ofObj])]; exact a1 i him
  have hi1 : ∀ i : Nat, i < A.m → m4 (.itmp 1) (i : Int) = some ((p i : Nat) : Int) := fun i him => by
    rw [g4 _ (by simp [CArr.ofObj]) (by simp [CArr.ofObj]) (by simp [CArr.ofObj])]; exact a2 i him
  have hql : ∀ i, i < A.m → S.perm i < A.m := hi.q_lt
  rw [Script.ok_bind]
  refine Script.Ok.mono (reorderVec_ok (v := b) (Ne.symm hbv.2) hi0 hql (VecIs.frame hvb (hv4 bv)) (hsz 10 (by simp))) ?_
  rintro _ m5 ⟨e1, e2⟩
  rw [Script.ok_bind]
  refine Script.Ok.mono (reorderVec_ok (v := x0) (f := S.perm) (by omega) (fun i him => by rw [e2 _ (by simp)]; exact hi0 i him) hql
    (VecIs.frame hvx (by rw [e2 _ (by simp), hv4])) (hsz 8 (by simp))) ?_
  rintro _ m6 ⟨f1, f2⟩
  have g6 : ∀ a, (∀ j, a ≠ .vec j) → m6 a = m4 a := fun a h => by rw [f2 _ (h 8), e2 _ (h 10)]
  have hobj' : TriObj m6 5 6 A.m L' U' (fun i => el (S.perm i)) (fun i => eu (S.perm i)) := by
    have hfr : ∀ a, (∀ j, a ≠ .vec j) → ¬ a.ofObj 6 → m6 a = m3 a := fun a h h' => by rw [g6 a h, d5 a h']
    refine ⟨c1.wf, d1.wf, by rw [c1.m, l2], by rw [d1.m, u2], by rw [c1.n, ln], by rw [d1.n, un],
      c2.of_eq (hfr _ (by simp) (by simp [CArr.ofObj])) (hfr _ (by simp) (by simp [CArr.ofObj])), c3.of_eq (hfr _ (by simp) (by simp [CArr.ofObj])),
      d2.of_eq (g6 _ (by simp)) (g6 _ (by simp)), d3.of_eq (g6 _ (by simp)), fun i him => ?_, fun i him => ?_⟩
    · rw [hfr _ (by simp) (by simp [CArr.ofObj]), c4 rfl i him, b5 _ (by simp [CArr.ofObj]), a3 _ (by simp) (by simp)]
      exact l6 _ (hql i him)
    · rw [g6 _ (by simp), d4 rfl i him, c5 _ (by simp [CArr.ofObj]), b5 _ (by simp [CArr.ofObj]), a3 _ (by simp) (by simp)]
      exact u8 _ (hql i him)
  have hA'm : A'.m = A.m := b1.m
  have hLq : ∀ i j, L'.InRow i j → ∃ j', L.InRow (S.perm i) j' ∧ L'.col j = p (L.col j') ∧ L.col j' < A.m := by
    intro i j hj
    have him : i < A.m := by have := hj.1; rw [c1.m, l2] at this; exact this
    obtain ⟨j', h1, h2⟩ := c1.entry hj (by rw [l2]; exact hql i him)
    exact ⟨j', h1, h2, by rw [← ln]; exact l1.col_lt j' (h1.lt_nnz l1)⟩
  have hUq : ∀ i j, U'.InRow i j → ∃ j', U.InRow (S.perm i) j' ∧ U'.col j = p (U.col j') ∧ U.col j' < A.m := by
    intro i j hj
    have him : i < A.m := by have := hj.1; rw [d1.m, u2] at this; exact this
    obtain ⟨j', h1, h2⟩ := d1.entry hj (by rw [u2]; exact hql i him)
    exact ⟨j', h1, h2, by rw [← un]; exact u1.col_lt j' (h1.lt_nnz u1)⟩
  rw [Script.ok_bind, ← hA'm]
  refine Script.Ok.mono (pcgMain_ok (M := permPrec A.m p M) (x0 := fun i => x0 (S.perm i)) (b := fun i => b (S.perm i)) (A := A')
    (Inv := fun m => HoldsPat m 4 0 A' ∧ HoldsVal m 4 A' ∧ TriObj m 5 6 A.m L' U' (fun i => el (S.perm i)) (fun i => eu (S.perm i))) hT b1.wf
    (by rw [b1.n, hA'm]; exact hsq) (b1.posDef hwf hi hpd) (by rw [hA'm]; exact permPrec_precond hi hM)
    ⟨fun _ h => h.1, fun _ h => h.2.1, ?_, ?_⟩ ⟨?_, ?_, hobj'⟩ ?_ ?_ ?_ (by rw [hA'm]; exact hsh) hn0 hnp htl
    (by simp) (by omega) (by rw [hA'm]; exact hsz 8 (by simp)) (fun j hj => by rw [hA'm]; refine hsz j ?_; simp at hj ⊢; omega)) ?_
  · intro m m' h hfr
    exact ⟨h.1.of_eq (hfr _ (by simp) (by simp)) (hfr _ (by simp) (by simp)), h.2.1.of_eq (hfr _ (by simp) (by simp)), h.2.2.frame hfr⟩
  · intro m rv Q h hr hQ
    rw [hA'm] at hr hQ
    refine p2pSolve_ok (nbr := A.Nbr) hS hl hT hf hcf hcb hSm.symm h.2.2 ?_ ?_ ?_ ?_ hr (hsz 3 (by simp)) (hsz 4 (by simp)) fun m' z hz ht hfr => ?_
    · rintro r c hr hc ⟨j, hj, rfl⟩
      obtain ⟨j', h1, h2, h3⟩ := hLq r j hj
      rw [h2, hi.qp _ h3]; exact (hlow _ _ h1).2
    · rintro r c hr hc ⟨j, hj, rfl⟩
      obtain ⟨j', h1, h2, h3⟩ := hUq r j hj
      rw [h2, hi.qp _ h3]; exact (hup _ _ h1).2
    · intro i j hj
      obtain ⟨j', h1, h2, h3⟩ := hLq i j hj
      rw [h2, hi.qp _ h3]; exact (hlow _ _ h1).1
    · intro i j hj
      obtain ⟨j', h1, h2, h3⟩ := hUq i j hj
      rw [h2, hi.qp _ h3]; exact (hup _ _ h1).1
    · exact hQ m' z hz ⟨_, _, hpre _ _ (triSolve_perm hi c1 d1 l2 u2 l1 u1 ht), fun _ _ => rfl, fun _ _ => rfl⟩ hfr
  · exact b2.of_eq (by rw [g6 _ (by simp), d5 _ (by simp [CArr.ofObj]), c5 _ (by simp [CArr.ofObj])])
      (by rw [g6 _ (by simp), d5 _ (by simp [CArr.ofObj]), c5 _ (by simp [CArr.ofObj])])
  · exact b3.of_eq (by rw [g6 _ (by simp), d5 _ (by simp [CArr.ofObj]), c5 _ (by simp [CArr.ofObj])])
  · rw [hA'm]; exact f1
  · rw [hA'm]; exact VecIs.frame e1 (f2 _ (by simp))
  · obtain ⟨i, him, hne⟩ := hr0
    refine ⟨p i, by rw [hA'm]; exact hi.p_lt i him, ?_⟩
    rw [b1.mulVec hwf (hi.p_lt i him) (by rw [hi.qp i him]; exact him), hi.qp i him]
    intro he
    refine hne (he.trans ?_)
    refine mulVec_congr hwf hsq him fun c hc => ?_
    show x0 (S.perm (p c)) = _
    rw [hi.qp c hc]
  rw [hA'm]
  rintro res m7 ⟨⟨xf, k1, k2⟩, k3⟩
  have hp7 : ∀ i : Nat, i < A.m → m7 (.itmp 1) (i : Int) = some ((p i : Nat) : Int) := fun i him => by
    rw [k3 _ (by simp) (by simp) (by simp), g6 _ (by simp)]; exact hi1 i him
  rw [Script.ok_bind]
  refine Script.Ok.mono (reorderVec_ok (v := xf) (by omega) hp7 hi.p_lt k1 (hsz 0 (by simp))) ?_
  rintro _ m8 ⟨q1, q2⟩
  refine Script.ok_done_of ⟨⟨_, q1, pcgEnds_perm hi b1 hwf (fun _ _ => rfl) (fun _ _ => rfl) k2⟩, fun a h4 h5 h6 h0 h1 hj => ?_⟩
  rw [q2 a (fun h => by simpa using hj 0 h), k3 a h0 (fun h => by simpa using hj 8 h) (fun j h => by have := hj j h; simp at this ⊢; omega),
    f2 a (fun h => by simpa using hj 8 h), e2 a (fun h => by simpa using hj 10 h), g4 a h4 h5 h6, a3 a h0 h1]

/-- The setup of pcg_symgs: afterwards objects 1 and 2 hold the two triangles, the upper one scaled. -/
theorem symgsSetup_ok {T : Nat} {d e : Nat → R} {o : Opt} {ep : Nat → Nat} {m0 : Mem (CTy R)} {α : Type} {K : Script (CTy R) α} {Q : α → Mem (CTy R) → Prop}
    (hT : 1 ≤ T) (hwf : A.WF) (hsq : A.n = A.m) (he : ∀ i, i < A.m → e i * d i = 1)
    (hp : HoldsPat m0 0 0 A) (hv : HoldsVal m0 0 A) (hsz0 : SizesOk sz 0 A o)
    (hext : HoldsExt m0 0 0 A o.extptr ep) (hx : ∀ i j, i < A.m → ep i ≤ j → j < A.ptr (i + 1) → i < A.col j)
    (hdp : o.diagptr → ∀ i : Nat, i < A.m → ∃ v, m0 (.diagptr 0) (i : Int) = some v)
    (hid : ∀ i : Nat, i < A.m → m0 (.idiag 0) (i : Int) = some (e i))
    (hK : ∀ (m2 : Mem (CTy R)) (L U : Csr R), TriObj m2 1 2 A.m L U e (fun _ => 1) → (∀ i j, L.InRow i j → L.col j < i ∧ A.Nbr i (L.col j)) →
      (∀ i j, U.InRow i j → i < U.col j ∧ A.Nbr i (U.col j)) → (∀ z r, TriSolve A.m L U e (fun _ => 1) z r → SymGS A d z r) →
      (∀ a, ¬ a.ofObj 1 → ¬ a.ofObj 2 → a ≠ .itmp 0 → a ≠ .itmp 1 → m2 a = m0 a) → K.Ok m2 Q) :
    ((splitLU sz T 0 1 2 A.m o).bind fun _ => (scaleU sz 2 A.m).bind fun _ => K).Ok m0 Q := by
  rw [Script.ok_bind]
  refine Script.Ok.mono (splitLU_ok (k := 0) (kl := 1) (ku := 2) (base := 0) (ep := ep) hT (by omega) hwf (Or.inl rfl)
    (by omega) hp hv hsz0 hext hx hdp (fun i hi => ⟨_, hid i hi⟩)) ?_
  rintro _ m1 ⟨s1, s2, s3, s4, s5, _, s7⟩
  rw [Script.ok_bind, show A.m = (upCsr A).m from rfl]
  refine Script.Ok.mono (scaleU_ok (ev := e) (upCsr_wf hwf) s3 s4 (fun i hi => by rw [(s5 i hi).2]; exact hid i hi)) ?_
  rintro _ m2 ⟨u1, u2, u3⟩
  rw [show (upCsr A).m = A.m from rfl] at *
  have g7 : ∀ a, ¬ a.ofObj 1 → ¬ a.ofObj 2 → a ≠ .itmp 0 → a ≠ .itmp 1 → m2 a = m0 a := fun a h1 h2 h3 h4 => by
    rw [u3 _ (fun h => h2 (by rw [h]; simp [CArr.ofObj])) (fun h => h2 (by rw [h]; simp [CArr.ofObj])), s7 a h1 h2 h3 h4]
  obtain ⟨U, hU0⟩ : ∃ U : Csr R, U = { upCsr A with val := fun j => (m2 (.values 2) (j : Int)).getD 0 } := ⟨_, rfl⟩
  have hUm : ∀ y i, i < A.m → U.mulVec y i = A.upMul y i * e i := by
    intro y i hi
    have hU := upCsr_wf hwf
    have h1 : A.upMul y i = (upCsr A).mulVec y i := by
      rw [Props.mulVec_eq_row hU hi, show (upCsr A).row i = upRow A i from Csr.ofRows_row hi]
      rfl
    rw [h1, hU0]
    unfold Csr.mulVec
    rw [Finset.sum_mul]
    refine Finset.sum_congr rfl fun j hj => ?_
    rw [Finset.mem_Ico] at hj
    show (m2 (.values 2) (j : Int)).getD 0 * y ((upCsr A).col j) = _
    rw [u1 i j hi hj.1 hj.2]
    show (upCsr A).val j * e i * _ = _
    ring
  have hLm : ∀ y i, i < A.m → (lowCsr A).mulVec y i = A.lowMul y i := by
    intro y i hi
    rw [Props.mulVec_eq_row (lowCsr_wf hwf) hi, show (lowCsr A).row i = _ from Csr.ofRows_row hi]
    rfl
  have hobj : TriObj m2 1 2 A.m (lowCsr A) U e (fun _ => 1) := by
    have hU := upCsr_wf hwf
    rw [hU0]
    refine ⟨lowCsr_wf hwf, ⟨hU.1, hU.2, hU.3⟩, rfl, rfl, hsq, hsq, s1.of_eq (u3 _ (by simp) (by simp)) (u3 _ (by simp) (by simp)),
      s2.of_eq (u3 _ (by simp) (by simp)), ⟨fun i hi => ?_, fun j hj => ?_⟩, fun j hj => ?_, ?_, u2⟩
    · rw [u3 _ (by simp) (by simp)]; exact s3.rowptr i hi
    · rw [u3 _ (by simp) (by simp)]; exact s3.colidx j hj
    · obtain ⟨i, h1, h2, h3⟩ := hU.exists_row (j := j) hj
      show m2 (.values 2) (j : Int) = some ((m2 (.values 2) (j : Int)).getD 0)
      rw [u1 i j h1 h2 h3]; rfl
    · intro i hi
      rw [u3 _ (by simp) (by simp), (s5 i hi).1]; exact hid i hi
  have hlow : ∀ i j, (lowCsr A).InRow i j → (lowCsr A).col j < i ∧ A.Nbr i ((lowCsr A).col j) := by
    rintro i j ⟨hi, h1, h2⟩
    have : ((lowCsr A).col j, (lowCsr A).val j) ∈ (lowCsr A).row i := Csr.mem_row.2 ⟨j, h1, h2, rfl⟩
    rw [show (lowCsr A).row i = lowRow A i from Csr.ofRows_row hi] at this
    unfold lowRow at this
    rw [List.mem_filter] at this
    obtain ⟨j', g1, g2, g3⟩ := Csr.mem_row.1 this.1
    exact ⟨by simpa using this.2, j', ⟨hi, g1, g2⟩, congrArg Prod.fst g3⟩
  have hup : ∀ i j, U.InRow i j → i < U.col j ∧ A.Nbr i (U.col j) := by
    rintro i j ⟨hi, h1, h2⟩
    rw [hU0] at hi h1 h2 ⊢
    have : ((upCsr A).col j, (upCsr A).val j) ∈ (upCsr A).row i := Csr.mem_row.2 ⟨j, h1, h2, rfl⟩
    rw [show (upCsr A).row i = upRow A i from Csr.ofRows_row hi] at this
    unfold upRow at this
    rw [List.mem_filter] at this
    obtain ⟨j', g1, g2, g3⟩ := Csr.mem_row.1 this.1
    exact ⟨by simpa using this.2, j', ⟨hi, g1, g2⟩, congrArg Prod.fst g3⟩
  exact hK m2 _ U hobj hlow hup (fun z r ht => symGS_of_triSolve he hLm hUm ht) g7

/-- The setup of pcg_ilu0 once the factors `F` are in `vec 1`. -/
theorem iluSetup_ok {T : Nat} {dp : Nat → Nat} {F : Nat → R} {m1 : Mem (CTy R)} {α : Type} {K : Script (CTy R) α} {Q : α → Mem (CTy R) → Prop}
    (hT : 1 ≤ T) (hwf : A.WF) (hsq : A.n = A.m) (hs : ∀ i, i < A.m → A.RowSorted i) (hd : ∀ i, i < A.m → A.InRow i (dp i) ∧ A.col (dp i) = i)
    (hsp : SplitRows A dp fun i => A.ptr (i + 1)) (hne : ∀ i, i < A.m → F (dp i) ≠ 0)
    (hp : HoldsPat m1 0 0 A) (a1 : ∀ i : Nat, i < A.nnz → m1 (.vec 1) (i : Int) = some (F i))
    (hsz3 : SizesOk sz 3 A ⟨true, true, true, false, false⟩)
    (hK : ∀ (m5 : Mem (CTy R)) (L U : Csr R), TriObj m5 1 2 A.m L U (fun _ => 1) (fun i => 1 / F (dp i)) →
      (∀ i j, L.InRow i j → L.col j < i ∧ A.Nbr i (L.col j)) → (∀ i j, U.InRow i j → i < U.col j ∧ A.Nbr i (U.col j)) →
      (∀ z r, TriSolve A.m L U (fun _ => 1) (fun i => 1 / F (dp i)) z r → IluPrec A dp F z r) →
      (∀ a, ¬ a.ofObj 1 → ¬ a.ofObj 2 → ¬ a.ofObj 3 → a ≠ .itmp 0 → a ≠ .itmp 1 → m5 a = m1 a) → K.Ok m5 Q) :
    ((luObject sz A.m A.nnz).bind fun _ => (computeInverseDiag sz 3 A.m false false).bind fun _ =>
      (splitLU sz T 3 1 2 A.m ⟨true, true, true, false, false⟩).bind fun _ => (unitDiag sz 1 A.m).bind fun _ => K).Ok m1 Q := by
  rw [Script.ok_bind]
  refine Script.Ok.mono (luObject_ok (lu := F) hp a1 hsz3.rowptr hsz3.colidx (hsz3.values rfl)) ?_
  rintro _ m2 ⟨b1, b2, b3⟩
  obtain ⟨B, hB⟩ : ∃ B : Csr R, B = { A with val := F } := ⟨_, rfl⟩
  rw [← hB] at b1 b2
  have hwB : B.WF := by rw [hB]; exact ⟨hwf.1, hwf.2, hwf.3⟩
  have hBm : B.m = A.m := by rw [hB]
  have hBn : B.n = A.m := by rw [hB]; exact hsq
  have hBrow : ∀ i j, B.InRow i j ↔ A.InRow i j := by rw [hB]; exact fun _ _ => Iff.rfl
  have hBcol : B.col = A.col := by rw [hB]
  have hBval : B.val = F := by rw [hB]
  have hBptr : B.ptr = A.ptr := by rw [hB]
  have hBnnz : B.nnz = A.nnz := by rw [hB]; rfl
  rw [Script.ok_bind, ← hBm]
  refine Script.Ok.mono (computeInverseDiag_ok hwB b1 b2 (fun _ => ?_) (by simp) (fun _ => ?_) ?_) ?_
  · intro i hi
    rw [hBm] at hi
    refine ⟨by unfold Csr.RowSorted; rw [hBptr, hBcol]; exact hs i hi, dp i, (hBrow _ _).2 (hd i hi).1, ?_⟩
    rw [hBcol]; exact (hd i hi).2
  · rw [hBm]; exact hsz3.diagptr rfl
  · rw [hBm]; exact hsz3.idiag rfl
  rintro _ m3 ⟨⟨dp', c1, c2⟩, c3⟩
  have hdp : ∀ i, i < A.m → dp' i = dp i := by
    intro i hi
    have h1 := c1 i (by omega)
    have h2 := (hBrow _ _).1 h1.1
    refine sorted_inj (hs i hi) h2.2.1 h2.2.2 (hd i hi).1.2.1 (hd i hi).1.2.2 ?_
    rw [(hd i hi).2, ← hBcol]; exact h1.2.1
  rw [Script.ok_bind]
  refine Script.Ok.mono (splitLU_ok (k := 3) (kl := 1) (ku := 2) (base := 0) (ep := fun i => B.ptr (i + 1)) hT (by omega) hwB (Or.inl rfl)
    (by omega) (b1.of_eq (c3 _ (by simp) (by simp)) (c3 _ (by simp) (by simp))) (b2.of_eq (c3 _ (by simp) (by simp)))
    ⟨by rw [hBm]; exact hsz3.rowptr, by rw [hBnnz]; exact hsz3.colidx, by rw [hBnnz]; exact hsz3.values, by rw [hBm]; exact hsz3.diagptr,
      by rw [hBm]; exact hsz3.idiag, by simp, by simp⟩
    ⟨by simp, fun _ _ _ => rfl, fun i hi => ⟨hwB.ptr_mono (by omega) hi, Nat.le_refl _⟩⟩ (fun i j _ h1 h2 => by omega)
    (fun _ i hi => ⟨_, (c1 i hi).2.2⟩) (fun i hi => ⟨_, c2 i hi⟩)) ?_
  rintro _ m4 ⟨s1, s2, s3, s4, s5, _, s7⟩
  rw [Script.ok_bind, hBm]
  refine Script.Ok.mono unitDiag_ok ?_
  rintro _ m5 ⟨u1, u2⟩
  have fr : ∀ a, ¬ a.ofObj 1 → ¬ a.ofObj 2 → ¬ a.ofObj 3 → a ≠ .itmp 0 → a ≠ .itmp 1 → m5 a = m1 a := by
    intro a h1 h2 h3 h4 h5
    rw [u2 a (fun h => h1 (by rw [h]; simp [CArr.ofObj])), s7 a h1 h2 h4 h5, c3 a (fun h => h3 (by rw [h]; simp [CArr.ofObj]))
      (fun h => h3 (by rw [h]; simp [CArr.ofObj])), b3 a h3]
  have hobj : TriObj m5 1 2 A.m (lowCsr B) (upCsr B) (fun _ => 1) (fun i => 1 / F (dp i)) := by
    refine ⟨lowCsr_wf hwB, upCsr_wf hwB, hBm, hBm, hBn, hBn, s1.of_eq (u2 _ (by simp)) (u2 _ (by simp)), s2.of_eq (u2 _ (by simp)),
      s3.of_eq (u2 _ (by simp)) (u2 _ (by simp)), s4.of_eq (u2 _ (by simp)), u1, fun i hi => ?_⟩
    rw [u2 _ (by simp), (s5 i (by omega)).2, c2 i (by omega), hdp i hi, hBval]
  have hNbr : ∀ i c, B.Nbr i c → A.Nbr i c := by
    rintro i c ⟨j, h1, h2⟩
    exact ⟨j, (hBrow _ _).1 h1, by rw [← hBcol]; exact h2⟩
  have hlow : ∀ i j, (lowCsr B).InRow i j → (lowCsr B).col j < i ∧ A.Nbr i ((lowCsr B).col j) := by
    rintro i j ⟨hi, h1, h2⟩
    have : ((lowCsr B).col j, (lowCsr B).val j) ∈ (lowCsr B).row i := Csr.mem_row.2 ⟨j, h1, h2, rfl⟩
    rw [show (lowCsr B).row i = lowRow B i from Csr.ofRows_row hi] at this
    unfold lowRow at this
    rw [List.mem_filter] at this
    obtain ⟨j', g1, g2, g3⟩ := Csr.mem_row.1 this.1
    exact ⟨by simpa using this.2, hNbr _ _ ⟨j', ⟨hi, g1, g2⟩, congrArg Prod.fst g3⟩⟩
  have hup : ∀ i j, (upCsr B).InRow i j → i < (upCsr B).col j ∧ A.Nbr i ((upCsr B).col j) := by
    rintro i j ⟨hi, h1, h2⟩
    have : ((upCsr B).col j, (upCsr B).val j) ∈ (upCsr B).row i := Csr.mem_row.2 ⟨j, h1, h2, rfl⟩
    rw [show (upCsr B).row i = upRow B i from Csr.ofRows_row hi] at this
    unfold upRow at this
    rw [List.mem_filter] at this
    obtain ⟨j', g1, g2, g3⟩ := Csr.mem_row.1 this.1
    exact ⟨by simpa using this.2, hNbr _ _ ⟨j', ⟨hi, g1, g2⟩, congrArg Prod.fst g3⟩⟩
  refine hK m5 _ _ hobj hlow hup (fun z r ht => ?_) fr
  rw [hB] at ht
  exact iluPrec_of_triSolve hwf hsq hsp hne ht

theorem pcgSymgsOpt_ok {d e : Nat → R} {o : Opt} {dbg : Bool} {maxiter : Nat} {m0 : Mem (CTy R)} {lvl : Nat → Nat}
    (htol : ∀ k, k ∈ [4, 5, 6] → Races.tol (CArr.rowptr k) (A.m : Int)) (hS : S.Tiling) (hl : S.Levelled lvl) (hT : 1 ≤ S.T) (hSm : S.m = A.m)
    (hcf : S.CoversFwd A.Nbr) (hcb : S.CoversBwd A.Nbr) (hwf : A.WF) (hsq : A.n = A.m) (hs : A.Symm) (hpd : A.PosDef)
    (hd : ∀ i, i < A.m → d i = A.entry i i) (he : ∀ i, i < A.m → e i * d i = 1) (ho : o.values = true ∧ o.extptr = false)
    (hp : HoldsPat m0 0 0 A) (hv : HoldsVal m0 0 A) (hsz0 : SizesOk sz 0 A o)
    (hdp : o.diagptr → ∀ i : Nat, i < A.m → ∃ v, m0 (.diagptr 0) (i : Int) = some v)
    (hdg : o.diagptr = true → ∀ i, i < A.m → ∃ j, A.InRow i j ∧ A.col j = i)
    (hid : ∀ i : Nat, i < A.m → m0 (.idiag 0) (i : Int) = some (e i))
    (hvx : VecIs m0 0 A.m x0) (hvb : VecIs m0 1 A.m b) (hr0 : ∃ i, i < A.m ∧ b i ≠ A.mulVec x0 i)
    (hsh : ∀ n, (sh n).Covers S.T A.m) (hn0 : nrm 0 = 0) (hnp : ∀ v, 0 < v → 0 < nrm v) (htl : 0 < tol)
    (hsz : ∀ j, j ∈ [0, 2, 3, 4, 5, 6, 8, 10] → (A.m : Int) ≤ sz (.vec j)) (hf : (S.ntasks : Int) ≤ sz (.itmp 0))
    (hs0 : (A.m : Int) ≤ sz (.itmp 0)) (hs1 : (A.m : Int) ≤ sz (.itmp 1)) :
    (pcgSymgsOpt sz S A.m o dbg sh nrm tol maxiter).Ok m0 (fun res m' =>
      (∃ xf, VecIs m' 0 A.m xf ∧ PcgEnds A (SymGS A d) b x0 nrm tol maxiter res xf) ∧
      ∀ a, (∀ k, k ∈ [1, 2, 4, 5, 6] → ¬ a.ofObj k) → a ≠ .itmp 0 → a ≠ .itmp 1 →
        (∀ j, a = .vec j → j ∉ [0, 2, 3, 4, 5, 6, 7, 8, 10]) → m' a = m0 a) := by
  unfold pcgSymgsOpt
  rw [ho.2]
  refine symgsSetup_ok (d := d) (e := e) (ep := fun i => A.ptr (i + 1)) hT hwf hsq he hp hv hsz0
    ⟨by simp [ho.2], fun _ _ _ => rfl, fun i hi => ⟨hwf.ptr_mono (by omega) hi, Nat.le_refl _⟩⟩ (fun i j _ h1 h2 => by omega) hdp hid ?_
  intro m2 L U hobj hlow hup hpre g
  refine Script.Ok.mono (pcgReordered_ok (M := SymGS A d) (b := b) (x0 := x0) htol hS hl hT hSm hcf hcb hwf hsq hpd (symGS_precond hwf hsq hs hpd hd) ho rfl hdg
    (fun _ i hi => ⟨e i, by rw [g _ (by simp [CArr.ofObj]) (by simp [CArr.ofObj]) (by simp) (by simp)]; exact hid i hi⟩)
    (hp.of_eq (g _ (by simp [CArr.ofObj]) (by simp [CArr.ofObj]) (by simp) (by simp)) (g _ (by simp [CArr.ofObj]) (by simp [CArr.ofObj]) (by simp) (by simp)))
    (hv.of_eq (g _ (by simp [CArr.ofObj]) (by simp [CArr.ofObj]) (by simp) (by simp))) hobj hlow hup hpre
    (VecIs.frame hvx (g _ (by simp [CArr.ofObj]) (by simp [CArr.ofObj]) (by simp) (by simp)))
    (VecIs.frame hvb (g _ (by simp [CArr.ofObj]) (by simp [CArr.ofObj]) (by simp) (by simp))) (by omega) hr0 hsh hn0 hnp htl hsz hf hs0 hs1) ?_
  rintro res m' ⟨h1, h2⟩
  refine ⟨h1, fun a hk h0 h1 hj => ?_⟩
  rw [h2 a (hk 4 (by simp)) (hk 5 (by simp)) (hk 6 (by simp)) h0 h1 hj, g a (hk 1 (by simp)) (hk 2 (by simp)) h0 h1]

theorem pcgIlu0Opt_ok {dp : Nat → Nat} {o : Opt} {dbg ub : Bool} {Lv : List (List Nat)} {maxiter : Nat} {m0 : Mem (CTy R)}
    (htol : ∀ k, k ∈ [4, 5, 6] → Races.tol (CArr.rowptr k) (A.m : Int)) (hb : Props.Built S A dp (fun i => A.ptr (i + 1)) ub Lv)
    (hwf : A.WF) (hsq : A.n = A.m) (hs : ∀ i, i < A.m → A.RowSorted i) (hsy : A.Symm) (hpat : SymPat A) (hpd : A.PosDef)
    (hpos : ∀ i, i < A.m → 0 < ilu0 A dp A.m A.val (dp i)) (ho : o.values = true ∧ o.extptr = false)
    (hp : HoldsPat m0 0 0 A) (hv : HoldsVal m0 0 A) (hd : HoldsDiag m0 0 0 A dp)
    (hid : o.idiag = true → ∀ i : Nat, i < A.m → ∃ v, m0 (.idiag 0) (i : Int) = some v)
    (hszl : (A.nnz : Int) ≤ sz (.vec 1)) (hsz3 : SizesOk sz 3 A ⟨true, true, true, false, false⟩)
    (hvx : VecIs m0 0 A.m x0) (hvb : VecIs m0 9 A.m b) (hr0 : ∃ i, i < A.m ∧ b i ≠ A.mulVec x0 i)
    (hsh : ∀ n, (sh n).Covers S.T A.m) (hn0 : nrm 0 = 0) (hnp : ∀ v, 0 < v → 0 < nrm v) (htl : 0 < tol)
    (hsz : ∀ j, j ∈ [0, 2, 3, 4, 5, 6, 8, 10] → (A.m : Int) ≤ sz (.vec j)) (hf : (S.ntasks : Int) ≤ sz (.itmp 0))
    (hs0 : (A.m : Int) ≤ sz (.itmp 0)) (hs1 : (A.m : Int) ≤ sz (.itmp 1)) :
    (pcgIlu0Opt sz S A.m o dbg sh nrm tol maxiter).Ok m0 (fun res m' =>
      (∃ xf, VecIs m' 0 A.m xf ∧ PcgEnds A (IluPrec A dp (ilu0 A dp A.m A.val)) b x0 nrm tol maxiter res xf) ∧
      (∀ i : Nat, i < A.nnz → m' (.vec 1) (i : Int) = some (ilu0 A dp A.m A.val i)) ∧
      ∀ a, (∀ k, k ∈ [1, 2, 3, 4, 5, 6] → ¬ a.ofObj k) → a ≠ .itmp 0 → a ≠ .itmp 1 →
        (∀ j, a = .vec j → j ∉ [0, 1, 2, 3, 4, 5, 6, 7, 8, 10]) → m' a = m0 a) := by
  have hsp := split_of_diag hwf hsq hs fun i hi => ⟨(hd i hi).1, (hd i hi).2.1⟩
  have hprec := ilu_precond hwf hsq hsp hs hsy hpat hpos
  have hA : Props.Schedulable A dp (fun i => A.ptr (i + 1)) := ⟨hsp, fun i q hi h1 h2 => by
    have : A.InRow i q := ⟨hi, by have := (hd i hi).1.2.1; omega, h2⟩
    rw [← hsq]; exact hwf.col_lt q (this.lt_nnz hwf), hpat⟩
  obtain ⟨lvl, hg, _, hSm, hT⟩ := hb.good hA
  have hil := (Props.C39_parallel_ilu0 (sz := sz) (m0 := m0) (base := 0) hA hb
    ⟨hwf, hs, hp, hv, fun i hi => by rw [(hd i hi).2.2], hszl, hf⟩).1
  unfold pcgIlu0Opt
  refine seq_rule ?_
  unfold baseNnz
  have q0 := hp.rowptr 0 (by omega)
  have q1 := hp.rowptr A.m (Nat.le_refl _)
  rw [hwf.ptr_zero] at q0
  refine wp_rd _ trivial q0 ?_
  refine wp_rd _ trivial q1 ?_
  refine wp_pure.2 ?_
  have e1 : (((0 : Nat) : Int) + ((0 : Nat) : Int)).toNat = 0 := rfl
  have e2 : (((A.ptr A.m : Nat) : Int) + ((0 : Nat) : Int) - (((0 : Nat) : Int) + ((0 : Nat) : Int))).toNat = A.nnz := by
    show _ = A.ptr A.m
    omega
  dsimp only
  rw [e1, e2]
  unfold ilu0P2P
  rw [Script.ok_bind, Script.ok_bind]
  refine Script.Ok.mono hil ?_
  intro _ m1 h1
  rw [Script.ok_bind]
  refine Script.Ok.mono h1 ?_
  intro _ m2 h2
  refine P2POk.mono h2 ?_
  rintro m3 ⟨a1, a2⟩
  generalize hF : ilu0 A dp A.m A.val = F at *
  have fr : ∀ a, a ≠ .itmp 0 → a ≠ .vec 1 → m3 a = m0 a := fun a h0 h1 => by
    funext i; exact a2 a i h0 fun h => h1 h.1
  refine Script.ok_done_of ?_
  refine iluSetup_ok (dp := dp) (F := F) hT hwf hsq hs (fun i hi => ⟨(hd i hi).1, (hd i hi).2.1⟩) hsp (fun i hi => ne_of_gt (hpos i hi))
    (hp.of_eq (fr _ (by simp) (by simp)) (fr _ (by simp) (by simp))) a1 hsz3 ?_
  intro m5 L U hobj hlow hup hpre g
  have g0 : ∀ a, ¬ a.ofObj 1 → ¬ a.ofObj 2 → ¬ a.ofObj 3 → a ≠ .itmp 0 → a ≠ .itmp 1 → a ≠ .vec 1 → m5 a = m0 a :=
    fun a h1 h2 h3 h4 h5 h6 => by rw [g a h1 h2 h3 h4 h5, fr a h4 h6]
  refine Script.Ok.mono (pcgReordered_ok (M := IluPrec A dp F) (b := b) (x0 := x0) htol hg.tiling hg.levelled hT hSm hg.fwd hg.bwd hwf hsq hpd hprec ho rfl
    (fun _ i hi => ⟨dp i, (hd i hi).1, (hd i hi).2.1⟩)
    (fun h i hi => by rw [g0 _ (by simp [CArr.ofObj]) (by simp [CArr.ofObj]) (by simp [CArr.ofObj]) (by simp) (by simp) (by simp)]; exact hid h i hi)
    (hp.of_eq (g0 _ (by simp [CArr.ofObj]) (by simp [CArr.ofObj]) (by simp [CArr.ofObj]) (by simp) (by simp) (by simp))
      (g0 _ (by simp [CArr.ofObj]) (by simp [CArr.ofObj]) (by simp [CArr.ofObj]) (by simp) (by simp) (by simp)))
    (hv.of_eq (g0 _ (by simp [CArr.ofObj]) (by simp [CArr.ofObj]) (by simp [CArr.ofObj]) (by simp) (by simp) (by simp))) hobj hlow hup hpre
    (VecIs.frame hvx (g0 _ (by simp [CArr.ofObj]) (by simp [CArr.ofObj]) (by simp [CArr.ofObj]) (by simp) (by simp) (by simp)))
    (VecIs.frame hvb (g0 _ (by simp [CArr.ofObj]) (by simp [CArr.ofObj]) (by simp [CArr.ofObj]) (by simp) (by simp) (by simp))) (by omega) hr0 hsh hn0 hnp htl
    hsz hf hs0 hs1) ?_
  rintro res m' ⟨h1, h2⟩
  refine ⟨h1, fun i hi => ?_, fun a hk h0 h1 hj => ?_⟩
  · rw [h2 _ (by simp [CArr.ofObj]) (by simp [CArr.ofObj]) (by simp [CArr.ofObj]) (by simp) (by simp) (by rintro j ⟨⟩; simp),
      g _ (by simp [CArr.ofObj]) (by simp [CArr.ofObj]) (by simp [CArr.ofObj]) (by simp) (by simp)]
    exact a1 i hi
  · rw [h2 a (hk 4 (by simp)) (hk 5 (by simp)) (hk 6 (by simp)) h0 h1 (fun j h => by have := hj j h; simp at this ⊢; omega),
      g0 a (hk 1 (by simp)) (hk 2 (by simp)) (hk 3 (by simp)) h0 h1 (fun h => by simpa using hj 1 h)]

end run
end SpMP
