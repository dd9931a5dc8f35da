import Verif.CompNumber
import Verif.BinFile
/-
findConnectedComponents_: the whole function.
-/

namespace SpMP
open Spec

variable {R : Type} {sz : CArr → Int} {A : Csr R} {k k' base T : Nat} {wb : Bool} {bv : Nat → Bool}

/-- Arrays the function allocates and fills. -/
def CcArr (k' : Nat) (a : CArr) : Prop :=
  a = .rowptr k' ∨ ∃ j, j ≤ 8 ∧ a = .itmp j

/-- The outcome in memory: `nc` components of the equivalence "same root". -/
structure CcDone (A : Csr R) (V : Nat → Prop) (k' T nc : Nat) (E : Nat → Nat → Prop) (root size start node : Nat → Nat)
    (m0 m : Mem (CTy R)) : Prop where
  equiv : Equivalence E
  sound : ∀ x y, V x → V y → E x y → Linked A V x y
  exact : T = 1 → ∀ x y, V x → V y → Linked A V x y → E x y
  comps : IsComponents V E nc root size start node
  hroot : ∀ c, c < nc → m (.itmp 3) (c : Int) = some (root c : Int)
  hsize : ∀ c, c < nc → m (.itmp 4) (c : Int) = some (size c : Int)
  hstart : ∀ c, c < nc → m (.rowptr k') (c : Int) = some (start c : Int)
  hnode : ∀ c j, c < nc → j < size c → m (.itmp 5) ((start c + j : Nat) : Int) = some (node (start c + j) : Int)
  frame : ∀ a i, ¬ CcArr k' a → m a i = m0 a i

theorem cnt_find {S : Type} (B : Csr S) {c j : Nat} : ∀ {x : Nat}, j < B.cnt c x → ∃ i, i < x ∧ B.col i = c ∧ B.cnt c i = j
  | 0, h => by simp [Csr.cnt] at h
  | x + 1, h => by
    have e : B.cnt c (x + 1) = B.cnt c x + if B.col x = c then 1 else 0 := rfl
    by_cases hc : j < B.cnt c x
    · obtain ⟨i, h1, h2⟩ := cnt_find B hc
      exact ⟨i, by omega, h2⟩
    · by_cases hr : B.col x = c
      · rw [if_pos hr] at e; exact ⟨x, by omega, hr, by omega⟩
      · rw [if_neg hr] at e; omega

/-- The classes of "same root" in the order of the counting sort. -/
theorem cc_components {V : Nat → Prop} {m mm : Nat} {nd f ρ key node root : Nat → Nat} (hV : V = ccV wb bv m) (hn : CcNodes wb bv m mm nd)
    (hr : IsRoots V f ρ) (hkey : ∀ i, i < mm → ∃ r, r < mm ∧ nd r = ρ (nd i) ∧ key i = ccRk ρ nd r)
    (hroot : ∀ i, i < mm → ρ (nd i) = nd i → root (ccRk ρ nd i) = nd i)
    (hnode : ∀ i, i < mm → node ((ccB mm (ccRk ρ nd mm) key).tPos i) = nd i) :
    IsComponents V (fun x y => ρ x = ρ y) (ccRk ρ nd mm) root
      (fun c => (ccB mm (ccRk ρ nd mm) key).tPtr (c + 1) - (ccB mm (ccRk ρ nd mm) key).tPtr c)
      (ccB mm (ccRk ρ nd mm) key).tPtr node := by
  subst hV
  have hkl : ∀ i, i < mm → key i < ccRk ρ nd mm := by
    intro i hi
    obtain ⟨r, h1, h2, h3⟩ := hkey i hi
    rw [h3]
    refine ccRk_lt h1 ?_
    rw [h2]; exact hr.idem _ (hn.val i hi)
  have hwf := ccB_wf hkl
  generalize hB : ccB mm (ccRk ρ nd mm) key = B at *
  have hcol : ∀ i, B.col i = key i := fun i => by rw [← hB]; rfl
  have hnnz : B.nnz = mm := by rw [← hB]; rfl
  have hstep : ∀ c, B.tPtr (c + 1) = B.tPtr c + B.cnt c mm := fun c => by rw [Csr.tPtr_succ hwf c, hnnz]
  have hrt : ∀ c, c < ccRk ρ nd mm → ∃ r, r < mm ∧ ρ (nd r) = nd r ∧ ccRk ρ nd r = c ∧ root c = nd r := by
    intro c hc
    obtain ⟨r, h1, h2, h3⟩ := ccRk_find hc
    refine ⟨r, h1, h2, h3, ?_⟩
    rw [← h3]; exact hroot r h1 h2
  have hrkinj : ∀ r s, ρ (nd r) = nd r → ρ (nd s) = nd s → ccRk ρ nd r = ccRk ρ nd s → r = s := by
    intro r s h1 h2 h3
    rcases Nat.lt_trichotomy r s with h | h | h
    · have := ccRk_lt h h1; omega
    · exact h
    · have := ccRk_lt h h2; omega
  -- position j of block c
  have hpos : ∀ c j, c < ccRk ρ nd mm → j < B.tPtr (c + 1) - B.tPtr c →
      ∃ i, i < mm ∧ key i = c ∧ B.cnt c i = j ∧ node (B.tPtr c + j) = nd i := by
    intro c j hc hj
    rw [hstep c] at hj
    obtain ⟨i, h1, h2, h3⟩ := cnt_find B (show j < B.cnt c mm by omega)
    refine ⟨i, h1, by rw [← hcol]; exact h2, h3, ?_⟩
    have : B.tPos i = B.tPtr c + j := by unfold Csr.tPos; rw [h2, h3]
    rw [← this]; exact hnode i h1
  refine ⟨?_, ?_, ?_, rfl, ?_, ?_, ?_, ?_⟩
  · intro c hc
    obtain ⟨r, h1, h2, h3, h4⟩ := hrt c hc
    rw [h4]; exact hn.val r h1
  · intro c x hc hx hE
    obtain ⟨r, h1, h2, h3, h4⟩ := hrt c hc
    have hE : ρ (root c) = ρ x := hE
    have := hr.le x hx
    rw [h4, h2] at hE
    omega
  · intro c d hcd hd
    obtain ⟨r, h1, h2, h3, h4⟩ := hrt c (by omega)
    obtain ⟨s, g1, g2, g3, g4⟩ := hrt d hd
    rw [h4, g4]
    refine hn.mono r s ?_ g1
    rcases Nat.lt_or_ge r s with h | h
    · exact h
    · have := ccRk_mono ρ nd h; omega
  · intro c _
    rw [hstep c]; omega
  · intro c j hc hj
    obtain ⟨i, h1, h2, h3, h4⟩ := hpos c j hc hj
    obtain ⟨r, g1, g2, g3, g4⟩ := hrt c hc
    obtain ⟨s, k1, k2, k3⟩ := hkey i h1
    have : s = r := hrkinj s r (by rw [k2]; exact hr.idem _ (hn.val i h1)) g2 (by omega)
    subst this
    rw [h4]
    refine ⟨hn.val i h1, ?_⟩
    show ρ (root c) = ρ (nd i)
    rw [g4, g2, k2]
  · intro c i j hc hij hj
    obtain ⟨a, a1, a2, a3, a4⟩ := hpos c i hc (by omega)
    obtain ⟨b, b1, b2, b3, b4⟩ := hpos c j hc hj
    rw [a4, b4]
    refine hn.mono a b ?_ b1
    rcases Nat.lt_or_ge a b with h | h
    · exact h
    · have := B.cnt_mono c h; omega
  · intro x hx
    obtain ⟨i, hi, rfl⟩ := hn.mem x hx
    have hlt : B.cnt (key i) i < B.cnt (key i) mm := B.cnt_lt hi (hcol i)
    refine ⟨key i, B.cnt (key i) i, hkl i hi, by rw [hstep]; omega, ?_⟩
    have : B.tPos i = B.tPtr (key i) + B.cnt (key i) i := by unfold Csr.tPos; rw [hcol]
    rw [← this]; exact hnode i hi

theorem ccMain_ok {mm : Nat} {nd : Nat → Nat} {m0 : Mem (CTy R)} (hwf : A.WF) (hp : HoldsPat m0 k base A) (hkk : k' ≠ k)
    (hn : CcNodes wb bv A.m mm nd) (ha : NodesAt wb mm nd m0) (hcl : CcClosed A (ccV wb bv A.m)) (hmm : 0 < mm) (hmA : mm ≤ A.m)
    (hT : 1 ≤ T) (h1 : m0 (.itmp 1) 0 = some (0 : Int)) :
    (ccMain sz T k k' base wb bv A.m mm).Ok m0 (fun nc m => ∃ E root size start node,
      CcDone A (ccV wb bv A.m) k' T nc E root size start node m0 m) := by
  unfold ccMain
  dsimp only
  have z0 : ∀ nc, (A.m : Int) ≤ ccSize sz k' A.m T mm nc (.itmp 0) := fun _ => Int.le_refl _
  have z1 : ∀ nc, (T : Int) + 1 ≤ ccSize sz k' A.m T mm nc (.itmp 1) := fun _ => Int.le_refl _
  refine ccInit_ok hn ha hT (z0 0) ?_
  intro _ m1 hp1 hf1
  have hpat1 : HoldsPat m1 k base A := hp.of_frame hf1
  have ha1 : NodesAt wb mm nd m1 := fun hw i hi => (hf1 _ _ (by simp)).trans (ha hw i hi)
  have hI : UfInv A (ccV wb bv A.m) m1 m1 := ⟨fun _ _ _ => rfl, fun x hx => ⟨x, hp1 x hx, Nat.le_refl _, hx, .refl x⟩⟩
  -- the union phase
  have hun : ParOk (ccSize sz k' A.m T mm 0) T (fun _ m => UfInv A (ccV wb bv A.m) m1 m ∧
      (T = 1 → ∀ x j, ccV wb bv A.m x → A.InRow x j →
        Conn (fun z => ∃ y : Nat, z = y ∧ ccV wb bv A.m y) m (x : Int) (A.col j : Int))) (ccUnions k base wb bv A.m mm T) m1 := by
    have base1 : ParOk (ccSize sz k' A.m T mm 0) T (fun _ m => UfInv A (ccV wb bv A.m) m1 m) (ccUnions k base wb bv A.m mm T) m1 := by
      refine rg_rule (Γ := Unit) (fun _ m => UfInv A (ccV wb bv A.m) m1 m) (fun _ _ m _ m' => UfStep (ccV wb bv A.m) m m')
        (fun _ _ m _ m' => UfStep (ccV wb bv A.m) m m') (fun _ _ _ _ => True) () hI (fun _ _ _ => UfStep.rfl')
        (fun _ _ _ _ _ _ _ => UfStep.tr) (fun _ _ _ _ _ _ _ _ _ _ _ h => h) ?_ (fun _ _ _ h _ => h)
      intro t ht
      exact ccUnions_rg hwf hpat1 hn ha1 hcl (z0 0) ht hmA hI
    by_cases hT1 : T = 1
    · subst hT1
      refine (ParOk.wlp base1 (wlp_ccUnions (P := fun z => ∃ y : Nat, z = y ∧ ccV wb bv A.m y) hwf hpat1 hn ha1
        (fun x hx => ⟨x, rfl, hx⟩) hcl ?_)).mono ?_
      · rintro a b ⟨y, rfl, hy⟩ hab
        rw [hp1 y hy] at hab
        obtain rfl : (y : Int) = b := Option.some.inj hab
        exact ⟨y, rfl, hy⟩
      · rintro r m ⟨q1, q2⟩
        exact ⟨q1, fun _ => q2⟩
    · exact base1.mono fun _ _ h => ⟨h, fun e => (hT1 e).elim⟩
  refine hun.mono ?_
  rintro _ m2 ⟨hI2, hex⟩
  have hex1 : ∀ x, ∃ v : Nat, ccV wb bv A.m x → m2 (.itmp 0) (x : Int) = some (v : Int) ∧ v ≤ x ∧ ccV wb bv A.m v ∧ Linked A (ccV wb bv A.m) x v := by
    intro x
    by_cases hx : ccV wb bv A.m x
    · obtain ⟨v, hv⟩ := hI2.par x hx; exact ⟨v, fun _ => hv⟩
    · exact ⟨0, fun h => (hx h).elim⟩
  obtain ⟨f, hf⟩ := Classical.axiomOfChoice hex1
  have hr : IsRoots (ccV wb bv A.m) f (ufRoot f) := ufRoot_isRoots fun x hx => ⟨(hf x hx).2.1, (hf x hx).2.2.1⟩
  have hlink : ∀ x, ccV wb bv A.m x → Linked A (ccV wb bv A.m) x (ufRoot f x) := by
    intro x
    induction x using Nat.strongRecOn with
    | ind x ih =>
      intro hx
      rw [ufRoot]
      split
      · rename_i h; exact (hf x hx).2.2.2.trans (ih (f x) h (hf x hx).2.2.1)
      · exact .refl x
  have hconn : ∀ a b : Int, Conn (fun z => ∃ y : Nat, z = y ∧ ccV wb bv A.m y) m2 a b → ufRoot f a.toNat = ufRoot f b.toNat := by
    intro a b h
    unfold Conn at h
    induction h with
    | rel a b h =>
      obtain ⟨⟨x, rfl, hx⟩, ⟨y, rfl, hy⟩, e⟩ := h
      rw [(hf x hx).1] at e
      have e : (f x : Int) = y := Option.some.inj e
      rw [Int.toNat_natCast, Int.toNat_natCast, ← hr.step x hx, show f x = y by omega]
    | refl a => rfl
    | symm a b _ ih => exact ih.symm
    | trans a b c _ _ i1 i2 => exact i1.trans i2
  have hexact : T = 1 → ∀ x y, Linked A (ccV wb bv A.m) x y → ufRoot f x = ufRoot f y := by
    intro h x y hl
    induction hl with
    | refl x => rfl
    | edge hx hj hy => have := hconn _ _ (hex h _ _ hx hj); simpa using this
    | symm _ ih => exact ih.symm
    | trans _ _ i1 i2 => exact i1.trans i2
  generalize ufRoot f = ρ at *
  have ha2 : NodesAt wb mm nd m2 := fun hw i hi => (hI2.frame _ _ (by simp)).trans (ha1 hw i hi)
  refine ccCompress_ok hn ha2 hr hT (z0 0) (z1 0) (fun x hx => (hf x hx).1) ?_
  intro _ m3 hp3 hc3 hz3 hf3
  have hz : m3 (.itmp 1) 0 = some (0 : Int) := by
    rw [hz3, hI2.frame _ _ (by simp), hf1 _ _ (by simp)]; exact h1
  refine seq_rule (wp_ccSum (F := fun t => ccRk ρ nd (rowCut T mm t)) hT (fun _ _ => trivial) (fun _ _ => trivial) (z1 0)
    (by show ccRk ρ nd (rowCut T mm 0) = 0; rw [rowCut_zero]; rfl) hz hc3 ?_)
  intro m4 hc4 hf4
  have enc : (((fun t => ccRk ρ nd (rowCut T mm t)) T : Nat) : Int).toNat = ccRk ρ nd mm := by
    show ((ccRk ρ nd (rowCut T mm T) : Nat) : Int).toNat = _
    rw [rowCut_last hT, Int.toNat_natCast]
  rw [enc]
  have ha3 : NodesAt wb mm nd m3 := fun hw i hi => (hf3 _ _ (by simp) (by simp)).trans (ha2 hw i hi)
  have ha4 : NodesAt wb mm nd m4 := fun hw i hi => (hf4 _ _ (by simp)).trans (ha3 hw i hi)
  have hnc : 0 < ccRk ρ nd mm := by
    obtain ⟨r, hr1, hr2⟩ := hn.mem _ (hr.mem _ (hn.val 0 hmm))
    have := ccRk_lt (ρ := ρ) (nd := nd) hr1 (by rw [hr2]; exact hr.idem _ (hn.val 0 hmm))
    omega
  have s3 : (ccRk ρ nd mm : Int) ≤ ccSize sz k' A.m T mm (ccRk ρ nd mm) (.itmp 3) := Int.le_refl _
  have s4 : (ccRk ρ nd mm : Int) ≤ ccSize sz k' A.m T mm (ccRk ρ nd mm) (.itmp 4) := Int.le_refl _
  have s5 : (mm : Int) ≤ ccSize sz k' A.m T mm (ccRk ρ nd mm) (.itmp 5) := by show (mm : Int) ≤ (A.m : Int); omega
  have sr : ((ccRk ρ nd mm : Int) + 1) * T ≤ ccSize sz k' A.m T mm (ccRk ρ nd mm) (.rowptr k') := by
    show _ ≤ if k' = k' then _ else _
    rw [if_pos rfl]
  refine ccMap_ok hn ha4 hT (show (A.m : Int) ≤ _ from Int.le_refl _) s3
    (fun x hx => (hf4 _ _ (by simp)).trans (hp3 x hx)) hc4 ?_
  intro _ m5 hm5 hf5
  have hixe : ∀ i, ∃ r, i < mm → r < mm ∧ nd r = ρ (nd i) := by
    intro i
    by_cases hi : i < mm
    · obtain ⟨r, h⟩ := hn.mem _ (hr.mem _ (hn.val i hi)); exact ⟨r, fun _ => h⟩
    · exact ⟨0, fun h => (hi h).elim⟩
  obtain ⟨ix, hix⟩ := Classical.axiomOfChoice hixe
  have hixr : ∀ i, i < mm → ρ (nd (ix i)) = nd (ix i) := fun i hi => by
    rw [(hix i hi).2]; exact hr.idem _ (hn.val i hi)
  let key : Nat → Nat := fun i => ccRk ρ nd (ix i)
  have hkey : ∀ i, i < mm → ∃ r, r < mm ∧ nd r = ρ (nd i) ∧ key i = ccRk ρ nd r := fun i hi => ⟨ix i, (hix i hi).1, (hix i hi).2, rfl⟩
  have hkl : ∀ i, i < mm → key i < ccRk ρ nd mm := fun i hi => ccRk_lt (hix i hi).1 (hixr i hi)
  have hka : KeyAt wb mm nd key m5 := by
    refine ⟨fun hw i hi => (hf5 _ _ (by simp) (by simp)).trans (ha4 hw i hi), fun i hi => ⟨(ρ (nd i) : Int), ?_, ?_⟩⟩
    · exact (hf5 _ _ (by simp) (by simp)).trans ((hf4 _ _ (by simp)).trans (hp3 _ (hn.val i hi)))
    · have := (hm5 (ix i) (hix i hi).1 (hixr i hi)).2
      rw [(hix i hi).2] at this
      exact this
  generalize hNC : ccRk ρ nd mm = NC at *
  refine ccCount_ok hn hka hkl hT sr ?_
  intro _ m6 hc6 hf6
  have hwfB := ccB_wf hkl
  let B := ccB mm NC key
  let cut := rowCut T mm
  have hT0 : TrCells m6 k' NC T fun i => (trE B cut T (i + 1) : Int) - trE B cut T i := by
    intro i hi
    have ei : i = i / T * T + i % T := by rw [Nat.mul_comm]; exact (Nat.div_add_mod i T).symm
    have ht : i % T < T := Nat.mod_lt _ hT
    have hc : i / T < NC := Nat.div_lt_of_lt_mul (by rw [Nat.mul_comm]; exact hi)
    show m6 (.rowptr k') (trIdx (i : Int) T NC) = some ((trE B cut T (i + 1) : Int) - trE B cut T i)
    generalize i / T = c at ei hc
    generalize i % T = t at ei ht
    subst ei
    rw [trIdx_cell c t T NC ht, hc6 t c ht hc, trE_next hwfB (rowCut_zero mm) (rowCut_last hT mm) ht, trE_cell B cut ht]
    refine congrArg some (?_ : (_ : Int) = _)
    show ((B.cnt c (cut (t + 1)) : Int) - B.cnt c (cut t)) = ((B.tPtr c + B.cnt c (cut (t + 1)) : Nat) : Int) - ((B.tPtr c + B.cnt c (cut t) : Nat) : Int)
    push_cast; omega
  have hEz := trE_zero (cut := cut) hwfB (rowCut_zero mm) T
  refine trScan_ok hnc sr hT0 ?_
  intro _ m7 hc7 hf7
  refine seq_rule (wp_trMaster hT hnc (fun _ _ => trivial) (fun _ _ => trivial) sr hEz hc7 ?_)
  intro _ m8 hc8 hf8
  refine trAdd_ok hnc sr hEz hc8 ?_
  intro _ m9 hc9 hf9
  have hcell : ∀ t c : Nat, t < T → c < NC → m9 (.rowptr k') ((t : Int) * NC + c) = some ((B.tPtr c : Int) + B.cnt c (cut (t + 1))) := by
    intro t c ht hc
    have hi : c * T + t < NC * T := by
      have : (c + 1) * T ≤ NC * T := Nat.mul_le_mul_right T hc
      rw [Nat.add_mul] at this; omega
    have := hc9 (c * T + t) hi
    rw [trIdx_cell c t T NC ht] at this
    rw [this]
    show some ((trE B cut T (c * T + t + 1) : Int)) = _
    rw [trE_next hwfB (rowCut_zero mm) (rowCut_last hT mm) ht]; push_cast; rfl
  refine ccSizes_ok (P := B.tPtr) hT hnc s4 rfl (fun c _ => by rw [show B.tPtr (c + 1) = _ from Csr.tPtr_succ hwfB c]; exact Nat.le_add_right _ _) ?_ ?_
  · intro c hc
    have := hcell (T - 1) c (by omega) hc
    rw [show ((T - 1 : Nat) : Int) = (T : Int) - 1 by omega, show T - 1 + 1 = T by omega, show cut T = mm from rowCut_last hT mm] at this
    rw [show (c : Int) + (NC : Int) * ((T : Int) - 1) = ((T : Int) - 1) * NC + c by rw [Int.mul_comm, Int.add_comm], this]
    rw [Csr.tPtr_succ hwfB c]; push_cast; rfl
  intro _ m10 hs10 hf10
  have hka10 : KeyAt wb mm nd key m10 := by
    refine hka.of ?_
    intro j i hj
    rw [hf10 _ _ (by simp; omega), hf9 _ _ (by simp), hf8 _ _ (by simp), hf7 _ _ (by simp), hf6 _ _ (by simp)]
  refine ccPlace_ok hn hka10 hkl hT sr s5 (fun t c ht hc => by rw [hf10 _ _ (by simp)]; exact hcell t c ht hc) ?_
  intro _ m11 hc11 hn11 hf11
  refine Script.ok_done_of ?_
  have hrte : ∀ c, ∃ r, c < NC → r < mm ∧ ρ (nd r) = nd r ∧ ccRk ρ nd r = c := by
    intro c
    by_cases hc : c < NC
    · rw [← hNC] at hc; obtain ⟨r, h⟩ := ccRk_find hc; exact ⟨r, fun _ => h⟩
    · exact ⟨0, fun h => (hc h).elim⟩
  obtain ⟨rt, hrt⟩ := Classical.axiomOfChoice hrte
  have hnde : ∀ p, ∃ v : Nat, ∀ i, i < mm → B.tPos i = p → v = nd i := by
    intro p
    by_cases h : ∃ i, i < mm ∧ B.tPos i = p
    · obtain ⟨i, hi, e⟩ := h
      refine ⟨nd i, fun j hj e' => ?_⟩
      rw [B.tPos_inj hwfB (show i < mm from hi) (show j < mm from hj) (by omega)]
    · exact ⟨0, fun i hi e => (h ⟨i, hi, e⟩).elim⟩
  obtain ⟨node, hnode⟩ := Classical.axiomOfChoice hnde
  have hrkinj : ∀ r s, ρ (nd r) = nd r → ρ (nd s) = nd s → ccRk ρ nd r = ccRk ρ nd s → r = s := by
    intro r s h1 h2 h3
    rcases Nat.lt_trichotomy r s with h | h | h
    · have := ccRk_lt h h1; omega
    · exact h
    · have := ccRk_lt h h2; omega
  have hcomp := cc_components (V := ccV wb bv A.m) (root := fun c => nd (rt c)) (node := node) rfl hn hr hkey
    (fun i hi hri => by
      have hlt : ccRk ρ nd i < NC := by rw [← hNC]; exact ccRk_lt hi hri
      obtain ⟨q1, q2, q3⟩ := hrt _ hlt
      show nd (rt (ccRk ρ nd i)) = nd i
      rw [hrkinj _ _ q2 hri q3])
    (fun i hi => by
      have : ccB mm (ccRk ρ nd mm) key = B := by rw [hNC]
      rw [this]; exact hnode _ i hi rfl)
  rw [hNC] at hcomp
  refine ⟨fun x y => ρ x = ρ y, _, _, _, _, ⟨fun _ => rfl, fun h => h.symm, fun h1 h2 => h1.trans h2⟩, ?_, ?_, hcomp, ?_, ?_, ?_, ?_, ?_⟩
  · intro x y hx hy hE
    have hE : ρ x = ρ y := hE
    exact (hlink x hx).trans (by rw [hE]; exact (hlink y hy).symm)
  · intro h x y _ _ hl; exact hexact h x y hl
  · intro c hc
    obtain ⟨q1, q2, q3⟩ := hrt c hc
    have := (hm5 (rt c) q1 q2).1
    rw [q3] at this
    rw [hf11 _ _ (by simp) (by simp), hf10 _ _ (by simp), hf9 _ _ (by simp), hf8 _ _ (by simp), hf7 _ _ (by simp), hf6 _ _ (by simp)]
    exact this
  · intro c hc
    rw [hf11 _ _ (by simp) (by simp)]; exact hs10 c hc
  · exact hc11
  · intro c j hc hj
    have hj : j < B.tPtr (c + 1) - B.tPtr c := hj
    have hst : B.tPtr (c + 1) = B.tPtr c + B.cnt c mm := Csr.tPtr_succ hwfB c
    obtain ⟨i, g1, g2, g3⟩ := cnt_find B (show j < B.cnt c mm by omega)
    have : B.tPos i = B.tPtr c + j := by unfold Csr.tPos; rw [g2, g3]
    show m11 (.itmp 5) ((B.tPtr c + j : Nat) : Int) = some (node (B.tPtr c + j) : Int)
    rw [← this, hnode _ i g1 rfl]; exact hn11 i g1
  · intro a i hna
    have e : ∀ j, j ≤ 8 → a ≠ .itmp j := fun j hj h => hna (Or.inr ⟨j, hj, h⟩)
    have e' : a ≠ .rowptr k' := fun h => hna (Or.inl h)
    rw [hf11 _ _ e' (e 5 (by omega)), hf10 _ _ (e 4 (by omega)), hf9 _ _ e', hf8 _ _ e', hf7 _ _ e', hf6 _ _ e',
      hf5 _ _ (e 2 (by omega)) (e 3 (by omega)), hf4 _ _ (e 1 (by omega)), hf3 _ _ (e 0 (by omega)) (e 1 (by omega)),
      hI2.frame _ _ (e 0 (by omega)), hf1 _ _ (e 0 (by omega))]

/-! ### The nodes not yet visited -/

/-- Number of unvisited nodes below `i`. -/
def ccU (bv : Nat → Bool) (i : Nat) : Nat := ccRk (fun x => if bv x then x + 1 else x) id i

theorem ccU_root {i : Nat} : (fun x => if bv x then x + 1 else x) (id i) = id i ↔ bv i = false := by
  cases h : bv i <;> simp [h]

theorem ccU_succ (bv : Nat → Bool) (i : Nat) : ccU bv (i + 1) = ccU bv i + if bv i = false then 1 else 0 := by
  show ccU bv i + _ = _
  cases h : bv i <;> simp [h]

theorem ccU_mono (bv : Nat → Bool) {i j : Nat} (h : i ≤ j) : ccU bv i ≤ ccU bv j := ccRk_mono _ _ h

theorem ccU_lt {i j : Nat} (h : i < j) (hb : bv i = false) : ccU bv i < ccU bv j := ccRk_lt h (ccU_root.2 hb)

theorem ccU_find {c i : Nat} (h : c < ccU bv i) : ∃ j, j < i ∧ bv j = false ∧ ccU bv j = c := by
  obtain ⟨j, h1, h2, h3⟩ := ccRk_find h
  exact ⟨j, h1, ccU_root.1 h2, h3⟩

theorem ccU_slow (bv : Nat → Bool) {i j : Nat} (h : i ≤ j) : ccU bv j + i ≤ ccU bv i + j := by
  induction j with
  | zero => obtain rfl : i = 0 := by omega
            exact Nat.le_refl _
  | succ j ih =>
    by_cases he : i = j + 1
    · subst he; omega
    · have := ih (by omega)
      have := ccU_succ bv j
      split at this <;> omega

theorem ccU_inj {i j : Nat} (h1 : bv i = false) (h2 : bv j = false) (h : ccU bv i = ccU bv j) : i = j := by
  rcases Nat.lt_trichotomy i j with g | g | g
  · have := ccU_lt g h1; omega
  · exact g
  · have := ccU_lt g h2; omega

/-- The node of each rank. -/
theorem ccU_nodes (bv : Nat → Bool) (m : Nat) : ∃ nd, CcNodes true bv m (ccU bv m) nd ∧ ∀ x, x < m → bv x = false → nd (ccU bv x) = x := by
  have h : ∀ c, ∃ j, c < ccU bv m → j < m ∧ bv j = false ∧ ccU bv j = c := by
    intro c
    by_cases hc : c < ccU bv m
    · obtain ⟨j, h⟩ := ccU_find hc; exact ⟨j, fun _ => h⟩
    · exact ⟨0, fun h => (hc h).elim⟩
  obtain ⟨nd, hnd⟩ := Classical.axiomOfChoice h
  have hx : ∀ x, x < m → bv x = false → nd (ccU bv x) = x := fun x h1 h2 => by
    obtain ⟨q1, q2, q3⟩ := hnd _ (ccU_lt h1 h2)
    exact ccU_inj q2 h2 q3
  refine ⟨nd, ⟨fun i hi => ⟨(hnd i hi).1, fun _ => (hnd i hi).2.1⟩, ?_, fun x h => ⟨_, ccU_lt h.1 (h.2 rfl), hx x h.1 (h.2 rfl)⟩,
    fun h => by simp at h⟩, hx⟩
  intro i j hij hj
  rcases Nat.lt_or_ge (nd i) (nd j) with g | g
  · exact g
  · have := ccU_mono bv g
    rw [(hnd i (by omega)).2.2, (hnd j hj).2.2] at this; omega

/-- Collecting the unvisited nodes. -/
theorem ccCollect_ok {m : Nat} {nd : Nat → Nat} {m0 : Mem (CTy R)} {α : Type} {Q : α → Mem (CTy R) → Prop} {f : (Nat → Int) → Script (CTy R) α}
    (hnd : ∀ x, x < m → bv x = false → nd (ccU bv x) = x) (hT : 1 ≤ T) (hs7 : (m : Int) * T ≤ sz (.itmp 7)) (hs8 : (T : Int) + 1 ≤ sz (.itmp 8))
    (hf : ∀ c m', (∀ t, t < T → c t = (ccU bv (rowCut T m (t + 1)) : Int) - ccU bv (rowCut T m t)) →
      (∀ t, t < T → ∀ r, ccU bv (rowCut T m t) ≤ r → r < ccU bv (rowCut T m (t + 1)) →
        m' (.itmp 7) ((m : Int) * t + ((r : Int) - ccU bv (rowCut T m t))) = some (nd r : Int)) →
      (∀ t : Nat, t < T → m' (.itmp 8) ((t : Int) + 1) = some ((ccU bv (rowCut T m (t + 1)) : Int) - ccU bv (rowCut T m t))) →
      m' (.itmp 8) 0 = m0 (.itmp 8) 0 → (∀ a i, a ≠ .itmp 7 → a ≠ .itmp 8 → m' a i = m0 a i) → (f c).Ok m' Q) :
    (Script.phase sz T (ccCollect bv m T) f).Ok m0 Q := by
  let Own : Nat → CArr → Int → Prop := fun t a i => (a = .itmp 7 ∧ ∃ c : Nat, c < m ∧ i = (m : Int) * t + c) ∨ (a = .itmp 8 ∧ i = (t : Int) + 1)
  refine par_rule (W := Own) (R := Own)
    (Q := fun t c m' => c = (ccU bv (rowCut T m (t + 1)) : Int) - ccU bv (rowCut T m t) ∧
      (∀ r, ccU bv (rowCut T m t) ≤ r → r < ccU bv (rowCut T m (t + 1)) →
        m' (.itmp 7) ((m : Int) * t + ((r : Int) - ccU bv (rowCut T m t))) = some (nd r : Int)) ∧
      m' (.itmp 8) ((t : Int) + 1) = some ((ccU bv (rowCut T m (t + 1)) : Int) - ccU bv (rowCut T m t))) ?_ ?_ ?_
  · rintro t u a i ht hu htu (⟨rfl, c, hc, rfl⟩ | ⟨rfl, rfl⟩) (⟨e, c', hc', e'⟩ | ⟨e, e'⟩)
    · rcases Nat.lt_or_gt_of_ne htu with h | h
      · have := Nat.mul_le_mul_left m (show t + 1 ≤ u from h)
        rw [Nat.mul_add] at this
        have : (m : Int) * t + m ≤ (m : Int) * u := by exact_mod_cast (by omega : m * t + m ≤ m * u)
        omega
      · have := Nat.mul_le_mul_left m (show u + 1 ≤ t from h)
        rw [Nat.mul_add] at this
        have : (m : Int) * u + m ≤ (m : Int) * t := by exact_mod_cast (by omega : m * u + m ≤ m * t)
        omega
    · simp at e
    · simp at e
    · omega
  · intro t ht
    show wp sz _ _ (ccCollect bv m T t) m0 _
    unfold ccCollect
    rw [rowCut_eq hT, rowCut_end hT, wp_bind]
    have hle := rowCut_le hT m (t + 1)
    have hmo := rowCut_mono hT m (t := t) (u := t + 1) (by omega)
    generalize rowCut T m t = lo at *
    generalize rowCut T m (t + 1) = hi at *
    refine wp_forN (b := 0) (lo := lo) (hi := hi) (fun x c m' => c = (ccU bv x : Int) - ccU bv lo ∧ ∀ r, ccU bv lo ≤ r → r < ccU bv x →
        m' (.itmp 7) ((m : Int) * t + ((r : Int) - ccU bv lo)) = some (nd r : Int)) hmo ⟨(Int.sub_self _).symm, fun r _ _ => by omega⟩ ?_ ?_
      (Int.add_zero _).symm (Int.add_zero _).symm
    · rintro x c m' h1 h2 ⟨rfl, g1⟩
      rw [Int.add_zero, Int.toNat_natCast]
      have hs := ccU_succ bv x
      have hm1 := ccU_mono bv h1
      by_cases hb : bv x = false
      · rw [if_pos hb] at hs ⊢
        have hsl := ccU_slow bv h1
        have hpos : (0 : Int) ≤ (m : Int) * t := by positivity
        have hcap : (m : Int) * t + m ≤ (m : Int) * T := by
          have := Nat.mul_le_mul_left m (show t + 1 ≤ T from ht)
          rw [Nat.mul_add] at this
          exact_mod_cast (by omega : m * t + m ≤ m * T)
        rw [wp_bind]
        refine wp_wr1 (Or.inl ⟨rfl, ccU bv x - ccU bv lo, by omega, by omega⟩) ⟨by omega, by omega⟩ ?_
        refine wp_pure.2 ⟨by omega, fun r q1 q2 => ?_⟩
        by_cases e : r = ccU bv x
        · subst e; rw [hnd x (by omega) hb]; exact Mem.get_same _ _ _ _
        · rw [Mem.get_ne _ _ _ _ _ (by omega)]; exact g1 r q1 (by omega)
      · rw [if_neg hb] at hs ⊢
        refine wp_pure.2 ⟨by omega, fun r q1 q2 => g1 r q1 (by omega)⟩
    · rintro c m' ⟨rfl, g1⟩
      rw [wp_bind]
      refine wp_wr1 (Or.inr ⟨rfl, rfl⟩) ⟨by omega, by omega⟩ ?_
      refine wp_pure.2 ⟨rfl, fun r q1 q2 => ?_, Mem.get_same _ _ _ _⟩
      rw [Mem.set_other _ _ _ _ _ (by simp)]; exact g1 r q1 q2
  · intro c m' hq hfr
    refine hf c m' ?_ ?_ ?_ ?_ ?_
    · intro t ht; obtain ⟨mt, h, _⟩ := hq t ht; exact h.1
    · intro t ht r h1 h2
      obtain ⟨mt, ⟨_, h, _⟩, hR⟩ := hq t ht
      have hle := rowCut_le hT m (t + 1)
      have hsl := ccU_slow bv (rowCut_mono hT m (t := t) (u := t + 1) (by omega))
      rw [hR _ _ (Or.inl ⟨rfl, r - ccU bv (rowCut T m t), by omega, by omega⟩)]; exact h r h1 h2
    · intro t ht; obtain ⟨mt, ⟨_, _, h⟩, hR⟩ := hq t ht
      rw [hR _ _ (Or.inr ⟨rfl, rfl⟩)]; exact h
    · refine hfr _ _ ?_
      rintro t _ (⟨e, _⟩ | ⟨_, e⟩)
      · simp at e
      · omega
    · intro a i h7 h8
      refine hfr _ _ ?_
      rintro t _ (⟨e, _⟩ | ⟨e, _⟩)
      · exact h7 e
      · exact h8 e

theorem ccCopy_ok {m : Nat} {nd : Nat → Nat} {c : Nat → Int} {m0 : Mem (CTy R)} {α : Type} {Q : α → Mem (CTy R) → Prop}
    {f : (Nat → Unit) → Script (CTy R) α} (hT : 1 ≤ T) (hs6 : (ccU bv m : Int) ≤ sz (.itmp 6))
    (hc : ∀ t, t < T → c t = (ccU bv (rowCut T m (t + 1)) : Int) - ccU bv (rowCut T m t))
    (h7 : ∀ t, t < T → ∀ r, ccU bv (rowCut T m t) ≤ r → r < ccU bv (rowCut T m (t + 1)) →
        m0 (.itmp 7) ((m : Int) * t + ((r : Int) - ccU bv (rowCut T m t))) = some (nd r : Int))
    (h8 : ∀ t : Nat, t ≤ T → m0 (.itmp 8) (t : Int) = some (ccU bv (rowCut T m t) : Int))
    (hf : ∀ u m', (∀ r : Nat, r < ccU bv m → m' (.itmp 6) (r : Int) = some (nd r : Int)) → (∀ a i, a ≠ .itmp 6 → m' a i = m0 a i) → (f u).Ok m' Q) :
    (Script.phase sz T (fun t => ccCopy m t (c t)) f).Ok m0 Q := by
  let Own : Nat → CArr → Int → Prop := fun t a i => a = .itmp 6 ∧ (ccU bv (rowCut T m t) : Int) ≤ i ∧ i < ccU bv (rowCut T m (t + 1))
  refine par_rule (W := Own) (R := fun t a i => a ≠ .itmp 6 ∨ Own t a i)
    (Q := fun t _ m' => ∀ r : Nat, ccU bv (rowCut T m t) ≤ r → r < ccU bv (rowCut T m (t + 1)) → m' (.itmp 6) (r : Int) = some (nd r : Int)) ?_ ?_ ?_
  · rintro t u a i ht hu htu ⟨rfl, h1, h2⟩ (h | ⟨_, h3, h4⟩)
    · exact h rfl
    · rcases Nat.lt_or_gt_of_ne htu with h | h
      · have := ccU_mono bv (rowCut_mono hT m (show t + 1 ≤ u from h)); omega
      · have := ccU_mono bv (rowCut_mono hT m (show u + 1 ≤ t from h)); omega
  · intro t ht
    show wp sz _ _ (ccCopy m t (c t)) m0 _
    unfold ccCopy
    have hmo := ccU_mono bv (rowCut_mono hT m (t := t) (u := t + 1) (by omega))
    have hle := ccU_mono bv (rowCut_le hT m (t + 1))
    refine wp_rd _ (Or.inl (by simp)) (h8 t (by omega)) ?_
    have ec : c t = ((ccU bv (rowCut T m (t + 1)) - ccU bv (rowCut T m t) : Nat) : Int) := by rw [hc t ht]; omega
    rw [ec]
    refine wp_forN (b := 0) (lo := 0) (hi := ccU bv (rowCut T m (t + 1)) - ccU bv (rowCut T m t))
      (fun x _ m' => (∀ r : Nat, ccU bv (rowCut T m t) ≤ r → r < ccU bv (rowCut T m t) + x → m' (.itmp 6) (r : Int) = some (nd r : Int)) ∧
        ∀ a i, a ≠ .itmp 6 → m' a i = m0 a i) (Nat.zero_le _) ⟨fun r _ _ => by omega, fun _ _ _ => rfl⟩ ?_
      (fun _ _ h r q1 q2 => h.1 r q1 (by omega)) rfl (Int.add_zero _).symm
    rintro x _ m' _ h2 ⟨g1, g2⟩
    rw [Int.add_zero]
    have := h7 t ht (ccU bv (rowCut T m t) + x) (by omega) (by omega)
    rw [show (m : Int) * t + (((ccU bv (rowCut T m t) + x : Nat) : Int) - ccU bv (rowCut T m t)) = (m : Int) * t + x by omega] at this
    refine wp_rd _ (Or.inl (by simp)) ((g2 _ _ (by simp)).trans this) ?_
    show wp sz _ _ (Prog.write (ty := CTy R) (.itmp 6) ((ccU bv (rowCut T m t) : Int) + x) (nd (ccU bv (rowCut T m t) + x) : Int)) m' _
    refine wp_wr1 ⟨rfl, by omega, by omega⟩ ⟨by omega, by omega⟩ ⟨fun r q1 q2 => ?_, fun a i ha => ?_⟩
    · by_cases e : r = ccU bv (rowCut T m t) + x
      · subst e; rw [show ((ccU bv (rowCut T m t) + x : Nat) : Int) = (ccU bv (rowCut T m t) : Int) + x by push_cast; rfl]
        exact Mem.get_same _ _ _ _
      · rw [Mem.get_ne _ _ _ _ _ (by omega)]; exact g1 r q1 (by omega)
    · rw [Mem.set_other _ _ _ _ _ ha]; exact g2 a i ha
  · intro u m' hq hfr
    refine hf u m' ?_ fun a i ha => hfr a i fun t _ h => ha h.1
    intro r hr
    obtain ⟨j, j1, j2, j3⟩ := ccU_find hr
    obtain ⟨t, ht, t1, t2⟩ := rowCut_find hT j1
    have a1 := ccU_mono bv t1
    have a2 := ccU_lt t2 j2
    obtain ⟨mt, h, hR⟩ := hq t ht
    rw [hR _ _ (Or.inr ⟨rfl, by omega, by omega⟩)]
    exact h r (by omega) (by omega)

theorem CcDone.of_frame {V : Nat → Prop} {nc : Nat} {E : Nat → Nat → Prop} {root size start node : Nat → Nat} {m0 m0' m : Mem (CTy R)}
    (h : CcDone A V k' T nc E root size start node m0' m) (hf : ∀ a i, ¬ CcArr k' a → m0' a i = m0 a i) :
    CcDone A V k' T nc E root size start node m0 m :=
  { h with frame := fun a i ha => (h.frame a i ha).trans (hf a i ha) }

theorem findComponents_ok {m0 : Mem (CTy R)} (hwf : A.WF) (hp : HoldsPat m0 k base A) (hkk : k' ≠ k)
    (hcl : CcClosed A (ccV wb bv A.m)) (hne : ∃ x, ccV wb bv A.m x) (hT : 1 ≤ T) :
    (findComponents sz T k k' base wb bv A.m).Ok m0 (fun nc m => ∃ E root size start node,
      CcDone A (ccV wb bv A.m) k' T nc E root size start node m0 m) := by
  have i8 : ∀ (j : Nat) (a : CArr), j ≤ 8 → ¬ CcArr k' a → a ≠ .itmp j := fun j a hj h e => h (Or.inr ⟨j, hj, e⟩)
  unfold findComponents
  dsimp only
  refine seq_rule ?_
  refine wp_wr1 trivial ⟨by omega, by show (0 : Int) < (T : Int) + 1; omega⟩ ?_
  have hp1 : HoldsPat (m0.set (.itmp 1) 0 ((0 : Int) : CTy R (.itmp 1))) k base A :=
    ⟨fun i hi => by rw [Mem.set_other _ _ _ _ _ (by simp)]; exact hp.rowptr i hi,
     fun j hj => by rw [Mem.set_other _ _ _ _ _ (by simp)]; exact hp.colidx j hj⟩
  cases wb with
  | false =>
    obtain ⟨x, hx⟩ := hne
    rw [if_neg (by simp)]
    refine (ccMain_ok (nd := fun i => i) (mm := A.m) hwf hp1 hkk ⟨fun i hi => ⟨hi, fun h => by simp at h⟩, fun i j h _ => h,
      fun x h => ⟨x, h.1, rfl⟩, fun _ => ⟨rfl, fun _ => rfl⟩⟩ (fun h => by simp at h) hcl (by have := hx.1; omega) (Nat.le_refl _) hT
      (Mem.get_same _ _ _ _)).mono ?_
    rintro nc m ⟨E, r, s, st, n, h⟩
    exact ⟨E, r, s, st, n, h.of_frame fun a i ha => by rw [Mem.set_other _ _ _ _ _ (i8 1 a (by omega) ha)]⟩
  | true =>
    rw [if_pos rfl]
    refine seq_rule ?_
    refine wp_wr1 trivial ⟨by omega, by show (0 : Int) < (T : Int) + 1; omega⟩ ?_
    obtain ⟨nd, hn, hnd⟩ := ccU_nodes bv A.m
    refine ccCollect_ok hnd hT (Int.le_refl _) (Int.le_refl _) ?_
    intro c m1 hc1 h71 h81 hz1 hf1
    refine seq_rule (wp_ccSum (F := fun t => ccU bv (rowCut T A.m t)) hT (fun _ _ => trivial) (fun _ _ => trivial) (Int.le_refl _)
      (by show ccU bv (rowCut T A.m 0) = 0; rw [rowCut_zero]; rfl) (hz1.trans (Mem.get_same _ _ _ _)) h81 ?_)
    intro m2 h82 hf2
    have en : (((fun t => ccU bv (rowCut T A.m t)) T : Nat) : Int).toNat = ccU bv A.m := by
      show ((ccU bv (rowCut T A.m T) : Nat) : Int).toNat = _
      rw [rowCut_last hT, Int.toNat_natCast]
    rw [en]
    refine ccCopy_ok hT (Int.le_refl _) hc1 (fun t ht r q1 q2 => (hf2 _ _ (by simp)).trans (h71 t ht r q1 q2)) h82 ?_
    intro _ m3 h63 hf3
    have hfr : ∀ a i, a ≠ .itmp 6 → a ≠ .itmp 7 → a ≠ .itmp 8 → m3 a i = (m0.set (.itmp 1) 0 ((0 : Int) : CTy R (.itmp 1))) a i := by
      intro a i e6 e7 e8
      rw [hf3 _ _ e6, hf2 _ _ e8, hf1 _ _ e7 e8, Mem.set_other _ _ _ _ _ e8]
    obtain ⟨x, hx⟩ := hne
    have hpos := ccU_lt hx.1 (hx.2 rfl)
    have hle := ccU_slow bv (Nat.zero_le A.m)
    rw [show ccU bv 0 = 0 from rfl] at hle
    refine (ccMain_ok (nd := nd) (mm := ccU bv A.m) hwf ⟨fun i hi => by rw [hfr _ _ (by simp) (by simp) (by simp)]; exact hp1.rowptr i hi,
      fun i hi => by rw [hfr _ _ (by simp) (by simp) (by simp)]; exact hp1.colidx i hi⟩ hkk hn (fun _ i hi => h63 i hi) hcl (by omega) (by omega) hT
      ((hfr _ _ (by simp) (by simp) (by simp)).trans (Mem.get_same _ _ _ _))).mono ?_
    rintro nc m ⟨E, r, s, st, n, h⟩
    refine ⟨E, r, s, st, n, h.of_frame fun a i ha => ?_⟩
    rw [hfr _ _ (i8 6 a (by omega) ha) (i8 7 a (by omega) ha) (i8 8 a (by omega) ha), Mem.set_other _ _ _ _ _ (i8 1 a (by omega) ha)]

end SpMP
