import Verif.CompUnion
/-
The counting sort of findConnectedComponents_: bucket counts, component sizes, placement of the nodes.
-/

namespace SpMP
open Spec

variable {R : Type} {sz : CArr → Int} {k' T : Nat} {wb : Bool} {bv : Nat → Bool}

/-- One entry per node: its component number. -/
def ccB (mm nc : Nat) (key : Nat → Nat) : Csr Unit := ⟨mm, nc, fun i => i, key, fun _ => ()⟩

theorem ccB_wf {mm nc : Nat} {key : Nat → Nat} (h : ∀ i, i < mm → key i < nc) : (ccB mm nc key).WF :=
  ⟨rfl, fun _ _ => Nat.le_succ _, h⟩

/-- The memory gives the component number of every node. -/
structure KeyAt (wb : Bool) (mm : Nat) (nd key : Nat → Nat) (m : Mem (CTy R)) : Prop where
  nodes : NodesAt wb mm nd m
  key : ∀ i, i < mm → ∃ r : Int, m (.itmp 0) (nd i : Int) = some r ∧ m (.itmp 2) r = some (key i : Int)

theorem KeyAt.of {mm : Nat} {nd key : Nat → Nat} {m m' : Mem (CTy R)} (h : KeyAt wb mm nd key m)
    (e : ∀ j i, j = 0 ∨ j = 2 ∨ j = 6 → m' (.itmp j) i = m (.itmp j) i) : KeyAt wb mm nd key m' :=
  ⟨fun hw i hi => (e _ _ (by simp)).trans (h.nodes hw i hi),
   fun i hi => by obtain ⟨r, h1, h2⟩ := h.key i hi; exact ⟨r, (e _ _ (by simp)).trans h1, (e _ _ (by simp)).trans h2⟩⟩

theorem ccCount_ok {mm nc m : Nat} {nd key : Nat → Nat} {m0 : Mem (CTy R)} {α : Type} {Q : α → Mem (CTy R) → Prop}
    {f : (Nat → Unit) → Script (CTy R) α} (hn : CcNodes wb bv m mm nd) (hk : KeyAt wb mm nd key m0) (hkey : ∀ i, i < mm → key i < nc)
    (hT : 1 ≤ T) (hsz : ((nc : Int) + 1) * T ≤ sz (.rowptr k'))
    (hf : ∀ u m, (∀ t c : Nat, t < T → c < nc → m (.rowptr k') ((t : Int) * nc + c) =
        some (((ccB mm nc key).cnt c (rowCut T mm (t + 1)) : Int) - (ccB mm nc key).cnt c (rowCut T mm t))) →
      (∀ a i, a ≠ .rowptr k' → m a i = m0 a i) → (f u).Ok m Q) :
    (Script.phase sz T (ccCount k' wb mm nc T) f).Ok m0 Q := by
  refine par_rule (W := fun t a i => TrRow k' nc t a i) (R := fun t a i => a ≠ .rowptr k' ∨ TrRow k' nc t a i)
    (Q := fun t _ m => ∀ c : Nat, c < nc → m (.rowptr k') ((t : Int) * nc + c) =
        some (((ccB mm nc key).cnt c (rowCut T mm (t + 1)) : Int) - (ccB mm nc key).cnt c (rowCut T mm t))) ?_ ?_ ?_
  · rintro t u a i ht hu htu h1 (h2 | h2)
    · exact h2 h1.1
    · exact htu (h1.inj h2)
  · intro t ht
    show wp sz _ _ (ccCount k' wb mm nc T t) m0 _
    unfold ccCount
    rw [wp_bind, rowCut_eq hT, rowCut_end hT]
    refine wp_forN (b := 0) (lo := 0) (hi := nc)
      (fun i _ m' => (∀ c : Nat, c < i → m' (.rowptr k') ((t : Int) * nc + c) = some (0 : Int)) ∧
        ∀ a j, a ≠ .rowptr k' → m' a j = m0 a j) (Nat.zero_le _) ⟨fun c hc => by omega, fun _ _ _ => rfl⟩ ?_ ?_ (by simp) (by simp)
    · rintro i _ m' - hi ⟨h1, h2⟩
      rw [Int.add_zero]
      refine wp_wr1 ⟨rfl, i, hi, rfl⟩ ⟨(cell_lt ht hi).1, Int.lt_of_lt_of_le (cell_lt ht hi).2 hsz⟩ ⟨?_, ?_⟩
      · intro c hc
        by_cases he : c = i
        · subst he; exact Mem.get_same _ _ _ _
        · rw [Mem.get_ne _ _ _ _ _ (by omega)]; exact h1 c (by omega)
      · intro a j ha
        exact (congrFun (Mem.set_other _ _ _ _ _ ha) _).trans (h2 a j ha)
    rintro _ m1 ⟨hz, hf1⟩
    refine wp_forN (b := 0) (lo := rowCut T mm t) (hi := rowCut T mm (t + 1))
      (fun x _ m' => (∀ c : Nat, c < nc → m' (.rowptr k') ((t : Int) * nc + c) =
          some (((ccB mm nc key).cnt c x : Int) - (ccB mm nc key).cnt c (rowCut T mm t))) ∧
        ∀ a j, a ≠ .rowptr k' → m' a j = m0 a j) (rowCut_mono hT mm (by omega)) ⟨?_, hf1⟩ ?_ (fun _ _ h => h.1) (Int.add_zero _).symm (Int.add_zero _).symm
    · intro c hc; rw [hz c hc, Int.sub_self]
    · rintro x _ m' h1 h2 ⟨g1, g2⟩
      rw [Int.add_zero]
      have hx : x < mm := Nat.lt_of_lt_of_le h2 (rowCut_le hT mm _)
      have hk' : KeyAt wb mm nd key m' := hk.of (fun j i _ => g2 _ _ (by simp))
      obtain ⟨r, hr1, hr2⟩ := hk'.key x hx
      have hc := hkey x hx
      rw [wp_bind]
      refine wp_ccNode hn hk'.nodes hx (fun _ => Or.inl (by simp)) ?_
      refine wp_rd _ (Or.inl (by simp)) hr1 ?_
      refine wp_rd _ (Or.inl (by simp)) hr2 ?_
      refine wp_rd _ (Or.inr ⟨rfl, _, hc, rfl⟩) (g1 _ hc) ?_
      refine wp_wr1 ⟨rfl, _, hc, rfl⟩ ⟨(cell_lt ht hc).1, Int.lt_of_lt_of_le (cell_lt ht hc).2 hsz⟩ ⟨?_, ?_⟩
      · intro c hc'
        have es : (ccB mm nc key).cnt c (x + 1) = (ccB mm nc key).cnt c x + if key x = c then 1 else 0 := rfl
        by_cases he : key x = c
        · subst he
          rw [Mem.get_same, es, if_pos rfl]
          refine congrArg some (?_ : (_ : Int) = _)
          push_cast; omega
        · rw [Mem.get_ne _ _ _ _ _ (by omega), g1 c hc', es, if_neg he, Nat.add_zero]
      · intro a j ha
        exact (congrFun (Mem.set_other _ _ _ _ _ ha) _).trans (g2 a j ha)
  · intro u m hq hfr
    refine hf u m ?_ fun a i ha => hfr a i fun t _ h => ha h.1
    intro t c ht hc
    obtain ⟨mt, h, hR⟩ := hq t ht
    rw [hR _ _ (Or.inr ⟨rfl, c, hc, rfl⟩)]
    exact h c hc

/-- The component sizes; two neighbouring threads may write the same value to one cell. -/
theorem ccSizes_ok {nc : Nat} {P : Nat → Nat} {m0 : Mem (CTy R)} {α : Type} {Q : α → Mem (CTy R) → Prop}
    {f : (Nat → Unit) → Script (CTy R) α} (hT : 1 ≤ T) (hnc : 0 < nc) (hsz : (nc : Int) ≤ sz (.itmp 4)) (hP0 : P 0 = 0)
    (hP : ∀ c, c < nc → P c ≤ P (c + 1))
    (hc : ∀ c : Nat, c < nc → m0 (.rowptr k') ((c : Int) + (nc : Int) * ((T : Int) - 1)) = some (P (c + 1) : Int))
    (hf : ∀ u m, (∀ c : Nat, c < nc → m (.itmp 4) (c : Int) = some ((P (c + 1) - P c : Nat) : Int)) →
      (∀ a i, a ≠ .itmp 4 → m a i = m0 a i) → (f u).Ok m Q) :
    (Script.phase sz T (ccSizes k' nc T) f).Ok m0 Q := by
  let Inv : Unit → Mem (CTy R) → Prop := fun _ m => ∀ a i, a ≠ .itmp 4 → m a i = m0 a i
  let Rely : Unit → Mem (CTy R) → Unit → Mem (CTy R) → Prop := fun _ m _ m' =>
    ∀ c : Nat, c < nc → m (.itmp 4) (c : Int) = some ((P (c + 1) - P c : Nat) : Int) →
      m' (.itmp 4) (c : Int) = some ((P (c + 1) - P c : Nat) : Int)
  have hrefl : ∀ g m, Rely g m g m := fun _ _ _ _ h => h
  have htr : ∀ g1 m1 g2 m2 g3 m3, Rely g1 m1 g2 m2 → Rely g2 m2 g3 m3 → Rely g1 m1 g3 m3 :=
    fun _ _ _ _ _ _ h1 h2 c hc h => h2 c hc (h1 c hc h)
  have hset : ∀ (m : Mem (CTy R)) (c : Nat), c < nc → Inv () m →
      Rely () m () (m.set (.itmp 4) (c : Int) ((P (c + 1) - P c : Nat) : Int)) ∧
      Inv () (m.set (.itmp 4) (c : Int) ((P (c + 1) - P c : Nat) : Int)) ∧
      (m.set (.itmp 4) (c : Int) ((P (c + 1) - P c : Nat) : Int)) (.itmp 4) (c : Int) = some ((P (c + 1) - P c : Nat) : Int) := by
    intro m c hc hi
    refine ⟨?_, ?_, Mem.get_same _ _ _ _⟩
    · intro d hd h
      by_cases e : d = c
      · subst e; exact Mem.get_same _ _ _ _
      · rw [Mem.get_ne _ _ _ _ _ (by omega)]; exact h
    · intro a i ha; rw [Mem.set_other _ _ _ _ _ ha]; exact hi a i ha
  have hper : 1 ≤ (nc + T - 1) / T := by rw [Nat.le_div_iff_mul_le (by omega)]; omega
  refine rg_rule (Γ := Unit) Inv (fun _ => Rely) (fun _ => Rely)
    (fun t _ _ m => ∀ c : Nat, c < nc → (t = 0 ∧ c = 0) ∨
      (max (min ((nc + T - 1) / T * t) nc) 1 ≤ c ∧ c < max (min ((nc + T - 1) / T * t) nc) 1 + (nc + T - 1) / T) →
      m (.itmp 4) (c : Int) = some ((P (c + 1) - P c : Nat) : Int)) () (fun _ _ _ => rfl) (fun _ => hrefl) (fun _ => htr)
    (fun _ _ _ _ _ _ _ _ _ _ _ h => h) ?_ ?_
  · intro t ht
    show wpRG sz _ _ _ (ccSizes k' nc T t) _ _ _
    unfold ccSizes
    dsimp only
    generalize (nc + T - 1) / T = per at *
    generalize hcb : max (min (per * t) nc) 1 = cb
    have hcb1 : 1 ≤ cb := by omega
    refine wpRG_bind hrefl htr (fun _ _ _ => rfl) ?_
    have h1 : wpRG sz Inv Rely Rely (if t = 0 then do
        let v ← Prog.read (ty := CTy R) (.rowptr k') ((nc : Int) * ((T : Int) - 1))
        Prog.write (ty := CTy R) (.itmp 4) 0 (v : Int)
      else pure () : Prog (CTy R) Unit) () m0
        (fun _ _ m => t = 0 → m (.itmp 4) ((0 : Nat) : Int) = some ((P (0 + 1) - P 0 : Nat) : Int)) := by
      by_cases h0 : t = 0
      · rw [if_pos h0]
        refine wpRG_rd hrefl fun _ ma _ hia => ?_
        refine ⟨_, (hia _ _ (by simp)).trans (by have := hc 0 hnc; simpa using this), ?_⟩
        intro _ mb _ hib
        have e : ((P 1 : Int)) = ((P (0 + 1) - P 0 : Nat) : Int) := by rw [hP0]; rfl
        obtain ⟨q1, q2, q3⟩ := hset mb 0 hnc hib
        refine ⟨by omega, by omega, (), ?_⟩
        show Rely () _ () (mb.set (.itmp 4) ((0 : Nat) : Int) (P 1 : Int)) ∧ Inv () (mb.set (.itmp 4) ((0 : Nat) : Int) (P 1 : Int)) ∧
          wpRG sz Inv Rely Rely _ () (mb.set (.itmp 4) ((0 : Nat) : Int) (P 1 : Int)) _
        rw [e]
        exact ⟨q1, q2, fun _ mc hrc _ _ => hrc 0 hnc q3⟩
      · rw [if_neg h0]
        exact fun _ _ _ _ h => (h0 h).elim
    refine wpRG_mono h1 ?_
    intro _ _ ma hia hz
    refine wpRG_forUp (Inv := Inv) hrefl htr
      (fun j _ _ m => (t = 0 → m (.itmp 4) ((0 : Nat) : Int) = some ((P (0 + 1) - P 0 : Nat) : Int)) ∧
        ∀ c : Nat, c < nc → cb ≤ c → (c : Int) < j → m (.itmp 4) (c : Int) = some ((P (c + 1) - P c : Nat) : Int))
      (fun _ _ _ _ _ _ h hr _ => ⟨fun h0 => hr 0 hnc (h.1 h0), fun c q1 q2 q3 => hr c q1 (h.2 c q1 q2 q3)⟩) hia
      ⟨hz, fun c _ q2 q3 => by omega⟩ ?_ ?_
    · rintro j _ _ mb h1 h2 hib ⟨g1, g2⟩
      obtain ⟨c, rfl⟩ := Int.eq_ofNat_of_zero_le (a := j) (by omega)
      have hcn : c < nc := by omega
      obtain ⟨d, rfl⟩ : ∃ d, c = d + 1 := ⟨c - 1, by omega⟩
      refine wpRG_rd hrefl fun _ mc hrc hic => ⟨_, (hic _ _ (by simp)).trans (hc (d + 1) hcn), ?_⟩
      refine wpRG_rd hrefl fun _ md hrd hid => ⟨(P (d + 1) : Int), (hid _ _ (by simp)).trans ?_, ?_⟩
      · rw [show ((d + 1 : Nat) : Int) - 1 = (d : Int) by push_cast; omega]; exact hc d (by omega)
      intro _ me hre hie
      have hm := hP (d + 1) hcn
      have e : ((P (d + 1 + 1) : Int) - (P (d + 1) : Int)) = ((P (d + 1 + 1) - P (d + 1) : Nat) : Int) := by omega
      obtain ⟨q1, q2, q3⟩ := hset me (d + 1) hcn hie
      refine ⟨by omega, by omega, (), ?_⟩
      show Rely () _ () (me.set (.itmp 4) ((d + 1 : Nat) : Int) ((P (d + 1 + 1) : Int) - (P (d + 1) : Int) : Int)) ∧
        Inv () (me.set (.itmp 4) ((d + 1 : Nat) : Int) ((P (d + 1 + 1) : Int) - (P (d + 1) : Int) : Int)) ∧
        wpRG sz Inv Rely Rely _ () (me.set (.itmp 4) ((d + 1 : Nat) : Int) ((P (d + 1 + 1) : Int) - (P (d + 1) : Int) : Int)) _
      rw [e]
      refine ⟨q1, q2, fun _ mf hrf _ => ?_⟩
      have hall : Rely () mb () mf := fun c q h => hrf c q (q1 c q (hre c q (hrd c q (hrc c q h))))
      refine ⟨fun h0 => hall 0 hnc (g1 h0), ?_⟩
      intro c' p1 p2 p3
      by_cases e' : c' = d + 1
      · subst e'; exact hrf _ hcn q3
      · exact hall c' p1 (g2 c' p1 p2 (by omega))
    · rintro _ _ m ⟨g1, g2⟩ c hcn hcc
      rcases hcc with ⟨h0, rfl⟩ | ⟨q1, q2⟩
      · exact g1 h0
      · exact g2 c hcn q1 (by omega)
  · intro r _ m hI hq
    refine hf r m ?_ hI
    intro c hcn
    by_cases h0 : c = 0
    · exact hq 0 (by omega) c hcn (Or.inl ⟨rfl, h0⟩)
    · -- the thread whose range contains c
      have hper' : nc ≤ (nc + T - 1) / T * T := by
        have h1 : (nc + T - 1) / T * T + (nc + T - 1) % T = nc + T - 1 := by
          rw [Nat.mul_comm]; exact Nat.div_add_mod _ _
        have h2 : (nc + T - 1) % T < T := Nat.mod_lt _ (by omega)
        omega
      generalize (nc + T - 1) / T = per at *
      have ht : c / per < T := by
        rw [Nat.div_lt_iff_lt_mul (by omega)]; rw [Nat.mul_comm] at hper'; omega
      refine hq (c / per) ht c hcn (Or.inr ?_)
      have h1 : per * (c / per) + c % per = c := Nat.div_add_mod _ _
      have h2 : c % per < per := Nat.mod_lt _ (by omega)
      generalize per * (c / per) = z at *
      omega

/-- State of thread `t` of the placement when its nodes `x ..< hi` are placed. -/
structure CcPlaced (B : Csr Unit) (k' : Nat) (nd : Nat → Nat) (t hi : Nat) (m0 m : Mem (CTy R)) (x : Nat) : Prop where
  cells : ∀ c : Nat, c < B.n → m (.rowptr k') ((t : Int) * B.n + c) = some ((B.tPtr c : Int) + B.cnt c x)
  out : ∀ i, x ≤ i → i < hi → m (.itmp 5) (B.tPos i : Int) = some (nd i : Int)
  frame : ∀ a i, a ≠ .rowptr k' → a ≠ .itmp 5 → m a i = m0 a i

theorem ccPlace_ok {mm nc m : Nat} {nd key : Nat → Nat} {m0 : Mem (CTy R)} {α : Type} {Q : α → Mem (CTy R) → Prop}
    {f : (Nat → Unit) → Script (CTy R) α} (hn : CcNodes wb bv m mm nd) (hk : KeyAt wb mm nd key m0) (hkey : ∀ i, i < mm → key i < nc)
    (hT : 1 ≤ T) (hsz : ((nc : Int) + 1) * T ≤ sz (.rowptr k')) (hs5 : (mm : Int) ≤ sz (.itmp 5))
    (hc : ∀ t c : Nat, t < T → c < nc → m0 (.rowptr k') ((t : Int) * nc + c) =
        some (((ccB mm nc key).tPtr c : Int) + (ccB mm nc key).cnt c (rowCut T mm (t + 1))))
    (hf : ∀ u m, (∀ c : Nat, c < nc → m (.rowptr k') (c : Int) = some ((ccB mm nc key).tPtr c : Int)) →
      (∀ i, i < mm → m (.itmp 5) ((ccB mm nc key).tPos i : Int) = some (nd i : Int)) →
      (∀ a i, a ≠ .rowptr k' → a ≠ .itmp 5 → m a i = m0 a i) → (f u).Ok m Q) :
    (Script.phase sz T (ccPlace k' wb mm nc T) f).Ok m0 Q := by
  have hwf := ccB_wf hkey
  let B := ccB mm nc key
  have hBn : B.n = nc := rfl
  have hBnnz : B.nnz = mm := rfl
  let Out : Nat → CArr → Int → Prop := fun t a i => a = .itmp 5 ∧ ∃ j : Nat, rowCut T mm t ≤ j ∧ j < rowCut T mm (t + 1) ∧ i = (B.tPos j : Int)
  refine par_rule (W := fun t a i => TrRow k' nc t a i ∨ Out t a i)
    (R := fun t a i => (a ≠ .rowptr k' ∧ a ≠ .itmp 5) ∨ TrRow k' nc t a i ∨ Out t a i)
    (Q := fun t _ m => CcPlaced B k' nd t (rowCut T mm (t + 1)) m0 m (rowCut T mm t)) ?_ ?_ ?_
  · rintro t u a i ht hu htu h1 h2
    rcases h2 with h2 | h2 | h2
    · rcases h1 with h1 | h1
      · exact h2.1 h1.1
      · exact h2.2 h1.1
    · rcases h1 with h1 | h1
      · exact htu (h1.inj h2)
      · have := h1.1.symm.trans h2.1; simp at this
    · rcases h1 with h1 | h1
      · have := h1.1.symm.trans h2.1; simp at this
      · obtain ⟨_, j, a1, a2, rfl⟩ := h1
        obtain ⟨_, j', b1, b2, e⟩ := h2
        have l1 := rowCut_le hT mm (t + 1)
        have l2 := rowCut_le hT mm (u + 1)
        obtain rfl := B.tPos_inj hwf (show j < mm by omega) (show j' < mm by omega) (by omega)
        rcases Nat.lt_trichotomy t u with h | h | h
        · have := rowCut_mono hT mm (show t + 1 ≤ u from h); omega
        · exact htu h
        · have := rowCut_mono hT mm (show u + 1 ≤ t from h); omega
  · intro t ht
    show wp sz _ _ (ccPlace k' wb mm nc T t) m0 _
    unfold ccPlace
    rw [rowCut_eq hT, rowCut_end hT]
    refine wp_forDownN (b := 0) (lo := rowCut T mm t) (hi := rowCut T mm (t + 1))
      (fun x _ m => CcPlaced B k' nd t (rowCut T mm (t + 1)) m0 m x) (rowCut_mono hT mm (by omega))
      ⟨fun c hcn => hc t c ht hcn, fun i h1 h2 => by omega, fun _ _ _ _ => rfl⟩ ?_ (fun _ _ h => h) (by simp) (by simp)
    rintro x _ m' h1 h2 hI
    rw [Int.add_zero]
    have hx : x < mm := Nat.lt_of_lt_of_le h2 (rowCut_le hT mm _)
    have hk' : KeyAt wb mm nd key m' := hk.of (fun j i hj => hI.frame _ _ (by simp) (by simp; omega))
    obtain ⟨r, hr1, hr2⟩ := hk'.key x hx
    have hcx := hkey x hx
    rw [wp_bind]
    refine wp_ccNode hn hk'.nodes hx (fun _ => Or.inl (by simp)) ?_
    refine wp_rd _ (Or.inl (by simp)) hr1 ?_
    refine wp_rd _ (Or.inl (by simp)) hr2 ?_
    have ec : (key x : Int) + (nc : Int) * t = (t : Int) * nc + key x := by rw [Int.mul_comm, Int.add_comm]
    show wp sz _ _ (do
      let v ← Prog.read (ty := CTy R) (.rowptr k') ((key x : Int) + (nc : Int) * t)
      Prog.write (ty := CTy R) (.rowptr k') ((key x : Int) + (nc : Int) * t) ((v : Int) - 1)
      let o ← Prog.read (ty := CTy R) (.rowptr k') ((key x : Int) + (nc : Int) * t)
      Prog.write (ty := CTy R) (.itmp 5) o (nd x : Int)) _ _
    rw [ec]
    have hrowc : TrRow k' nc t (.rowptr k') ((t : Int) * nc + key x) := ⟨rfl, _, hcx, rfl⟩
    have hcell := hI.cells _ hcx
    have es : B.cnt (key x) (x + 1) = B.cnt (key x) x + if B.col x = key x then 1 else 0 := rfl
    rw [if_pos (show B.col x = key x from rfl)] at es
    refine wp_rd _ (Or.inr (Or.inl hrowc)) hcell ?_
    refine wp_wr (Or.inl hrowc) ⟨(cell_lt ht hcx).1, Int.lt_of_lt_of_le (cell_lt ht hcx).2 hsz⟩ ?_
    have ev : (B.tPtr (key x) : Int) + B.cnt (key x) (x + 1) - 1 = (B.tPos x : Int) := by
      show _ = ((B.tPtr (key x) + B.cnt (key x) x : Nat) : Int)
      rw [es]; push_cast; omega
    refine wp_rd ((B.tPos x : Int)) (Or.inr (Or.inl hrowc)) ?_ ?_
    · rw [Mem.get_same]; exact congrArg some ev
    have htp : B.tPos x < mm := B.tPos_lt hwf hx
    refine wp_wr1 (Or.inr ⟨rfl, x, h1, h2, rfl⟩) ⟨by omega, by omega⟩ ⟨?_, ?_, ?_⟩
    · intro c hcn
      rw [Mem.set_other _ _ _ _ _ (by simp)]
      have es' : B.cnt c (x + 1) = B.cnt c x + if key x = c then 1 else 0 := rfl
      by_cases he : key x = c
      · subst he
        show (m'.set (.rowptr k') ((t : Int) * nc + key x) _) (.rowptr k') ((t : Int) * nc + key x) = _
        rw [Mem.get_same]
        refine congrArg some (ev.trans ?_)
        show ((B.tPtr (key x) + B.cnt (key x) x : Nat) : Int) = _
        push_cast; rfl
      · rw [Mem.get_ne _ _ _ _ _ (by show (t : Int) * nc + c ≠ (t : Int) * nc + key x; omega), hI.cells c hcn, es', if_neg he, Nat.add_zero]
    · intro i g1 g2
      by_cases he : i = x
      · subst he; exact Mem.get_same _ _ _ _
      · have hne : (B.tPos i : Int) ≠ B.tPos x := fun h => he (B.tPos_inj hwf (show i < mm from Nat.lt_of_lt_of_le g2 (rowCut_le hT mm _)) hx (by omega))
        rw [Mem.get_ne _ _ _ _ _ hne, Mem.set_other _ _ _ _ _ (by simp)]
        exact hI.out i (by omega) g2
    · intro a i ha hb
      rw [Mem.set_other _ _ _ _ _ hb, Mem.set_other _ _ _ _ _ ha]; exact hI.frame a i ha hb
  · intro u m' hq hfr
    refine hf u m' ?_ ?_ ?_
    · intro c hcn
      obtain ⟨mt, h, hR⟩ := hq 0 (by omega)
      have h := h.cells c hcn
      have e : ((0 : Nat) : Int) * B.n + c = (c : Int) := by simp
      rw [rowCut_zero, e] at h
      rw [hR _ _ (Or.inr (Or.inl ⟨rfl, c, hcn, by simp⟩)), h]
      show some ((B.tPtr c : Int) + ((0 : Nat) : Int)) = _
      simp [B]
    · intro i hi
      obtain ⟨t, ht, g1, g2⟩ := rowCut_find hT hi
      obtain ⟨mt, h, hR⟩ := hq t ht
      rw [hR _ _ (Or.inr (Or.inr ⟨rfl, i, g1, g2, rfl⟩))]
      exact h.out i g1 g2
    · intro a i ha hb
      refine hfr a i ?_
      rintro t ht (h | h)
      · exact ha h.1
      · exact hb h.1

end SpMP
