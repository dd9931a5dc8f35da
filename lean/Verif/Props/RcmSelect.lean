import Verif.Props.Rcm
/-
Property theorems C57 (the source of a large component in getRCMPermutation).
-/

namespace SpMP
open Spec
variable {R : Type}

namespace Props

/-- C57: a team of any size, interleaved in any way, selects a source for the component of `ρ`, whose rows are `nodes`, stored from position
`off` on (RCM.cpp:480-646). The selection ends without undefined behaviour. The source is a row of the component, and some row of smallest
degree in the component has no row farther away than the source has. Only work arrays and the component's marks change. Precondition: a
symmetric pattern, cleared marks, arrays of the sizes of bfsAuxData (178-194), T times the rows and the entries below INT_MAX, and T times a
last level of a search at most the rows of the matrix, which one thread always meets. Missing: larger last levels with several threads
(false, `C57_candidates_false`). -/
theorem C57_select_partial {A : Csr R} {sz : CArr → Int} {k T ρ off : Nat} {nodes : List Nat} {deg clr : Nat → Nat} {m0 : Mem (CTy R)} (wf : A.WF)
    (square : A.n = A.m) (symmetric : PatSym A) (team : 1 ≤ T) (two : 2 ≤ T * A.m) (row : ρ < A.m) (nodup : nodes.Nodup)
    (comp : ∀ x, x ∈ nodes ↔ Reaches A ρ x) (shareDeg : ∀ x, x < nodes.length → deg x < T) (shareClear : ∀ x, x < nodes.length → clr x < T)
    (mat : HoldsPat m0 k 0 A) (stored : ∀ j x : Nat, nodes[j]? = some x → m0 (.itmp 5) ((off : Int) + j) = some (x : Int))
    (clear : ∀ x, Reaches A ρ x → m0 bfsBits (x : Int) = some (0 : Int))
    (queue0 : (T : Int) * A.m ≤ sz (bfsQ 0)) (queue1 : (T : Int) * A.m ≤ sz (bfsQ 1)) (rowptr : (T : Int) * A.m ≤ sz bufA)
    (bits : (A.m : Int) ≤ sz bfsBits) (cand : (A.m : Int) ≤ sz rcmCand) (rows : (T : Int) * A.m < intMax) (entries : (A.nnz : Int) < intMax)
    (last : T = 1 ∨ ∀ (s d : Nat) (l : List Nat), Reaches A ρ s → l.Nodup → (∀ x ∈ l, IsDist A s x d) → (∀ x e, IsDist A s x e → e ≤ d) → T * l.length ≤ A.m) :
    (selectSource sz T k A.m nodes.length deg clr (off : Int)).Ok m0 (fun r m => ∃ u s : Nat, r = (s : Int) ∧ Reaches A ρ s ∧
      Reaches A ρ u ∧ (∀ x, Reaches A ρ x → degree A u ≤ degree A x) ∧ (∀ x d, IsDist A u x d → ∃ y e, IsDist A s y e ∧ d ≤ e) ∧
      (∀ a i, a ≠ bfsQ 0 → a ≠ bfsQ 1 → a ≠ bufA → a ≠ rcmCand → a ≠ bfsBits → a ≠ bfsLev → m a i = m0 a i) ∧
      ∀ x : Nat, ¬ Reaches A ρ x → m bfsBits (x : Int) = m0 bfsBits (x : Int)) := by
  have hlast : ∀ (s d : Nat) (l : List Nat), Reaches A ρ s → l.Nodup → (∀ x ∈ l, IsDist A s x d) → (∀ x e, IsDist A s x e → e ≤ d) → T * l.length ≤ A.m := by
    rcases last with rfl | h
    · intro s d l hs hl hd _
      have := (List.subperm_of_subset hl (l₂ := List.range A.m) fun x hx => List.mem_range.2 ((hs.trans ⟨_, (hd x hx).1⟩).lt wf square row)).length_le
      rw [List.length_range] at this
      omega
    · exact h
  refine selectSource_ok ⟨wf, square, symmetric, team, two, row, nodup, comp, shareClear, queue0, queue1, rowptr, bits, cand, rows, hlast⟩ mat stored shareDeg
    (fun x hx => ?_) clear ?_
  · have h1 := wf.ptr_le_nnz (i := x + 1) (by have := hx.lt wf square row; omega)
    unfold degree
    omega
  intro u s Du Ds m hu hmin hs hDu hDs hle hi
  refine ⟨u, s, rfl, hs, hu, hmin, fun x d hd => ?_, fun a i n1 n2 n3 n4 n5 n6 => hi.frame a i ?_, fun x hx => hi.frame _ _ ?_⟩
  · obtain ⟨y, hy⟩ := hDs.2 d (by have := hDu.1 x d hd; omega)
    exact ⟨y, d, hy, Nat.le_refl _⟩
  · rintro (e | e | e | e | ⟨e | e, _⟩)
    · exact n1 e
    · exact n2 e
    · exact n3 e
    · exact n4 e
    · exact n5 e
    · exact n6 e
  · rintro (e | e | e | e | ⟨_, y, hy, ey⟩)
    · simp at e
    · simp at e
    · simp at e
    · simp at e
    · obtain rfl : x = y := by omega
      exact hx hy

attribute [local irreducible] Script.Ok selectSource in
/-- The hypotheses of C57_select_partial hold for the component 1, 4, 3 of `bfsSix` and up to three threads. Row 3 has the smallest degree and
row 1 is two steps away, so that the source is not row 4. -/
example (T : Nat) (hT : 1 ≤ T) (hT3 : T ≤ 3) : (selectSource (fun _ => 6 * (T : Int)) T 0 6 3 (fun x => x % T) (fun x => x % T) (2 : Nat)).Ok sixMem (fun r _ =>
    r = 1 ∨ r = 3) := by
  have hm : ((bfsSix.m : Nat) : Int) = 6 := rfl
  have w : ∀ {s x d : Nat} (j : Nat), (x < 6 ∧ bfsSix.ptr x ≤ j ∧ j < bfsSix.ptr (x + 1)) → Walk bfsSix s x d → Walk bfsSix s (bfsSix.col j) (d + 1) :=
    fun j h w => .snoc w h
  have d3 : IsDist bfsSix 3 1 2 :=
    isDist_of_potential (f := fun x => match x with | 3 => 0 | 4 => 1 | 1 => 2 | _ => 0) bfsSix_wf (by decide +kernel) rfl (w 5 (by decide) (w 4 (by decide) .nil))
  have d4 : ∀ x, x ∈ [1, 3, 4] → ∃ d, d ≤ 1 ∧ IsDist bfsSix 4 x d := by
    intro x hx
    refine ⟨(fun x => match x with | 3 => 1 | 1 => 1 | _ => 0) x, ?_, isDist_of_potential (f := fun x => match x with | 3 => 1 | 1 => 1 | _ => 0) bfsSix_wf (by decide +kernel) rfl ?_⟩
    · simp only [List.mem_cons, List.not_mem_nil, or_false] at hx
      rcases hx with rfl | rfl | rfl <;> decide
    · simp only [List.mem_cons, List.not_mem_nil, or_false] at hx
      rcases hx with rfl | rfl | rfl
      · exact w 5 (by decide) .nil
      · exact w 6 (by decide) .nil
      · exact .nil
  have := C57_select_partial (A := bfsSix) (T := T) (ρ := 1) (k := 0) (off := 2) (nodes := [1, 3, 4]) (m0 := sixMem) (sz := fun _ => 6 * (T : Int))
    (deg := fun x => x % T) (clr := fun x => x % T) bfsSix_wf rfl bfsSix_sym hT (show 2 ≤ T * 6 by omega) (show 1 < 6 by omega) (by decide) six_reach
    (fun _ _ => Nat.mod_lt _ hT) (fun _ _ => Nat.mod_lt _ hT)
    ⟨fun i hi => (csrMem_pat 0 0 bfsSix (fun _ => 0) (fun _ => 0)).rowptr i hi, fun j hj => (csrMem_pat 0 0 bfsSix (fun _ => 0) (fun _ => 0)).colidx j hj⟩
    (fun j x hj => by
      have hl := (List.getElem?_eq_some_iff.1 hj).1
      change j < 3 at hl
      interval_cases j <;> (injection hj with hj; subst hj; rfl))
    (fun _ _ => rfl) (by rw [hm]; omega) (by rw [hm]; omega) (by rw [hm]; omega) (by rw [hm]; omega) (by rw [hm]; omega)
    (by rw [hm]; unfold intMax; omega) (by decide) (Or.inr ?_)
  · refine Script.Ok.mono this ?_
    rintro r _ ⟨u, s, rfl, hs, hu, hmin, hfar, -⟩
    have hs := (six_reach s).2 hs
    have hu := (six_reach u).2 hu
    have h3 := hmin 3 ((six_reach 3).1 (by decide))
    simp only [List.mem_cons, List.not_mem_nil, or_false] at hs hu
    obtain rfl : u = 3 := by
      rcases hu with rfl | rfl | rfl
      · exact absurd h3 (by decide)
      · rfl
      · exact absurd h3 (by decide)
    obtain ⟨y, e, hy, he⟩ := hfar 1 2 d3
    rcases hs with rfl | rfl | rfl
    · exact Or.inl rfl
    · exact Or.inr rfl
    · have hr : Reaches bfsSix 4 y := ⟨_, hy.1⟩
      obtain ⟨d, hd, hd'⟩ := d4 y ((six_reach y).2 (((six_reach 4).1 (by decide)).trans hr))
      have := hy.unique hd'
      omega
  · intro s d l hs hl hd _
    have h2 : l.length ≤ 2 := by
      by_cases hsl : s ∈ l
      · have h0 := (hd s hsl).unique isDist_zero
        subst h0
        have : l ⊆ [s] := by
          intro x hx
          have := (hd x hx).1
          cases this
          exact List.mem_singleton.2 rfl
        have := (List.subperm_of_subset hl this).length_le
        simp only [List.length_cons, List.length_nil] at this
        omega
      · have hs' := (six_reach s).2 hs
        have hsub : s :: l ⊆ [1, 3, 4] := by
          intro x hx
          rcases List.mem_cons.1 hx with rfl | hx
          · exact hs'
          · exact (six_reach x).2 (hs.trans ⟨_, (hd x hx).1⟩)
        have := (List.subperm_of_subset (List.nodup_cons.2 ⟨hsl, hl⟩) hsub).length_le
        simp only [List.length_cons, List.length_nil] at this
        omega
    show T * l.length ≤ 6
    exact Nat.le_trans (Nat.mul_le_mul_left T h2) (by omega)

/-- Two rows joined to five others. -/
def rcmTwoFive : Csr Int := Csr.ofRows 7 7 (fun i => match i with
  | 0 => [(5, 1), (6, 1)] | 1 => [(5, 1), (6, 1)] | 2 => [(5, 1), (6, 1)] | 3 => [(5, 1), (6, 1)] | 4 => [(5, 1), (6, 1)]
  | 5 => [(0, 1), (1, 1), (2, 1), (3, 1), (4, 1)] | 6 => [(0, 1), (1, 1), (2, 1), (3, 1), (4, 1)] | _ => []) 0

theorem rcmTwoFive_wf : rcmTwoFive.WF := by
  refine Csr.ofRows_wf ?_
  intro i p hi hp
  interval_cases i <;> simp at hp <;> rcases hp with rfl | rfl | rfl | rfl | rfl <;> decide

/-- `rcmTwoFive` with its only component and cleared marks. -/
def twoFiveMem : Mem (CTy Int)
  | .itmp 5, i => some (i.toNat : Int)
  | .itmp 13, _ => some (0 : Int)
  | a, i => csrMem 0 0 rcmTwoFive (fun _ => 0) (fun _ => 0) a i

theorem twoFive_reach (x : Nat) (hx : x < 7) : Reaches rcmTwoFive 0 x := by
  have e : ∀ x j, (x < 7 ∧ rcmTwoFive.ptr x ≤ j ∧ j < rcmTwoFive.ptr (x + 1)) → Reaches rcmTwoFive x (rcmTwoFive.col j) := fun x j h => Reaches.edge h
  have h5 : Reaches rcmTwoFive 0 5 := e 0 0 (by decide)
  interval_cases x
  · exact .refl _
  · exact h5.trans (e 5 11 (by decide))
  · exact h5.trans (e 5 12 (by decide))
  · exact h5.trans (e 5 13 (by decide))
  · exact h5.trans (e 5 14 (by decide))
  · exact h5
  · exact e 0 1 (by decide)

set_option maxRecDepth 100000 in
/-- With two threads the array of candidates overflows: nodes are marked without atomic operations, so that both threads can queue every
node of the last level, here 4 nodes twice, and the candidates have room for the 7 rows of the matrix (RCM.cpp:191, 573-580). -/
theorem C57_candidates_false :
    ¬ (∀ (A : Csr Int) (sz : CArr → Int) (m0 : Mem (CTy Int)), A.WF → A.n = A.m → PatSym A → NoDup A → 0 < A.m → (∀ x, x < A.m → Reaches A 0 x) →
      HoldsPat m0 0 0 A → (∀ x : Nat, x < A.m → m0 (.itmp 5) (x : Int) = some (x : Int)) → (∀ x : Nat, x < A.m → m0 bfsBits (x : Int) = some (0 : Int)) →
      2 * (A.m : Int) ≤ sz (bfsQ 0) → 2 * (A.m : Int) ≤ sz (bfsQ 1) → 2 * (A.m : Int) ≤ sz bufA → (A.m : Int) ≤ sz bfsBits → (A.m : Int) ≤ sz rcmCand →
      (selectSource sz 2 0 A.m A.m (fun x => x % 2) (fun x => x % 2) 0).Ok m0 (fun _ _ => True)) := by
  intro h
  have hm : ((rcmTwoFive.m : Nat) : Int) = 7 := rfl
  have h1 := (h rcmTwoFive (fun a => if a = rcmCand then 7 else 14) twoFiveMem rcmTwoFive_wf rfl (patSym_of_check rcmTwoFive_wf (by decide +kernel))
    (noDup_of_check rcmTwoFive_wf (by decide +kernel)) (show 0 < 7 by omega) twoFive_reach
    ⟨fun i hi => (csrMem_pat 0 0 rcmTwoFive (fun _ => 0) (fun _ => 0)).rowptr i hi, fun j hj => (csrMem_pat 0 0 rcmTwoFive (fun _ => 0) (fun _ => 0)).colidx j hj⟩
    (fun x _ => rfl) (fun x _ => rfl) (by decide) (by decide) (by decide) (by decide) (by decide)).not_schedUB
    (List.replicate 10 ((List.range 100).map (· % 2)))
  have h2 : (selectSource (R := Int) (fun a => if a = rcmCand then 7 else 14) 2 0 7 7 (fun x => x % 2) (fun x => x % 2) 0).schedUB
    (List.replicate 10 ((List.range 100).map (· % 2))) twoFiveMem = true := by decide +kernel
  rw [show rcmTwoFive.m = 7 from rfl, h2] at h1
  cases h1

end Props
end SpMP
