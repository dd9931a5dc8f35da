import Verif.RcmLargeComp
import Verif.Props.RcmLarge
/-
Property theorems C56 (the search of large components in getRCMPermutation).
-/

namespace SpMP
open Spec
variable {R : Type}

namespace Props

/-- C56 for one component (RCM.cpp:868-936: marks cleared, levels searched, level sizes summed, rows placed): there is a Cuthill–McKee order
of the component of `s`, which depends on the pattern, the source and std::sort only, such that every team, under every distribution of
iterations and every interleaving, finishes without undefined behaviour or deadlock with the component numbered in this order from the end
of the permutation. Outside the work arrays only the component's rows and its part of the permutation change. `nodes` are the rows of the
component as findConnectedComponents lists them from position `off` on. Missing: a component that needs every row of the matrix as a level
(false, `C45_path_false`). -/
theorem C56_component_partial {A : Csr R} {s : Nat} {nodes : List Nat} {srt : List (Int × Int) → List (Int × Int)} (wf : A.WF)
    (hsq : A.n = A.m) (hs : s < A.m) (hnd : nodes.Nodup) (hnodes : ∀ x, x ∈ nodes ↔ Reaches A s x)
    (hlong : ∀ x d, IsDist A s x d → d + 1 < A.m) (hperm : ∀ l, (srt l).Perm l) (hsorted : ∀ l, (srt l).Pairwise fun x y => x.1 ≤ y.1) :
    ∃ l : List Nat, IsCmOrder A s l ∧ ∀ (T k md off : Nat) (sz : CArr → Int) (m0 : Mem (CTy R)) (clr cnt : Nat → Nat), 1 ≤ T →
      (∀ x, x < nodes.length → clr x < T) → (∀ x, x < nodes.length → cnt x < T) → off + nodes.length ≤ A.m → (∀ u, u < A.m → degree A u ≤ md) →
      HoldsPat m0 k 0 A → (∀ j x : Nat, nodes[j]? = some x → m0 (.itmp 5) ((off : Int) + j) = some (x : Int)) →
      (∀ x ∈ nodes, ∃ v : Int, m0 bfsBits (x : Int) = some v) →
      (T : Int) * A.m ≤ sz (bfsQ 0) → (T : Int) * A.m ≤ sz (bfsQ 1) → (T : Int) * A.m ≤ sz bufA → (A.m : Int) ≤ sz bfsBits → (A.m : Int) ≤ sz bfsLev →
      (A.m : Int) ≤ sz bfsInv → (A.m : Int) ≤ sz bfsPrm → (T : Int) * md ≤ sz rcmChd → (A.m : Int) + 1 ≤ sz rcmPfx → ((A.m : Int) + 1) * 16 ≤ sz rcmWo →
      (rcmLargeComp sz T k A.m md srt clr cnt (s : Int) (off : Int) nodes.length).Ok m0 (fun _ m =>
        (∀ j x : Nat, l[j]? = some x → m bfsPrm (x : Int) = some ((A.m : Int) - off - j - 1 : Int) ∧ m bfsInv ((A.m : Int) - off - j - 1) = some (x : Int)) ∧
        (∀ x : Nat, ¬ Reaches A s x → m bfsPrm (x : Int) = m0 bfsPrm (x : Int)) ∧
        (∀ i : Int, i < (A.m : Int) - off - nodes.length ∨ (A.m : Int) - off ≤ i → m bfsInv i = m0 bfsInv i) ∧
        ∀ a i, (∀ j, a ≠ .itmp j) → m a i = m0 a i) := by
  obtain ⟨D, hD⟩ := exists_dist A s
  have cm : CmCtx A s D nodes srt := ⟨wf, hsq, hs, hD, hnd, hnodes, fun l => ⟨hperm l, hsorted l⟩⟩
  refine ⟨cmAll A s D nodes srt, cm.order, ?_⟩
  intro T k md off sz m0 clr cnt hT hclr hcnt hoff hdeg hpat hq hdef z1 z2 z3 z4 z5 z6 z7 z8 z9 z10
  refine rcmLargeComp_ok wf hsq hT hs hnd hnodes (fun l => ⟨hperm l, hsorted l⟩) hclr hcnt hD hlong hoff hdeg ⟨z1, z2, z3, z4, z5, z6, z7, z8, z9, z10⟩ hpat hq hdef ?_
  intro m hout _ hf
  refine ⟨fun j x hj => ?_, fun x hx => hf _ _ ?_, fun i hi => hf _ _ ?_, fun a i ha => hf _ _ ?_⟩
  · have e : (A.m : Int) - ((off + j : Nat) : Int) - 1 = (A.m : Int) - off - j - 1 := by omega
    exact ⟨by rw [← e]; exact hout.perm j x hj, by rw [← e]; exact hout.inv j x hj⟩
  · rintro ((e | e | e | e | e | e | e | e) | ⟨_, y, hy, ey⟩ | ⟨e, _⟩) <;> first | (simp at e; done) | skip
    obtain rfl : x = y := by omega
    exact hx hy
  · rintro ((e | e | e | e | e | e | e | e) | ⟨e | e | e, _⟩ | ⟨_, b3, b4⟩) <;> first | (simp at e; done) | skip
    omega
  · rintro ((e | e | e | e | e | e | e | e) | ⟨e | e | e, _⟩ | ⟨e, _⟩) <;> exact ha _ e

attribute [local irreducible] Script.Ok rcmLargeComp in
/-- The hypotheses of C56_component_partial hold for the cycle 0 - 1 - 3 - 2 - 0 and every team. -/
example : ∃ l : List Nat, IsCmOrder rcmCycle 0 l ∧ ∀ T : Nat, 1 ≤ T →
    (rcmLargeComp (fun _ => 8 * (T : Int) + 80) T 0 4 2 rcmSort0 (fun x => x % T) (fun x => x % T) (0 : Nat) (0 : Nat) 4).Ok cycMem (fun _ m =>
      ∀ j x : Nat, l[j]? = some x → m bfsPrm (x : Int) = some (4 - 0 - j - 1 : Int) ∧ m bfsInv (4 - 0 - j - 1) = some (x : Int)) := by
  have hm : ((rcmCycle.m : Nat) : Int) = 4 := rfl
  have hlt : ∀ x, Reaches rcmCycle 0 x → x < 4 := fun x h => h.lt rcmCycle_wf rfl (show 0 < 4 by omega)
  obtain ⟨l, h1, h2⟩ := C56_component_partial (A := rcmCycle) (s := 0) (nodes := [0, 1, 2, 3]) rcmCycle_wf rfl (show 0 < 4 by omega) (by decide) (fun x => by
      constructor
      · intro h
        refine ⟨_, (cyc_dist x ?_).1⟩
        simp only [List.mem_cons, List.not_mem_nil, or_false] at h
        omega
      · intro h
        have := hlt x h
        interval_cases x <;> decide) (fun x d hd => by
      have h1 : Reaches rcmCycle 0 x := ⟨_, hd.1⟩
      have hx := hlt x h1
      have h1 := hd.unique (cyc_dist x hx)
      show d + 1 < 4
      interval_cases x <;> simp only [cycDist] at h1 <;> omega) rcmSort0_perm rcmSort0_sorted
  refine ⟨l, h1, fun T hT => ?_⟩
  have := h2 T 0 2 0 (fun _ => 8 * (T : Int) + 80) cycMem (fun x => x % T) (fun x => x % T) hT (fun _ _ => Nat.mod_lt _ hT) (fun _ _ => Nat.mod_lt _ hT)
    (show 0 + 4 ≤ 4 by omega) (by intro u hu; change u < 4 at hu; interval_cases u <;> decide)
    ⟨fun i hi => (csrMem_pat 0 0 rcmCycle (fun _ => 0) (fun _ => 0)).rowptr i hi, fun j hj => (csrMem_pat 0 0 rcmCycle (fun _ => 0) (fun _ => 0)).colidx j hj⟩
    (fun j x hj => by
      have hl := (List.getElem?_eq_some_iff.1 hj).1
      change j < 4 at hl
      interval_cases j <;> (injection hj with hj; subst hj; rfl)) (fun _ _ => ⟨0, rfl⟩)
    (by rw [hm]; omega) (by rw [hm]; omega) (by rw [hm]; omega) (by rw [hm]; omega) (by rw [hm]; omega) (by rw [hm]; omega) (by rw [hm]; omega)
    (by omega) (by rw [hm]; omega) (by rw [hm]; omega)
  exact Script.Ok.mono this fun _ m h => h.1

/-- C56 (part, the search). A team of any size, interleaved in any way, searches the component of `s` from `s`. Nodes are marked without
atomic operations, so that several threads may queue the same node. Nevertheless the search ends without an access outside its arrays and
without a failed assertion; `levels` holds the distance from `s` of every node reachable from `s`, every level below `d` is occupied and no
other, the result is `d`+1, and `levels` and the marks of other nodes are unchanged. Precondition: work arrays of the sizes of bfsAuxData
(178-194), two cells per search at least. Missing: searches cut short by a width or without `levels`
(see `C57_select_partial`). -/
theorem C56_search_partial {A : Csr R} {sz : CArr → Int} {k base T s : Nat} {m0 : Mem (CTy R)} (wf : A.WF) (square : A.n = A.m)
    (team : 1 ≤ T) (two : 2 ≤ T * A.m) (source : s < A.m) (mat : HoldsPat m0 k base A)
    (clear : ∀ x, Reaches A s x → m0 bfsBits (x : Int) = some (0 : Int))
    (queue0 : (T : Int) * A.m ≤ sz (bfsQ 0)) (queue1 : (T : Int) * A.m ≤ sz (bfsQ 1)) (rowptr : (T : Int) * A.m ≤ sz bufA)
    (bits : (A.m : Int) ≤ sz bfsBits) (levels : (A.m : Int) ≤ sz bfsLev) (wd : Int) :
    (bfsLevPar sz k base T A.m true none wd (s : Int)).Ok m0 (fun r m => ∃ d : Nat, r.1 = (d : Int) + 1 ∧
      (∀ x e, IsDist A s x e → e < d ∧ m bfsLev (x : Int) = some (e : Int)) ∧ (∀ e, e < d → ∃ x, IsDist A s x e) ∧
      (∀ x : Nat, ¬ Reaches A s x → m bfsLev (x : Int) = m0 bfsLev (x : Int) ∧ m bfsBits (x : Int) = m0 bfsBits (x : Int)) ∧
      ∀ a i, a ≠ bfsQ 0 → a ≠ bfsQ 1 → a ≠ bufA → a ≠ bfsBits → a ≠ bfsLev → m a i = m0 a i) := by
  refine Script.Ok.mono (bfsLevPar_ok wf square team two source mat clear queue0 queue1 rowptr bits fun _ => levels) ?_
  rintro r m (⟨⟨w, hw, _⟩, _⟩ | ⟨d, h1, _, h2⟩)
  · cases hw
  refine ⟨d, h1, fun x e he => ⟨h2.lt x e he, h2.lev rfl x e he⟩, h2.below, fun x hx => ?_, fun a i n1 n2 n3 n4 n5 => h2.frame a i ?_⟩
  · constructor
    · refine h2.frame _ _ ?_
      rintro (e | e | e | ⟨_, y, hy, e⟩)
      · simp at e
      · simp at e
      · simp at e
      · obtain rfl : x = y := by omega
        exact hx hy
    · refine h2.frame _ _ ?_
      rintro (e | e | e | ⟨_, y, hy, e⟩)
      · simp at e
      · simp at e
      · simp at e
      · obtain rfl : x = y := by omega
        exact hx hy
  · rintro (e | e | e | ⟨e | e, _⟩)
    · exact n1 e
    · exact n2 e
    · exact n3 e
    · exact n4 e
    · exact n5 e

/-- `bfsSix` with cleared marks. -/
def sixClearMem : Mem (CTy Int)
  | .itmp 13, i => some (0 : Int)
  | a, i => csrMem 0 0 bfsSix (fun _ => 0) (fun _ => 0) a i

/-- The hypotheses of C56_search_partial hold for the component 1, 4, 3 of `bfsSix` and every team: three levels, result 4. -/
example (T : Nat) (hT : 1 ≤ T) : (bfsLevPar (fun _ => 6 * (T : Int)) 0 0 T 6 true none 0 (1 : Nat)).Ok sixClearMem (fun r m =>
    r.1 = 4 ∧ m bfsLev 1 = some (0 : Int) ∧ m bfsLev 4 = some (1 : Int) ∧ m bfsLev 3 = some (2 : Int)) := by
  have hm : ((bfsSix.m : Nat) : Int) = 6 := rfl
  have d0 := six_dist 1 ((six_reach 1).1 (by decide))
  have d1 := six_dist 4 ((six_reach 4).1 (by decide))
  have d2 := six_dist 3 ((six_reach 3).1 (by decide))
  have := C56_search_partial (A := bfsSix) (T := T) (s := 1) (k := 0) (base := 0) (m0 := sixClearMem) (sz := fun _ => 6 * (T : Int)) bfsSix_wf rfl hT
    (show 2 ≤ T * 6 by omega) (show 1 < 6 by omega)
    ⟨fun i hi => (csrMem_pat 0 0 bfsSix (fun _ => 0) (fun _ => 0)).rowptr i hi, fun j hj => (csrMem_pat 0 0 bfsSix (fun _ => 0) (fun _ => 0)).colidx j hj⟩
    (fun _ _ => rfl) (by rw [hm]; omega) (by rw [hm]; omega) (by rw [hm]; omega) (by rw [hm]; omega) (by rw [hm]; omega) 0
  refine Script.Ok.mono this ?_
  rintro r m ⟨d, h1, h2, h3, -⟩
  have e2 := h2 _ _ d2
  have hd : d ≤ 3 := by
    by_contra hc
    obtain ⟨x, hx⟩ := h3 3 (by omega)
    have hr : Reaches bfsSix 1 x := ⟨_, hx.1⟩
    have h4 := hx.unique (six_dist x hr)
    have h5 := (six_reach x).2 hr
    simp only [List.mem_cons, List.not_mem_nil, or_false] at h5
    rcases h5 with rfl | rfl | rfl <;> simp [sixDist] at h4
  have h6 : sixDist 3 = 2 := rfl
  refine ⟨by omega, (h2 _ _ d0).2, (h2 _ _ d1).2, e2.2⟩

end Props
end SpMP
