import Verif.PipeAll
import Verif.Props.Rcm
/-
Property theorems C56 (large components in getRCMPermutation).
-/

namespace SpMP
open Spec
variable {R : Type}

theorem Spec.FirstNbr.uniq {A : Csr R} {ord : Nat → Nat} {q f g : Nat} (h1 : FirstNbr A ord q f) (h2 : FirstNbr A ord q g) : f = g := by
  rcases Nat.lt_trichotomy f g with h | h | h
  · exact absurd h1.1 (h2.2 f h)
  · exact h
  · exact absurd h2.1 (h1.2 g h)

theorem firstAt_nbr {A : Csr R} {l : List Nat} {q f : Nat} (h : FirstAt A l q f) : FirstNbr A (fun j => l.getD j 0) q f := by
  obtain ⟨u, x, h1, h2, h3, h4⟩ := h
  have e1 : l.getD f 0 = u := by rw [List.getD_eq_getElem?_getD, h1]; rfl
  have e2 : l.getD q 0 = x := by rw [List.getD_eq_getElem?_getD, h2]; rfl
  refine ⟨by show Stores A (l.getD f 0) (l.getD q 0); rw [e1, e2]; exact h3, fun g hg => ?_⟩
  show ¬ Stores A (l.getD g 0) (l.getD q 0)
  have hl := (List.getElem?_eq_some_iff.1 h1).1
  rw [e2, List.getD_eq_getElem?_getD, List.getElem?_eq_getElem (show g < l.length by omega)]
  exact h4 g _ hg (List.getElem?_eq_getElem _)

/-- The list of the sequential placing is a Cuthill–McKee order. -/
theorem CmCtx.order {A : Csr R} {s : Nat} {D : Nat → Nat} {N : List Nat} {srt : List (Int × Int) → List (Int × Int)} (h : CmCtx A s D N srt) :
    IsCmOrder A s (cmAll A s D N srt) := by
  have hl := h.all_list
  obtain ⟨F, hF⟩ := hl.firsts
  have hf := fun q h1 h2 => firstAt_nbr (hF.first q h1 h2).2.2
  refine ⟨hl.nodup, h.all_mem, hl.zero, ?_, fun q h1 h2 => ⟨F q, (hF.first q h1 h2).1, hf q h1 h2⟩, ?_⟩
  · have hr := hl.reach
    have hs := hl.sorted
    rw [List.pairwise_iff_getElem] at hs ⊢
    intro i j hi hj hij d e hd he
    rw [hd.unique (h.dist _ (hr _ (List.getElem_mem _))), he.unique (h.dist _ (hr _ (List.getElem_mem _)))]
    exact hs i j hi hj hij
  · intro p q f g h0 hpq hq hf1 hg1
    have ef := hf1.uniq (hf p h0 (by omega))
    have eg := hg1.uniq (hf q (by omega) hq)
    have hp : p < (cmAll A s D N srt).length := by omega
    have := hF.order p q _ _ h0 hpq (List.getElem?_eq_getElem hp) (List.getElem?_eq_getElem hq)
    rw [ef, eg, List.getD_eq_getElem?_getD, List.getD_eq_getElem?_getD, List.getElem?_eq_getElem hp, List.getElem?_eq_getElem hq]
    exact this

end SpMP

namespace SpMP.Props
open SpMP SpMP.Spec

variable {R : Type}

/-- C56 from the point where the levels of the component and their sizes are known (RCM.cpp:884-936): there is a Cuthill–McKee order of the
component of `s`, which depends on the pattern, the source and std::sort only, such that every team, under every interleaving of the threads
that spin on each other's progress, finishes without undefined behaviour or deadlock with the component numbered in this order from the end
of the permutation, and changes nothing outside the work arrays and the component's part of the permutation. -/
theorem C56_pipeline_partial {A : Csr R} {s : Nat} {D : Nat → Nat} {N : List Nat} {srt : List (Int × Int) → List (Int × Int)} (wf : A.WF)
    (hsq : A.n = A.m) (hs : s < A.m) (hD : ∀ x, Reaches A s x → IsDist A s x (D x)) (hnd : N.Nodup) (hN : ∀ x, x ∈ N ↔ Reaches A s x)
    (hperm : ∀ l, (srt l).Perm l) (hsorted : ∀ l, (srt l).Pairwise fun x y => x.1 ≤ y.1) :
    ∃ l : List Nat, IsCmOrder A s l ∧ ∀ (T k nl md off : Nat) (sz : CArr → Int) (m0 : Mem (CTy R)), 1 ≤ T → (∀ x, Reaches A s x → D x + 1 ≤ nl) →
      off + N.length ≤ A.m → (∀ u, u < A.m → degree A u ≤ md) → HoldsPat m0 k 0 A →
      (∀ d : Nat, d ≤ nl → m0 rcmPfx (d : Int) = some (N.countP (fun y => decide (D y < d)) : Int)) →
      (∀ x, Reaches A s x → m0 bfsLev (x : Int) = some (D x : Int)) →
      (A.m : Int) ≤ sz bfsLev → (A.m : Int) ≤ sz bfsInv → (A.m : Int) ≤ sz bfsPrm → 16 * (nl : Int) < sz rcmWo → (T : Int) * md ≤ sz rcmChd →
      (rcmPipe sz k A.m T nl md srt (off : Int) (s : Int)).Ok m0 (fun _ m =>
        (∀ j x : Nat, l[j]? = some x → m bfsPrm (x : Int) = some ((A.m : Int) - off - j - 1 : Int) ∧ m bfsInv ((A.m : Int) - off - j - 1) = some (x : Int)) ∧
        (∀ x : Nat, ¬ Reaches A s x → m bfsPrm (x : Int) = m0 bfsPrm (x : Int)) ∧
        (∀ i : Int, i < (A.m : Int) - off - N.length ∨ (A.m : Int) - off ≤ i → m bfsInv i = m0 bfsInv i) ∧
        ∀ a i, (∀ j, a ≠ .itmp j) → m a i = m0 a i) := by
  have cm : CmCtx A s D N srt := ⟨wf, hsq, hs, hD, hnd, hN, fun l => ⟨hperm l, hsorted l⟩⟩
  refine ⟨cmAll A s D N srt, cm.order, ?_⟩
  intro T k nl md off sz m0 hT hlv room hdeg pat pfx lev z1 z2 z3 z4 z5
  refine rcmPipe_ok cm hT hlv room hdeg pat pfx lev z1 z2 z3 z4 z5 ?_
  intro m hout hf
  refine ⟨fun j x hj => ?_, fun x hx => hf _ _ ?_, fun i hi => hf _ _ ?_, fun a i ha => hf _ _ ?_⟩
  · have e : (A.m : Int) - ((off + j : Nat) : Int) - 1 = (A.m : Int) - off - j - 1 := by omega
    exact ⟨by rw [← e]; exact hout.perm j x hj, by rw [← e]; exact hout.inv j x hj⟩
  · rintro (⟨h, _⟩ | ⟨_, y, h1, h2⟩ | ⟨h, _⟩ | h | ⟨h, _⟩)
    · simp at h
    · exact hx (by rw [show x = y by omega]; exact h1)
    · simp at h
    · simp at h
    · simp at h
  · rintro (⟨h, _⟩ | ⟨h, _⟩ | ⟨_, h1, h2⟩ | h | ⟨h, _⟩)
    · simp at h
    · simp at h
    · omega
    · simp at h
    · simp at h
  · rintro (⟨h, _⟩ | ⟨h, _⟩ | ⟨h, _⟩ | h | ⟨h, _⟩) <;> exact ha _ h

/-- `bfsSix` with the levels of this component and the starts of its levels in memory. -/
def sixLevMem : Mem (CTy Int)
  | .itmp 16, i => some (sixDist i.toNat : Int)
  | .itmp 22, i => some (([1, 3, 4].countP fun y => decide (sixDist y < i.toNat) : Nat) : Int)
  | a, i => csrMem 0 0 bfsSix (fun _ => 0) (fun _ => 0) a i

/-- The hypotheses of C56 hold for this component (two levels below the source, placed at positions 2 to 4) and every team. -/
example : ∃ l : List Nat, IsCmOrder bfsSix 1 l ∧ ∀ T : Nat, 1 ≤ T →
    (rcmPipe (fun _ => max 100 (2 * (T : Int))) 0 6 T 4 2 rcmSort0 (2 : Nat) (1 : Nat)).Ok sixLevMem (fun _ m =>
      ∀ j x : Nat, l[j]? = some x → m bfsPrm (x : Int) = some ((6 : Int) - 2 - j - 1 : Int) ∧ m bfsInv ((6 : Int) - 2 - j - 1) = some (x : Int)) := by
  obtain ⟨l, h1, h2⟩ := C56_pipeline_partial (N := [1, 3, 4]) bfsSix_wf rfl (show 1 < 6 by omega) six_dist (by decide) six_reach rcmSort0_perm rcmSort0_sorted
  refine ⟨l, h1, fun T hT => ?_⟩
  refine Script.Ok.mono (h2 T 0 4 2 2 (fun _ => max 100 (2 * (T : Int))) sixLevMem hT ?_ (by decide) ?_ ?_ ?_ ?_ ?_ ?_ ?_ ?_ ?_) (fun _ m h => h.1)
  · intro x hx
    have hx := (six_reach x).2 hx
    simp only [List.mem_cons, List.not_mem_nil, or_false] at hx
    rcases hx with rfl | rfl | rfl <;> decide
  · intro u hu
    change u < 6 at hu
    interval_cases u <;> decide
  · exact ⟨fun i hi => (csrMem_pat 0 0 bfsSix (fun _ => 0) (fun _ => 0)).rowptr i hi, fun j hj => (csrMem_pat 0 0 bfsSix (fun _ => 0) (fun _ => 0)).colidx j hj⟩
  · exact fun _ _ => rfl
  · exact fun _ _ => rfl
  · show (6 : Int) ≤ max 100 (2 * (T : Int)); omega
  · show (6 : Int) ≤ max 100 (2 * (T : Int)); omega
  · show (6 : Int) ≤ max 100 (2 * (T : Int)); omega
  · show 16 * ((4 : Nat) : Int) < max 100 (2 * (T : Int)); omega
  · show (T : Int) * ((2 : Nat) : Int) ≤ max 100 (2 * (T : Int)); omega

end SpMP.Props
