import Verif.RcmFull
import Verif.Sched
import Verif.Checks
import Verif.Props.Bfs
import Verif.Props.Components
/-
Property theorems C45 (getRCMPermutation).
-/

namespace SpMP.Props
open SpMP SpMP.Spec

variable {R : Type}

/-- C45 for one thread: for every matrix with a symmetric pattern and no entry stored twice, index base 0 or 1, however iterations are
distributed and whatever std::sort does with equal degrees: no undefined behaviour, the call returns, `perm` and `inversePerm` are inverse
permutations which in reverse are a Cuthill–McKee order of every component, and the matrix is as before. A component of PAR_THR rows or more
goes through the selection of a source if pseudoDiameterSourceSelection is true (sizes below INT_MAX), the parallel search, the prefix sums
and the pipelined numbering; the theorem covers it when the component, searched from its first row (from any row, if the source is
selected), does not need all rows of the matrix as levels (otherwise false, `C45_path_false`).
Missing: several threads from the start (false, `C45_lost_union_false`, `C45_prefix_false`; true from exact components on,
`C45_team_partial`), an entry stored twice (false, `C45_duplicate_entry_false`). -/
theorem C45_one_thread_partial {sz : CArr → Int} {k k' base thr : Nat} {A : Csr R} {o : Opt} {pd : Bool} {srt : List (Int × Int) → List (Int × Int)}
    {asg : RcmAsg} {m0 : Mem (CTy R)} (wf : A.WF) (hsq : A.n = A.m) (hpos : 0 < A.m) (hsym : PatSym A) (hnd : NoDup A) (hkk : k' ≠ k)
    (hint : pd = true → (A.m : Int) < intMax ∧ (A.nnz : Int) < intMax)
    (hlong : ∀ s x d, s < A.m → (pd = false → ∀ y, Reaches A s y → s ≤ y) → (∀ l : List Nat, (∀ y, Reaches A s y → y ∈ l) → thr ≤ l.length) → IsDist A s x d → d + 1 < A.m)
    (hcomp : ∀ nc c, asg.comp nc c = 0) (hclear : ∀ c x, asg.clear c x = 0) (hcount : ∀ c x, asg.count c x = 0) (hdg : ∀ c x, asg.deg c x = 0)
    (hperm : ∀ l, (srt l).Perm l) (hsorted : ∀ l, (srt l).Pairwise fun x y => x.1 ≤ y.1) (hb : base = 0 ∨ base = 1) (hpat : HoldsPat m0 k base A)
    (hdiag : o.diagptr → ∀ i : Nat, i < A.m → ∃ v, m0 (.diagptr k) (i : Int) = some v) (hsz : SizesOk sz k A o) :
    (getRcm sz 1 k k' A.m thr o pd srt asg).Ok m0 (fun _ m =>
      (∃ perm inv, IsRcmNumbering A perm inv ∧ (∀ x : Nat, x < A.m → m bfsPrm (x : Int) = some (perm x : Int)) ∧
        ∀ p : Nat, p < A.m → m bfsInv (p : Int) = some (inv p : Int)) ∧
      ∀ a i, a ≠ .rowptr k' → (∀ j, a ≠ .itmp j) → m a i = m0 a i) := by
  refine Script.Ok.mono (getRcm_ok wf hsq hpos hsym hnd hkk rfl hint hlong (fun l => ⟨hperm l, hsorted l⟩) (fun nc c => by rw [hcomp]; omega)
    (fun c x => by rw [hclear]; omega) (fun c x => by rw [hcount]; omega) (fun c x => by rw [hdg]; omega) hb hpat hdiag hsz) ?_
  rintro _ m ⟨⟨perm, inv, h1, h2⟩, h3⟩
  refine ⟨⟨perm, inv, h1, h2.perm, h2.inv⟩, fun a i a1 a2 => h3 a i ?_⟩
  rintro (e | ⟨j, e⟩)
  · exact a1 e
  · exact a2 j e

/-- C45 for every team, every distribution of iterations and every interleaving, from the point where the exact components are known
(lines 716 on): small components when a component and the team together do not exceed PAR_THR, large ones (by the whole team: marks
cleared, levels searched with racing marks, prefix sums, pipelined numbering) when the component does not need all rows of the matrix as
levels and, if pseudoDiameterSourceSelection is true, sizes are below INT_MAX and the last level of a search fits T times into the candidates
(otherwise false, `C57_candidates_false`). -/
theorem C45_team_partial {sz : CArr → Int} {T k k' thr md nc : Nat} {A : Csr R} {pd : Bool} {srt : List (Int × Int) → List (Int × Int)} {asg : RcmAsg}
    {root size start node : Nat → Nat} {m0 : Mem (CTy R)} (hT : 1 ≤ T) (wf : A.WF) (hsq : A.n = A.m) (hsym : PatSym A) (hnd : NoDup A)
    (hcomps : IsComponents (fun x => x < A.m) (Reaches A) nc root size start node) (hsmall : ∀ c, c < nc → size c < thr → size c + T ≤ thr)
    (hlong : ∀ c s x d, c < nc → thr ≤ size c → Reaches A (root c) s → (pd = false → s = root c) → IsDist A s x d → d + 1 < A.m)
    (hint : pd = true → (T : Int) * A.m < intMax ∧ (A.nnz : Int) < intMax)
    (hlast : pd = true → ∀ (c s d : Nat) (l : List Nat), c < nc → thr ≤ size c → Reaches A (root c) s → l.Nodup → (∀ x ∈ l, IsDist A s x d) →
      (∀ x e, IsDist A s x e → e ≤ d) → T * l.length ≤ A.m)
    (hcomp : ∀ c, c < nc → asg.comp nc c < T) (hclear : ∀ c x, asg.clear c x < T) (hcount : ∀ c x, asg.count c x < T) (hdg : ∀ c x, asg.deg c x < T)
    (hdeg : ∀ u, u < A.m → degree A u ≤ md) (hperm : ∀ l, (srt l).Perm l) (hsorted : ∀ l, (srt l).Pairwise fun x y => x.1 ≤ y.1)
    (hpat : HoldsPat m0 k 0 A) (hout : CcOutput k' nc root size start node m0) (hmarks : ∀ x : Nat, x < A.m → m0 bfsBits (x : Int) = some (0 : Int))
    (hq0 : (A.m : Int) * T ≤ sz (bfsQ 0)) (hq1 : (A.m : Int) * T ≤ sz (bfsQ 1)) (hrp : (T : Int) * A.m ≤ sz bufA) (hbits : (A.m : Int) ≤ sz bfsBits)
    (hlev : (A.m : Int) ≤ sz bfsLev) (hinv : (A.m : Int) ≤ sz bfsInv) (hprm : (A.m : Int) ≤ sz bfsPrm)
    (hchd : (T : Int) * max thr md ≤ sz rcmChd) (hpfx : max ((T : Int) * thr) (A.m : Int) + 1 ≤ sz rcmPfx) (hwo : ((A.m : Int) + 1) * 16 ≤ sz rcmWo) (hcand : (A.m : Int) ≤ sz rcmCand) :
    (rcmRest sz T k k' A.m thr md pd srt asg nc).Ok m0 (fun _ m =>
      (∃ perm inv, IsRcmNumbering A perm inv ∧ (∀ x : Nat, x < A.m → m bfsPrm (x : Int) = some (perm x : Int)) ∧
        ∀ p : Nat, p < A.m → m bfsInv (p : Int) = some (inv p : Int)) ∧
      ∀ a i, (∀ j, a ≠ .itmp j) → m a i = m0 a i) := by
  have hctx : RcmCtx A (fun x => x < A.m) nc root size start node T thr (asg.comp nc) := ⟨wf, hsq, hsym, hnd, fun _ => Iff.rfl, hcomps, hcomp, hsmall⟩
  have h1 : (T : Int) * thr ≤ (T : Int) * max thr md := Int.mul_le_mul_of_nonneg_left (by omega) (by omega)
  have h2 : (T : Int) * md ≤ (T : Int) * max thr md := Int.mul_le_mul_of_nonneg_left (by omega) (by omega)
  refine Script.Ok.mono (rcmRest_ok hctx ⟨hq0, hq1, hlev, hinv, hprm, by omega, by omega⟩
    ⟨by rw [Int.mul_comm]; exact hq0, by rw [Int.mul_comm]; exact hq1, hrp, hbits, hlev, hinv, hprm, by omega, by omega, hwo⟩ hcand
    (fun l => ⟨hperm l, hsorted l⟩) hclear hcount hdg hlong (fun e c hc hs => ⟨(hint e).1, fun x hx => ?_, fun s d l => hlast e c s d l hc hs⟩) hdeg ⟨hpat, hout.compToRoot, hout.compSizes, hout.compSizePrefixSum, hout.nodesSortedByComp⟩ (fun x hx => ⟨0, hmarks x hx, fun _ => rfl⟩) hT) ?_
  · have h3 := (hint e).2
    have h4 := wf.ptr_le_nnz (i := x + 1) (by have := hx.lt wf hsq (hcomps.root_mem c hc); omega)
    unfold degree
    omega
  rintro _ m ⟨⟨perm, inv, h1, h2⟩, h3⟩
  refine ⟨⟨perm, inv, h1, h2.perm, h2.inv⟩, fun a i a2 => h3 a i ?_⟩
  rintro (e | e | e | e | e | e | e | e | e | e | e | e | e) <;> exact a2 _ e

/-- A stable sort by degree. -/
def rcmSort0 (l : List (Int × Int)) : List (Int × Int) := l.insertionSort (fun x y => x.1 ≤ y.1)

theorem rcmSort0_perm (l : List (Int × Int)) : (rcmSort0 l).Perm l := List.perm_insertionSort _ l

theorem rcmSort0_sorted (l : List (Int × Int)) : (rcmSort0 l).Pairwise fun x y => x.1 ≤ y.1 := by
  haveI : Std.Total (fun x y : Int × Int => x.1 ≤ y.1) := ⟨fun x y => Int.le_total x.1 y.1⟩
  haveI : IsTrans (Int × Int) (fun x y => x.1 ≤ y.1) := ⟨fun _ _ _ h1 h2 => Int.le_trans h1 h2⟩
  exact List.pairwise_insertionSort _ l

/-- Component classes of `bfsSix`. -/
def sixClass : Nat → Nat | 0 => 0 | 2 => 0 | 5 => 2 | _ => 1

/-- Levels of the component 1, 4, 3 of `bfsSix` from 1. -/
def sixDist : Nat → Nat | 1 => 0 | 4 => 1 | 3 => 2 | _ => 0

theorem six_reach (x : Nat) : x ∈ [1, 3, 4] ↔ Reaches bfsSix 1 x := by
  have e : ∀ x j, (x < 6 ∧ bfsSix.ptr x ≤ j ∧ j < bfsSix.ptr (x + 1)) → Reaches bfsSix x (bfsSix.col j) := fun x j h => Reaches.edge h
  constructor
  · intro h
    simp only [List.mem_cons, List.not_mem_nil, or_false] at h
    rcases h with rfl | rfl | rfl
    · exact .refl _
    · exact (e 1 2 (by decide)).trans (e 4 6 (by decide))
    · exact e 1 2 (by decide)
  · intro h
    have hx : x < 6 := h.lt bfsSix_wf rfl (show 1 < 6 by omega)
    have := reaches_const (f := sixClass) bfsSix_wf (by decide +kernel) h
    interval_cases x <;> first | decide | exact absurd this (by decide)

theorem six_dist (x : Nat) (h : Reaches bfsSix 1 x) : IsDist bfsSix 1 x (sixDist x) := by
  have e : ∀ {x d : Nat} (j : Nat), (x < 6 ∧ bfsSix.ptr x ≤ j ∧ j < bfsSix.ptr (x + 1)) → Walk bfsSix 1 x d → Walk bfsSix 1 (bfsSix.col j) (d + 1) :=
    fun j h w => .snoc w h
  have hx := (six_reach x).2 h
  simp only [List.mem_cons, List.not_mem_nil, or_false] at hx
  refine isDist_of_potential bfsSix_wf (by decide +kernel) rfl ?_
  have w0 : Walk bfsSix 1 1 0 := .nil
  rcases hx with rfl | rfl | rfl
  · exact w0
  · exact e 6 (by decide) (e 2 (by decide) w0)
  · exact e 2 (by decide) w0

theorem six_long (s x d : Nat) (hs : s < bfsSix.m) (hd : IsDist bfsSix s x d) : d + 1 < bfsSix.m := by
  have h1 := dist_lt_length (N := (List.range 6).filter fun y => decide (sixClass s = sixClass y)) (fun y hy => by
    refine List.mem_filter.2 ⟨List.mem_range.2 (hy.lt bfsSix_wf rfl hs), ?_⟩
    rw [reaches_const (f := sixClass) bfsSix_wf (by decide +kernel) hy]
    simp) hd
  change s < 6 at hs
  show d + 1 < 6
  have h2 : ((List.range 6).filter fun y => decide (sixClass s = sixClass y)).length ≤ 3 := by
    interval_cases s <;> decide
  omega

/-- Static distributions of iterations to `T` threads: round robin. -/
def rcmAsg (T : Nat) : RcmAsg := ⟨fun _ c => c % T, fun _ x => x % T, fun _ x => x % T, fun _ x => x % T⟩

/-- The hypotheses of the one-thread theorem hold for three components, base 1, with a diagonal array: with the real PAR_THR and the
default of pseudoDiameterSourceSelection, and with PAR_THR = 3, where the component 1, 4, 3 is large, without and with the selection of a
source. -/
example : ∀ c : Nat × Bool,
    (getRcm (R := Int) (csrSize 0 6 8 ⟨true, true, false, false, false⟩) 1 0 1 bfsSix.m c.1 ⟨true, true, false, false, false⟩ c.2 rcmSort0
      (rcmAsg 1)).Ok (csrMem 0 1 bfsSix (fun _ => 0) (fun _ => 0)) (fun _ m =>
      (∃ perm inv, IsRcmNumbering bfsSix perm inv ∧ (∀ x : Nat, x < bfsSix.m → m bfsPrm (x : Int) = some (perm x : Int)) ∧
        ∀ p : Nat, p < bfsSix.m → m bfsInv (p : Int) = some (inv p : Int)) ∧
      ∀ a i, a ≠ .rowptr 1 → (∀ j, a ≠ .itmp j) → m a i = csrMem 0 1 bfsSix (fun _ => 0) (fun _ => 0) a i) := by
  intro c
  have hnnz : bfsSix.nnz = 8 := by decide
  refine C45_one_thread_partial bfsSix_wf rfl (show 0 < 6 by omega) bfsSix_sym bfsSix_nodup (by omega) ?_
    (fun s x d hs _ _ => six_long s x d hs) (fun _ _ => Nat.mod_one _) (fun _ _ => Nat.mod_one _) (fun _ _ => Nat.mod_one _) (fun _ _ => Nat.mod_one _)
    rcmSort0_perm rcmSort0_sorted (Or.inr rfl)
    (csrMem_pat 0 1 bfsSix _ _) (fun _ i hi => ⟨_, by show (if _ then _ else _) = _; exact if_pos ⟨rfl, by omega, by omega⟩⟩) ⟨?_, ?_, ?_, ?_, ?_, ?_, ?_⟩
  · intro _
    rw [hnnz]
    exact ⟨by decide, by decide⟩
  · exact Int.le_refl _
  · rw [hnnz]; exact Int.le_refl _
  · intro _; rw [hnnz]; exact Int.le_refl _
  · intro _; exact Int.le_refl _
  · intro h; cases h
  · intro h; cases h
  · intro h; cases h

/-- The components of `bfsSix`. -/
def sixRoot : Nat → Nat | 0 => 0 | 1 => 1 | _ => 5
def sixSize : Nat → Nat | 0 => 2 | 1 => 3 | _ => 1
def sixStart : Nat → Nat | 0 => 0 | 1 => 2 | _ => 5
def sixNode : Nat → Nat | 0 => 0 | 1 => 2 | 2 => 1 | 3 => 3 | 4 => 4 | _ => 5

theorem bfsSix_comps : IsComponents (fun x => x < bfsSix.m) (Reaches bfsSix) 3 sixRoot sixSize sixStart sixNode := by
  have hm : bfsSix.m = 6 := rfl
  have e : ∀ x j, (x < 6 ∧ bfsSix.ptr x ≤ j ∧ j < bfsSix.ptr (x + 1)) → Reaches bfsSix x (bfsSix.col j) := fun x j h => Reaches.edge h
  refine ⟨?_, ?_, ?_, rfl, ?_, ?_, ?_, ?_⟩
  · intro c hc; interval_cases c <;> decide
  · intro c x hc hx hr
    have := reaches_const (f := sixClass) bfsSix_wf (by decide +kernel) hr
    change x < 6 at hx
    interval_cases c <;> interval_cases x <;> first | decide | exact absurd this (by decide)
  · intro c d h1 h2; interval_cases d <;> interval_cases c <;> decide
  · intro c h
    obtain rfl | rfl : c = 0 ∨ c = 1 := by omega
    · rfl
    · rfl
  · intro c j hc hj
    interval_cases c
    · change j < 2 at hj
      interval_cases j
      · exact ⟨by decide, .refl _⟩
      · exact ⟨by decide, e 0 0 (by decide)⟩
    · change j < 3 at hj
      interval_cases j
      · exact ⟨by decide, .refl _⟩
      · exact ⟨by decide, (e 1 2 (by decide)).trans (e 4 6 (by decide))⟩
      · exact ⟨by decide, e 1 2 (by decide)⟩
    · change j < 1 at hj
      interval_cases j
      exact ⟨by decide, .refl _⟩
  · intro c i j hc hi hj
    interval_cases c
    · change j < 2 at hj; interval_cases j <;> interval_cases i <;> decide
    · change j < 3 at hj; interval_cases j <;> interval_cases i <;> decide
    · change j < 1 at hj; omega
  · intro x hx
    change x < 6 at hx
    interval_cases x
    · exact ⟨0, 0, by decide, by decide, rfl⟩
    · exact ⟨1, 0, by decide, by decide, rfl⟩
    · exact ⟨0, 1, by decide, by decide, rfl⟩
    · exact ⟨1, 1, by decide, by decide, rfl⟩
    · exact ⟨1, 2, by decide, by decide, rfl⟩
    · exact ⟨2, 0, by decide, by decide, rfl⟩

/-- `bfsSix` with its components and cleared marks in memory. -/
def sixMem : Mem (CTy Int)
  | .itmp 3, i => some (sixRoot i.toNat : Int)
  | .itmp 4, i => some (sixSize i.toNat : Int)
  | .itmp 5, i => some (sixNode i.toNat : Int)
  | .itmp 13, _ => some (0 : Int)
  | .rowptr 1, i => some (sixStart i.toNat : Int)
  | a, i => csrMem 0 0 bfsSix (fun _ => 0) (fun _ => 0) a i

attribute [local irreducible] Script.Ok rcmRest in
/-- The hypotheses of the team theorem hold for three components and every team with PAR_THR = 65536, and, with PAR_THR = 3 and one large
component, for one thread (a larger team has no room for the small components), without and with the selection of a source. -/
example : ∀ c : Nat × Nat × Bool, (1 ≤ c.1 ∧ c.1 ≤ 65000 ∧ c.2 = (65536, true)) ∨ c = (1, 3, c.2.2) →
    (rcmRest (fun _ => 65536 * (c.1 : Int) + 65536) c.1 0 1 6 c.2.1 2 c.2.2 rcmSort0 (rcmAsg c.1) 3).Ok sixMem (fun _ m =>
      (∃ perm inv, IsRcmNumbering bfsSix perm inv ∧ (∀ x : Nat, x < bfsSix.m → m bfsPrm (x : Int) = some (perm x : Int)) ∧
        ∀ p : Nat, p < bfsSix.m → m bfsInv (p : Int) = some (inv p : Int)) ∧
      ∀ a i, (∀ j, a ≠ .itmp j) → m a i = sixMem a i) := by
  intro c hc
  obtain ⟨T, thr, pd⟩ := c
  have hc : (1 ≤ T ∧ T ≤ 65000 ∧ thr = 65536) ∨ (T = 1 ∧ thr = 3) := by
    rcases hc with ⟨h1, h2, h3⟩ | h
    · injection h3 with h3 _; exact Or.inl ⟨h1, h2, h3⟩
    · injection h with h1 h; injection h with h2 _; exact Or.inr ⟨h1, h2⟩
  dsimp only
  have hT : 1 ≤ T := by omega
  have hthr : thr ≤ 65536 := by omega
  have hm : ((bfsSix.m : Nat) : Int) = 6 := rfl
  have hmul : (T : Int) * thr ≤ (T : Int) * 65536 := Int.mul_le_mul_of_nonneg_left (by omega) (by omega)
  have hmul2 : (T : Int) * max thr 2 ≤ (T : Int) * 65536 := Int.mul_le_mul_of_nonneg_left (by omega) (by omega)
  have hroot : ∀ c, c < 3 → sixRoot c < bfsSix.m := fun c hc => bfsSix_comps.root_mem c hc
  refine C45_team_partial hT bfsSix_wf rfl bfsSix_sym bfsSix_nodup bfsSix_comps ?_ (fun c s x d hc _ hs _ => six_long s x d (hs.lt bfsSix_wf rfl (hroot c hc))) ?_ ?_
    (fun _ _ => Nat.mod_lt _ hT) (fun _ _ => Nat.mod_lt _ hT) (fun _ _ => Nat.mod_lt _ hT) (fun _ _ => Nat.mod_lt _ hT)
    (by intro u hu; change u < 6 at hu; interval_cases u <;> decide) rcmSort0_perm rcmSort0_sorted
    ⟨fun i hi => (csrMem_pat 0 0 bfsSix (fun _ => 0) (fun _ => 0)).rowptr i hi, fun j hj => (csrMem_pat 0 0 bfsSix (fun _ => 0) (fun _ => 0)).colidx j hj⟩
    ⟨fun _ _ => rfl, fun _ _ => rfl, fun _ _ => rfl, fun _ _ _ _ => rfl⟩ (fun x _ => rfl) ?_ ?_ ?_ ?_ ?_ ?_ ?_ ?_ ?_ ?_ ?_
  · intro d hd hs
    rcases hc with ⟨h1, h2, h3⟩ | ⟨rfl, rfl⟩
    · rw [h3]; interval_cases d <;> simp only [sixSize] <;> omega
    · exact hs
  · intro _
    rw [hm, show bfsSix.nnz = 8 by decide]
    unfold intMax
    omega
  · intro _ c s d l hc' ht hs hl hd _
    rcases hc with ⟨h1, h2, rfl⟩ | ⟨rfl, rfl⟩
    · interval_cases c <;> simp only [sixSize] at ht <;> omega
    · have : l.length ≤ 6 := bfs_len_le (A := bfsSix) bfsSix_wf rfl (hs.lt bfsSix_wf rfl (hroot c hc')) hl fun x hx => ⟨_, (hd x hx).1⟩
      show 1 * l.length ≤ 6
      omega
  all_goals (try rw [hm]); (try omega)

/-- The cycle 0 - 1 - 3 - 2 - 0. -/
def rcmCycle : Csr Int := Csr.ofRows 4 4 (fun i => match i with
  | 0 => [(1, 1), (2, 1)] | 1 => [(0, 1), (3, 1)] | 2 => [(0, 1), (3, 1)] | 3 => [(1, 1), (2, 1)] | _ => []) 0

theorem rcmCycle_wf : rcmCycle.WF := by
  refine Csr.ofRows_wf ?_
  intro i p hi hp
  interval_cases i <;> simp at hp <;> rcases hp with rfl | rfl <;> decide

/-- Distances from 0 in the cycle. -/
def cycDist : Nat → Nat | 0 => 0 | 1 => 1 | 2 => 1 | 3 => 2 | _ => 0

/-- Distances from `s` in the cycle. -/
def cycDistFrom (s x : Nat) : Nat := (if s % 2 = x % 2 then 0 else 1) + (if s / 2 % 2 = x / 2 % 2 then 0 else 1)

theorem cyc_dist (x : Nat) (hx : x < 4) : IsDist rcmCycle 0 x (cycDist x) := by
  have e : ∀ {x d : Nat} (j : Nat), (x < 4 ∧ rcmCycle.ptr x ≤ j ∧ j < rcmCycle.ptr (x + 1)) → Walk rcmCycle 0 x d → Walk rcmCycle 0 (rcmCycle.col j) (d + 1) :=
    fun j h w => .snoc w h
  refine isDist_of_potential rcmCycle_wf (by decide +kernel) rfl ?_
  have w0 : Walk rcmCycle 0 0 0 := .nil
  interval_cases x
  · exact w0
  · exact e 0 (by decide) w0
  · exact e 1 (by decide) w0
  · exact e 3 (by decide) (e 0 (by decide) w0)

theorem cyc_dist_from (s x : Nat) (hs : s < 4) (hx : x < 4) : IsDist rcmCycle s x (cycDistFrom s x) := by
  have e : ∀ {x d : Nat} (j : Nat), (x < 4 ∧ rcmCycle.ptr x ≤ j ∧ j < rcmCycle.ptr (x + 1)) → Walk rcmCycle s x d → Walk rcmCycle s (rcmCycle.col j) (d + 1) :=
    fun j h w => .snoc w h
  have w0 : Walk rcmCycle s s 0 := .nil
  interval_cases s
  all_goals refine isDist_of_potential rcmCycle_wf (by decide +kernel) rfl ?_
  · interval_cases x
    · exact w0
    · exact e 0 (by decide) w0
    · exact e 1 (by decide) w0
    · exact e 3 (by decide) (e 0 (by decide) w0)
  · interval_cases x
    · exact e 2 (by decide) w0
    · exact w0
    · exact e 1 (by decide) (e 2 (by decide) w0)
    · exact e 3 (by decide) w0
  · interval_cases x
    · exact e 4 (by decide) w0
    · exact e 0 (by decide) (e 4 (by decide) w0)
    · exact w0
    · exact e 5 (by decide) w0
  · interval_cases x
    · exact e 2 (by decide) (e 6 (by decide) w0)
    · exact e 6 (by decide) w0
    · exact e 7 (by decide) w0
    · exact w0

/-- The last level of a search of the cycle is one row. -/
theorem cyc_last {s d : Nat} {l : List Nat} (hs : s < 4) (hl : l.Nodup) (hd : ∀ x ∈ l, IsDist rcmCycle s x d) (hmax : ∀ x e, IsDist rcmCycle s x e → e ≤ d) :
    l.length ≤ 1 := by
  have h2 := hmax (3 - s) _ (cyc_dist_from s (3 - s) hs (by omega))
  have hsub : l ⊆ [3 - s] := by
    intro x hx
    have hr : Reaches rcmCycle s x := ⟨_, (hd x hx).1⟩
    have hx4 : x < 4 := hr.lt rcmCycle_wf rfl (show s < 4 from hs)
    have h3 := (hd x hx).unique (cyc_dist_from s x hs hx4)
    rw [h3] at h2
    rw [List.mem_singleton]
    interval_cases s <;> interval_cases x <;> first | rfl | (exact absurd h2 (by decide))
  exact (List.subperm_of_subset hl hsub).length_le

theorem rcmCycle_comps : IsComponents (fun x => x < rcmCycle.m) (Reaches rcmCycle) 1 (fun _ => 0) (fun _ => 4) (fun _ => 0) id := by
  refine ⟨fun c hc => show 0 < 4 by omega, fun _ _ _ _ _ => Nat.zero_le _, fun c d h1 h2 => by omega, rfl, fun c h => by omega, ?_, ?_, ?_⟩
  · intro c j _ hj
    obtain rfl : c = 0 := by omega
    change j < 4 at hj
    exact ⟨show 0 + j < 4 by omega, by rw [show id (0 + j) = j by simp]; exact ⟨_, (cyc_dist j hj).1⟩⟩
  · intro c i j _ hi hj
    show 0 + i < 0 + j
    omega
  · intro x hx
    change x < 4 at hx
    exact ⟨0, x, by omega, hx, by show 0 + x = x; omega⟩

/-- The cycle with its only component and cleared marks in memory. -/
def cycMem : Mem (CTy Int)
  | .itmp 3, _ => some (0 : Int)
  | .itmp 4, _ => some (4 : Int)
  | .itmp 5, i => some (i.toNat : Int)
  | .itmp 13, _ => some (0 : Int)
  | .rowptr 1, _ => some (0 : Int)
  | a, i => csrMem 0 0 rcmCycle (fun _ => 0) (fun _ => 0) a i

attribute [local irreducible] Script.Ok rcmRest in
/-- The hypotheses of the team theorem hold for one large component (PAR_THR = 3) and every team without, up to four threads with the
selection of a source. -/
example (T : Nat) (pd : Bool) (hT : 1 ≤ T) (hT4 : pd = true → T ≤ 4) :
    (rcmRest (fun _ => 8 * (T : Int) + 80) T 0 1 4 3 2 pd rcmSort0 (rcmAsg T) 1).Ok cycMem (fun _ m =>
      (∃ perm inv, IsRcmNumbering rcmCycle perm inv ∧ (∀ x : Nat, x < rcmCycle.m → m bfsPrm (x : Int) = some (perm x : Int)) ∧
        ∀ p : Nat, p < rcmCycle.m → m bfsInv (p : Int) = some (inv p : Int)) ∧
      ∀ a i, (∀ j, a ≠ .itmp j) → m a i = cycMem a i) := by
  have hm : ((rcmCycle.m : Nat) : Int) = 4 := rfl
  refine C45_team_partial hT rcmCycle_wf rfl (patSym_of_check rcmCycle_wf (by decide +kernel)) (noDup_of_check rcmCycle_wf (by decide +kernel)) rcmCycle_comps
    (fun _ _ h => absurd h (by omega)) ?_ ?_ ?_ (fun _ _ => Nat.mod_lt _ hT) (fun _ _ => Nat.mod_lt _ hT) (fun _ _ => Nat.mod_lt _ hT) (fun _ _ => Nat.mod_lt _ hT)
    (by intro u hu; change u < 4 at hu; interval_cases u <;> decide) rcmSort0_perm rcmSort0_sorted
    ⟨fun i hi => (csrMem_pat 0 0 rcmCycle (fun _ => 0) (fun _ => 0)).rowptr i hi, fun j hj => (csrMem_pat 0 0 rcmCycle (fun _ => 0) (fun _ => 0)).colidx j hj⟩
    ⟨fun _ _ => rfl, fun _ _ => rfl, fun _ _ => rfl, fun _ _ _ _ => rfl⟩ (fun x _ => rfl) ?_ ?_ ?_ ?_ ?_ ?_ ?_ ?_ ?_ ?_ ?_
  · intro c s x d _ _ hs _ hd
    have hs4 : s < 4 := hs.lt rcmCycle_wf rfl (show 0 < 4 by omega)
    have hr : Reaches rcmCycle s x := ⟨_, hd.1⟩
    have hx : x < 4 := hr.lt rcmCycle_wf rfl hs4
    have h1 := hd.unique (cyc_dist_from s x hs4 hx)
    show d + 1 < 4
    unfold cycDistFrom at h1
    split_ifs at h1 <;> omega
  · intro e
    rw [hm, show rcmCycle.nnz = 8 by decide]
    have := hT4 e
    unfold intMax
    omega
  · intro e c s d l _ _ hs hl hd hmax
    have := hT4 e
    have hs4 : s < 4 := hs.lt rcmCycle_wf rfl (show 0 < 4 by omega)
    have h1 := cyc_last hs4 hl hd hmax
    show T * l.length ≤ 4
    exact Nat.le_trans (Nat.mul_le_mul_left T h1) (by omega)
  all_goals (try rw [hm]); (try rw [show ((max 3 2 : Nat) : Int) = 3 from rfl]); (try omega)

/-- The path 1 - 2 - 3 - 0 in memory; the fresh array of levels happens to hold -1. -/
def rcmLostMem : Mem (CTy Int)
  | .itmp 16, _ => some (-1 : Int)
  | a, i => csrMem 0 0 ccPath (fun _ => 0) (fun _ => 0) a i

set_option maxRecDepth 100000 in
/-- With four threads a lost union in the search for components makes getRCMPermutation go wrong on a connected path of four rows: the
search from row 0 leaves the component it was told, and writes out of bounds. -/
theorem C45_lost_union_false :
    ¬ (∀ (sz : CArr → Int) (A : Csr Int) (m0 : Mem (CTy Int)), A.WF → A.n = A.m → PatSym A → NoDup A → 0 < A.m → A.m + 4 ≤ 16 → HoldsPat m0 0 0 A →
      (rcmPermutation (R := Int) sz 4 0 1 A.m 16 true rcmSort0 (rcmAsg 4)).Ok m0 (fun _ _ => True)) := by
  intro h
  have hp : HoldsPat rcmLostMem 0 0 ccPath :=
    ⟨fun i hi => (csrMem_pat 0 0 ccPath (fun _ => 0) (fun _ => 0)).rowptr i hi, fun i hi => (csrMem_pat 0 0 ccPath (fun _ => 0) (fun _ => 0)).colidx i hi⟩
  have h1 := (h (fun _ => 9) ccPath rcmLostMem ccPath_wf rfl (patSym_of_check ccPath_wf (by decide +kernel)) (noDup_of_check ccPath_wf (by decide +kernel))
    (show 0 < 4 by omega) (show 4 + 4 ≤ 16 by omega) hp).not_schedUB
    [[], [], [], [], List.replicate 19 2 ++ List.replicate 16 1 ++ List.replicate 20 0 ++ List.replicate 20 2]
  have h2 : (rcmPermutation (R := Int) (fun _ => 9) 4 0 1 4 16 true rcmSort0 (rcmAsg 4)).schedUB
    [[], [], [], [], List.replicate 19 2 ++ List.replicate 16 1 ++ List.replicate 20 0 ++ List.replicate 20 2] rcmLostMem = true := by decide +kernel
  rw [show ccPath.m = 4 from rfl, h2] at h1
  cases h1

/-- Two paths 0 - 1 - 2 and 3 - 4 - 5. -/
def rcmPaths : Csr Int := Csr.ofRows 6 6 (fun i => match i with
  | 0 => [(1, 1)] | 1 => [(0, 1), (2, 1)] | 2 => [(1, 1)] | 3 => [(4, 1)] | 4 => [(3, 1), (5, 1)] | 5 => [(4, 1)] | _ => []) 0

theorem rcmPaths_wf : rcmPaths.WF := by
  refine Csr.ofRows_wf ?_
  intro i p hi hp
  interval_cases i <;> simp at hp <;> rcases hp with rfl | rfl <;> decide

set_option maxRecDepth 100000 in
/-- The slice of the array of prefix sums of the last thread is too short: with two threads and a component that is a path of PAR_THR - 1
rows, given to thread 1, the prefix sums (one more than the levels, and the search counts one level too many) end one element after the
array. Shown with PAR_THR = 4, even when the threads run one after the other. -/
theorem C45_prefix_false :
    ¬ (∀ (sz : CArr → Int) (A : Csr Int) (m0 : Mem (CTy Int)), A.WF → A.n = A.m → PatSym A → NoDup A → 0 < A.m →
      (∀ (s : Nat) (l : List Nat), s < A.m → l.Nodup → (∀ x ∈ l, Reaches A s x) → l.length < 4) → HoldsPat m0 0 0 A →
      (rcmPermutation (R := Int) sz 2 0 1 A.m 4 true rcmSort0 (rcmAsg 2)).Ok m0 (fun _ _ => True)) := by
  intro h
  have hcls : ∀ (s : Nat) (l : List Nat), s < rcmPaths.m → l.Nodup → (∀ x ∈ l, Reaches rcmPaths s x) → l.length < 4 := by
    intro s l hs hn hl
    have hsub : ∀ x ∈ l, x < 6 ∧ x / 3 = s / 3 := by
      intro x hx
      exact ⟨(hl x hx).lt rcmPaths_wf rfl hs, reaches_const (f := fun x => x / 3) rcmPaths_wf (by decide +kernel) (hl x hx)⟩
    have : l ⊆ [3 * (s / 3), 3 * (s / 3) + 1, 3 * (s / 3) + 2] := by
      intro x hx
      have := hsub x hx
      simp only [List.mem_cons, List.not_mem_nil, or_false]
      omega
    have := (List.subperm_of_subset hn this).length_le
    simp at this
    omega
  have h1 := (h (fun _ => 19) rcmPaths (csrMem 0 0 rcmPaths (fun _ => 0) (fun _ => 0)) rcmPaths_wf rfl
    (patSym_of_check rcmPaths_wf (by decide +kernel)) (noDup_of_check rcmPaths_wf (by decide +kernel)) (show 0 < 6 by omega) hcls
    (csrMem_pat 0 0 rcmPaths _ _)).not_runUB
  have h2 : (rcmPermutation (R := Int) (fun _ => 19) 2 0 1 6 4 true rcmSort0 (rcmAsg 2)).runUB (csrMem 0 0 rcmPaths (fun _ => 0) (fun _ => 0)) = true := by
    decide +kernel
  rw [show rcmPaths.m = 6 from rfl, h2] at h1
  cases h1

set_option maxRecDepth 100000 in
/-- An entry stored twice: a row that holds its diagonal entry twice is taken for a component of two rows and written before the array. -/
theorem C45_duplicate_entry_false :
    ¬ (∀ (sz : CArr → Int) (A : Csr Int) (m0 : Mem (CTy Int)), A.WF → A.n = A.m → PatSym A → 0 < A.m → HoldsPat m0 0 0 A →
      (rcmPermutation (R := Int) sz 1 0 1 A.m 65536 true rcmSort0 (rcmAsg 1)).Ok m0 (fun _ _ => True)) := by
  intro h
  let A : Csr Int := Csr.ofRows 1 1 (fun i => match i with | 0 => [(0, 1), (0, 1)] | _ => []) 0
  have hwf : A.WF := by
    refine Csr.ofRows_wf ?_
    intro i p hi hp
    interval_cases i
    simp at hp
    subst hp; decide
  have h1 := (h (fun _ => 9) A (csrMem 0 0 A (fun _ => 0) (fun _ => 0)) hwf rfl (patSym_of_check hwf (by decide +kernel)) (Nat.le_refl 1)
    (csrMem_pat 0 0 A _ _)).not_runUB
  have h3 : (rcmPermutation (R := Int) (fun _ => 9) 1 0 1 1 65536 true rcmSort0 (rcmAsg 1)).runUB (csrMem 0 0 A (fun _ => 0) (fun _ => 0)) = true := by
    decide +kernel
  rw [show A.m = 1 from rfl, h3] at h1
  cases h1

/-- The path 0 - 1 - 2. -/
def rcmPath3 : Csr Int := Csr.ofRows 3 3 (fun i => match i with | 0 => [(1, 1)] | 1 => [(0, 1), (2, 1)] | 2 => [(1, 1)] | _ => []) 0

theorem rcmPath3_wf : rcmPath3.WF := by
  refine Csr.ofRows_wf ?_
  intro i p hi hp
  interval_cases i <;> simp at hp <;> rcases hp with rfl | rfl <;> decide

set_option maxRecDepth 100000 in
/-- A matrix that is one path of PAR_THR rows or more, searched from its end: the search counts one level too many (rows + 1 in all), and
the prefix sums, rows + 2 of them, end one element after the array of rows + 1 elements. Shown with one thread and PAR_THR = 3. -/
theorem C45_path_false :
    ¬ (∀ (sz : CArr → Int) (A : Csr Int) (m0 : Mem (CTy Int)), A.WF → A.n = A.m → PatSym A → NoDup A → 0 < A.m → HoldsPat m0 0 0 A →
      (rcmPermutation (R := Int) sz 1 0 1 A.m 3 false rcmSort0 (rcmAsg 1)).Ok m0 (fun _ _ => True)) := by
  intro h
  have h1 := (h (fun _ => 9) rcmPath3 (csrMem 0 0 rcmPath3 (fun _ => 0) (fun _ => 0)) rcmPath3_wf rfl
    (patSym_of_check rcmPath3_wf (by decide +kernel)) (noDup_of_check rcmPath3_wf (by decide +kernel)) (show 0 < 3 by omega)
    (csrMem_pat 0 0 rcmPath3 _ _)).not_runUB
  have h2 : (rcmPermutation (R := Int) (fun _ => 9) 1 0 1 3 3 false rcmSort0 (rcmAsg 1)).runUB (csrMem 0 0 rcmPath3 (fun _ => 0) (fun _ => 0)) = true := by
    decide +kernel
  rw [show rcmPath3.m = 3 from rfl, h2] at h1
  cases h1

end SpMP.Props
