import Verif.BuildMem
import Verif.PartMemMain
import Verif.Props.TaskGraphMem
import Verif.Props.Linear
import Verif.BinFile
/-
C30 in memory (the partition of the levels into tasks as it is computed in the arrays of constructTaskGraph_), and C63: the construction of
a schedule from a matrix in memory as a whole (BuildMem.lean).
-/

namespace SpMP.Props
open SpMP SpMP.Spec

variable {R : Type}

/-! ### C30 in memory -/

/-- C30, in memory, for costs that are positive (see C30_zero_cost_false): for every list of levels whose boundaries and rows are in memory, every team size,
every policy on races and every interleaving, the partition finishes without an access outside an array, a read of an element nobody wrote
or a failing assertion; taskBoundaries (itmp 30), threadBoundaries (31), threadContToOrigPerm (32) and origToThreadContPerm (54) hold a
partition `P` that splits the levels into tasks, and no array of the matrix is changed. -/
theorem C30_in_memory_partial [Races CArr] {sz : CArr → Int} {cf : Option (Int → Int)} {useBarrier agg : Bool} {T n : Nat} {cost : Nat → Nat}
    {L : List (List Nat)} {m0 : Mem (CTy R)} {lev : List Int} (hlev : lev = (List.range (L.length + 1)).map (fun k => ((L.take k).flatten.length : Int)))
    (hT : 1 ≤ T) (hcp : ∀ i, i < n → 0 < cost i) (hc : CostIs cf n cost m0) (hL : L.flatten.Perm (List.range n))
    (hrev : ∀ x s : Nat, L.flatten[x]? = some s → m0 (.itmp 21) (x : Int) = some (s : Int)) :
    (taskPart sz cf useBarrier agg T n lev).Ok m0 (fun nt m => ∃ (S : Schedule) (inv lvl : Nat → Nat),
      SplitsLevels S L inv lvl ∧ S.T = T ∧ S.m = n ∧ nt = (S.ntasks : Int) ∧
      (∀ k : Nat, k ≤ S.ntasks → m (.itmp 30) (k : Int) = some (S.taskB k : Int)) ∧
      (∀ t : Nat, t ≤ S.T → m (.itmp 31) (t : Int) = some (S.threadB t : Int)) ∧
      (∀ p : Nat, p < S.m → m (.itmp 32) (p : Int) = some (S.perm p : Int)) ∧
      (∀ x : Nat, x < S.m → m (.itmp 54) (x : Int) = some (inv x : Int)) ∧
      (useBarrier = false → ∀ k, k < S.ntasks → S.taskB k < S.taskB (k + 1)) ∧
      (useBarrier = true → (∀ t, t ≤ T → S.threadB t = t * L.length) ∧ ∀ k, k < S.ntasks → lvl k = k % L.length) ∧
      ∀ a i, (∀ j, a ≠ .itmp j) → m a i = m0 a i) := by
  let a0 : TaskArrays := ⟨fun _ => 0, fun _ => 0, fun _ => 0⟩
  obtain ⟨P, h1, h2⟩ := taskPart_ok (sz := sz) (useBarrier := useBarrier) (agg := agg) hlev hT hcp hc hL hrev a0
  obtain ⟨P', lvl, g1, g2, g3, g4, g5, g6, g7⟩ := taskPartition_ok (useBarrier := useBarrier) (agg := agg) a0 hT hL hcp
  rw [h1] at g1
  obtain rfl := Option.some.inj g1
  refine h2.mono ?_
  rintro nt m ⟨e, hP, hfr⟩
  refine ⟨P.sched, P.o2t, lvl, g4, g2, g3, e, hP.task, hP.thread, hP.perm, hP.inv, g6, g7, ?_⟩
  intro a i ha
  refine hfr a i ?_
  rintro (h | h | h | h | ⟨j, _, _, h⟩) <;> exact ha _ h

/-! ### The assertions on the pattern -/

section
variable {A : Csr R} {dp ep : Nat → Nat} {base T : Nat} {hasExt : Bool} {m : Mem (CTy R)} {sz : CArr → Int}

theorem wp_lvCheck (hA : Schedulable A dp ep) (hwf : A.WF) (hm : LvMem m base A dp ep hasExt) {W : CArr → Int → Prop} :
    wp sz W (fun _ _ => True) (lvCheck hasExt base A.m) m (fun _ m' => m' = m) := by
  unfold lvCheck
  refine wp_forUp (I := fun i _ mm => m = mm ∧ 0 ≤ i ∧ i ≤ (A.m : Int)) ⟨rfl, by omega, by omega⟩ ?_ ?_
  · rintro i _ mm h1 h2 ⟨rfl, h3, h4⟩
    obtain ⟨r, rfl⟩ := Int.eq_ofNat_of_zero_le h3
    have hr : r < A.m := by omega
    obtain ⟨b1, b2, b3⟩ := hA.split.bounds r hr
    have hnnz : A.ptr (r + 1) ≤ A.nnz := hwf.ptr_le_nnz (by omega)
    unfold lvCheckRow
    refine wp_rd _ trivial (hm.pat.rowptr r (by omega)) (wp_rd _ trivial (hm.diag r hr).2.2 ?_)
    rw [wp_bind]
    refine wp_extOf hm.pat hm.ext (fun _ _ _ => trivial) hr ?_
    rw [wp_bind]
    refine wp_forUp (I := fun j _ mm => m = mm ∧ (A.ptr r : Int) ≤ j) ⟨rfl, by omega⟩ ?_ ?_
    · rintro j _ mm g1 g2 ⟨rfl, g3⟩
      obtain ⟨p, rfl⟩ := Int.eq_ofNat_of_zero_le (show 0 ≤ j by omega)
      refine wp_rd _ trivial (hm.pat.colidx p (by omega)) ?_
      rw [wp_assert]
      have := hA.split.lower r p hr (by omega) (by omega)
      refine ⟨?_, rfl, by omega⟩
      show (A.col p : Int) + base - base < r
      omega
    rintro _ mm ⟨rfl, _⟩
    rw [wp_bind]
    refine wp_forUp (I := fun j _ mm => m = mm ∧ (dp r : Int) ≤ j) ⟨rfl, by omega⟩ ?_ ?_
    · rintro j _ mm g1 g2 ⟨rfl, g3⟩
      obtain ⟨p, rfl⟩ := Int.eq_ofNat_of_zero_le (show 0 ≤ j by omega)
      refine wp_rd _ trivial (hm.pat.colidx p (by omega)) ?_
      rw [wp_assert]
      refine ⟨?_, rfl, by omega⟩
      show (A.col p : Int) + base - base ≥ r
      by_cases hp : p = dp r
      · have := hA.split.diag r hr
        rw [hp]; omega
      · have := hA.split.upper r p hr (by omega) (by omega)
        omega
    rintro _ mm ⟨rfl, _⟩
    refine wp_forUp (I := fun j _ mm => m = mm ∧ (ep r : Int) ≤ j) ⟨rfl, by omega⟩ ?_ ?_
    · rintro j _ mm g1 g2 ⟨rfl, g3⟩
      have hep : (A.ptr r : Int) < ep r := by omega
      omega
    · rintro _ mm ⟨rfl, _⟩
      exact ⟨rfl, by omega, by omega⟩
  · rintro _ mm ⟨rfl, _⟩; rfl

/-- The first entry of a row in a column that the row stores. -/
theorem first_entry {lo hi c : Nat} (h : ∃ p, lo ≤ p ∧ p < hi ∧ A.col p = c) :
    ∃ l, lo ≤ l ∧ l < hi ∧ A.col l = c ∧ ∀ l', lo ≤ l' → l' < l → A.col l' ≠ c := by
  obtain ⟨p, h1, h2, h3⟩ := h
  induction p using Nat.strong_induction_on with
  | _ p ih =>
    by_cases hq : ∃ q, lo ≤ q ∧ q < p ∧ A.col q = c
    · obtain ⟨q, g1, g2, g3⟩ := hq
      exact ih q g2 g1 (by omega) g3
    · exact ⟨p, h1, h2, h3, fun l' g1 g2 g3 => hq ⟨l', g1, g2, g3⟩⟩

theorem pairOk_of_sym (hA : Schedulable A dp ep) (hee : ∀ i, i < A.m → ep i ≤ A.ptr (i + 1)) {i j : Nat} (hi : i < A.m) (h1 : A.ptr i ≤ j) (h2 : j < ep i) :
    PairOk A ep base false i j := by
  intro _ hc
  have hc' : A.col j < A.m := by omega
  obtain ⟨p, hp, hpc⟩ := hA.sym i (A.col j) hi hc' ⟨j, ⟨hi, h1, Nat.lt_of_lt_of_le h2 (hee i hi)⟩, rfl⟩
  have hpe : p < ep (A.col j) := by
    by_contra hge
    have := hA.split.ext (A.col j) p hc' (by omega) hp.2.2
    omega
  obtain ⟨l, g1, g2, g3, g4⟩ := first_entry (A := A) ⟨p, hp.2.1, hpe, hpc⟩
  exact ⟨l, g1, g2, g3, g4, by simp⟩

/-! ### C63 -/

/-- The arrays of a LevelSchedule hold the schedule `S`: taskBoundaries (itmp 30), threadBoundaries (31), threadContToOrigPerm (32), its
inverse origToThreadContPerm (54), and the parents of the tasks (40-45). -/
structure ScheduleIn (S : Schedule) (m : Mem (CTy R)) : Prop where
  task : ∀ k : Nat, k ≤ S.ntasks → m (.itmp 30) (k : Int) = some (S.taskB k : Int)
  thread : ∀ t : Nat, t ≤ S.T → m (.itmp 31) (t : Int) = some (S.threadB t : Int)
  perm : ∀ p : Nat, p < S.m → m (.itmp 32) (p : Int) = some (S.perm p : Int)
  inv : ∀ p : Nat, p < S.m → m (.itmp 54) (S.perm p : Int) = some (p : Int)
  parents : HasParents S m

/-- The costs of the rows (LevelSchedule.hpp:131-145, LevelSchedule.cpp:627): the given function, or the numbers of entries. -/
def rowCost (A : Csr R) : Option (Int → Int) → Nat → Nat
  | none, i => A.ptr (i + 1) - A.ptr i
  | some f, i => (f i).toNat

/-- What a construction leaves: the levels of the matrix (their ends in the first result) and a schedule built from them for `T` threads, all in
memory. `GoodSchedule`: the tasks tile the rows, and program order and parents guarantee the order of every dependency in forward and
backward runs; `Barriered`: so does the sequence of barriers. -/
def Constructed (A : Csr R) (dp ep : Nat → Nat) (useBarrier agg : Bool) (cf : Option (Int → Int)) (T : Nat) (res : List Int × Int) (m : Mem (CTy R)) : Prop :=
  ∃ (L : List (List Nat)) (S : Schedule), LevelDecomp (Dep A) A.m L ∧
    res.1 = (List.range (L.length + 1)).map (fun k => ((L.take k).flatten.length : Int)) ∧
    BuiltWith S A dp ep useBarrier L agg T (rowCost A cf) ∧ (∃ lvl, GoodSchedule S A lvl) ∧ (useBarrier = true → S.Barriered L.length A.Nbr) ∧
    S.T = T ∧ S.m = A.m ∧ res.2 = (S.ntasks : Int) ∧ ScheduleIn S m

theorem Constructed.of_built {A : Csr R} {dp ep : Nat → Nat} (hA : Schedulable A dp ep) {useBarrier agg : Bool} {cf : Option (Int → Int)} {T : Nat} {res : List Int × Int} {m : Mem (CTy R)}
    (hT : 1 ≤ T) (hc : ∀ i, i < A.m → 0 < rowCost A cf i) {L : List (List Nat)} {S : Schedule} (h1 : LevelDecomp (Dep A) A.m L)
    (h2 : res.1 = (List.range (L.length + 1)).map (fun k => ((L.take k).flatten.length : Int))) (h3 : BuiltWith S A dp ep useBarrier L agg T (rowCost A cf)) (h4 : S.T = T)
    (h5 : res.2 = (S.ntasks : Int)) (h6 : ScheduleIn S m) : Constructed A dp ep useBarrier agg cf T res m := by
  obtain ⟨lvl, g1, g2, g3, _⟩ := (built_iff.2 ⟨agg, T, _, hT, hc, h3⟩).good hA
  exact ⟨L, S, h1, h2, h3, ⟨lvl, g1⟩, g2, h4, g3, h5, h6⟩

theorem costIs_default (hs : SplitRows A dp ep) (hp : HoldsPat m 0 base A) : CostIs none A.m (fun i => A.ptr (i + 1) - A.ptr i) m := by
  refine ⟨fun i => (A.ptr i : Int) + base, fun i hi => hp.rowptr i hi, ?_⟩
  intro i hi
  obtain ⟨h1, h2, h3⟩ := hs.bounds i hi
  show ((A.ptr (i + 1) : Int) + base) - ((A.ptr i : Int) + base) = ((A.ptr (i + 1) - A.ptr i : Nat) : Int)
  omega

variable [DecidableEq R] {cb : Nat → Nat}

theorem buildSchedule_ok (hA : Schedulable A dp ep) (hwf : A.WF) (hnd : NoDup A) (hT : 1 ≤ T)
    {cf : Option (Int → Int)} (hcf : ∀ f, cf = some f → ∀ i : Nat, i < A.m → 0 < f i) {useBarrier agg tr : Bool} (hbt : useBarrier = true → tr = false)
    (hm : LvMem m base A dp ep hasExt)
    (cb0 : cb 0 = 0) (cbT : cb T = A.m) (cbm : ∀ t, t < T → cb t ≤ cb (t + 1)) (cbc : ∀ t, t < T → cb (t + 1) - cb t ≤ (A.m + T - 1) / T)
    (hcap : A.m < max T (A.m + T - 1) / T * 2 + 64) :
    (buildSchedule sz hasExt cf useBarrier agg tr base T A.m cb).Ok m (fun res m' => Constructed A dp ep useBarrier agg cf T res m' ∧
      ∀ a i, (∀ j, a ≠ .itmp j) → m' a i = m a i) := by
  unfold buildSchedule
  rw [Script.ok_bind]
  refine Script.Ok.mono (Q := fun b m' => b = true ∧ m' = m) ?_ ?_
  · unfold isSymmetric
    rw [if_neg (by simp)]
    have hptr0 := hm.pat.rowptr 0 (by omega)
    rw [hwf.ptr_zero] at hptr0
    refine seq_rule ?_
    rw [wp_read]
    refine ⟨trivial, ((0 : Nat) : Int) + base, hptr0, ?_⟩
    have e : ((0 : Nat) : Int) + (base : Int) = base := by omega
    rw [e]
    simp only [if_true]
    refine seq_rule (wp_mono (wp_symSeq hwf hm.pat (by simp) hm.ext (fun _ _ _ => trivial)) ?_)
    rintro b m' ⟨rfl, hb⟩
    refine Script.ok_done_of ⟨hb.2 ?_, rfl⟩
    intro i hi j h1 h2
    exact pairOk_of_sym hA (fun i hi => (hm.ext.2.2 i hi).2) hi h1 h2
  rintro b m' ⟨rfl, rfl⟩
  refine seq_rule ?_
  rw [wp_assert]
  refine ⟨rfl, seq_rule (wp_mono (wp_lvCheck hA hwf hm) ?_)⟩
  rintro _ m' rfl
  rw [Script.ok_bind]
  refine (C29_findLevels_partial hT hwf hA.split hnd hA.sym hm.pat hm.diag hm.ext cb0 cbT cbm cbc ?_ ?_ hcap).mono ?_
  · show _ ≤ 5 * ((max T (A.m + T - 1) : Nat) : Int) + 2048 * 22
    omega
  · show _ ≤ ((A.m : Int) + 15) / 16 * 16 + 128
    omega
  rintro lev m1 ⟨L, hL, hlev, hrev, hfr1⟩
  have hm1 : LvMem m1 base A dp ep hasExt := hm.congr fun a i ha => by
    rw [hfr1] <;> (rintro rfl; simp [MatCell] at ha)
  obtain ⟨hcp, hc⟩ : (∀ i, i < A.m → 0 < rowCost A cf i) ∧ CostIs cf A.m (rowCost A cf) m1 := by
    cases cf with
    | none =>
      refine ⟨?_, costIs_default hA.split hm1.pat⟩
      intro i hi
      have := hA.split.bounds i hi
      show 0 < A.ptr (i + 1) - A.ptr i
      omega
    | some f =>
      refine ⟨fun i hi => ?_, fun i hi => ?_⟩
      · have := hcf f rfl i hi
        show 0 < (f i).toNat
        omega
      · have := hcf f rfl i hi
        show f i = ((f i).toNat : Int)
        omega
  let a0 : TaskArrays := ⟨fun _ => 0, fun _ => 0, fun _ => 0⟩
  obtain ⟨P, hP, hok⟩ := taskPart_ok (sz := sz) (useBarrier := useBarrier) (agg := agg) hlev hT hcp hc hL.rows hrev a0
  rw [Script.ok_bind]
  refine hok.mono ?_
  rintro nt m2 ⟨rfl, hPin, hfr2⟩
  have hm2 : LvMem m2 base A dp ep hasExt := hm1.congr fun a i ha => by
    refine hfr2 a i ?_
    rintro (h | h | h | h | ⟨j, _, _, h⟩) <;> (subst h; simp [MatCell] at ha)
  obtain ⟨P', lvl, g1, g2, g3, g4, g5, g6, g7⟩ := taskPartition_ok (useBarrier := useBarrier) (agg := agg) a0 hT hL.rows hcp
  rw [hP] at g1
  obtain rfl := Option.some.inj g1
  have H : TgHyp P.sched A dp ep tr := ⟨g4.tiling, g3, hA.split, hA.inner, hA.sym, hnd, hwf, by omega, by
    intro ht
    refine g6 ?_
    cases hub : useBarrier with
    | false => rfl
    | true => rw [hbt hub] at ht; simp at ht⟩
  have hok3 := taskGraph_ok (sz := partSize sz T A.m (lev.length - 1) (P.sched.ntasks : Int)) H ⟨hm2, hPin.task, hPin.thread, hPin.perm⟩
  rw [g2, g3] at hok3
  rw [Script.ok_bind, Int.toNat_natCast]
  refine hok3.mono ?_
  rintro _ m3 ⟨hr, hk⟩
  refine Script.ok_done_of ?_
  have hkeep : ∀ a i, (∀ j, 33 ≤ j → j ≤ 49 → a ≠ .itmp j) → m3 a i = m2 a i := hk
  have hinv : ∀ p : Nat, p < P.sched.m → m3 (.itmp 54) (P.sched.perm p : Int) = some (p : Int) := by
    intro p hp
    rw [hkeep _ _ (by simp; omega), hPin.inv _ (g4.tiling.perm.1 p hp), g4.inv_left p hp]
  refine ⟨?_, ?_⟩
  · cases tr with
    | true =>
      obtain ⟨ev, pev, e1, e2, e3⟩ := hr
      have hub : useBarrier = false := by
        cases hu : useBarrier with
        | false => rfl
        | true => have := hbt hu; simp at this
      refine Constructed.of_built (S := graphReduced P.sched A dp ep ev pev) hA hT hcp hL hlev ⟨hL, a0, P, hP, Or.inr ⟨ev, pev, hub, e1, e2, rfl⟩⟩ g2 rfl
        ⟨?_, ?_, ?_, hinv, HasParents.of e3⟩
      · intro k hk; rw [hkeep _ _ (by simp; omega)]; exact hPin.task k hk
      · intro k hk; rw [hkeep _ _ (by simp; omega)]; exact hPin.thread k hk
      · intro k hk; rw [hkeep _ _ (by simp; omega)]; exact hPin.perm k hk
    | false =>
      obtain ⟨ev, e1, e3⟩ := hr
      refine Constructed.of_built (S := graphPlain P.sched A dp ep ev) hA hT hcp hL hlev ⟨hL, a0, P, hP, Or.inl ⟨ev, e1, rfl⟩⟩ g2 rfl
        ⟨?_, ?_, ?_, hinv, HasParents.of e3⟩
      · intro k hk; rw [hkeep _ _ (by simp; omega)]; exact hPin.task k hk
      · intro k hk; rw [hkeep _ _ (by simp; omega)]; exact hPin.thread k hk
      · intro k hk; rw [hkeep _ _ (by simp; omega)]; exact hPin.perm k hk
  · intro a i ha
    rw [hkeep a i (fun j _ _ => ha j), hfr2 a i, hfr1 a (ha _) (ha _)]
    rintro (h | h | h | h | ⟨j, _, _, h⟩) <;> exact ha _ h

theorem constructTaskGraph_ok (hA : Schedulable A dp ep) (hwf : A.WF) (hnd : NoDup A) (hT : 1 ≤ T) (hb : base ≤ 1)
    {cf : Option (Int → Int)} (hcf : ∀ f, cf = some f → ∀ i : Nat, i < A.m → 0 < f i) {useBarrier agg tr : Bool} (hbt : useBarrier = true → tr = false)
    (hm : LvMem m base A dp ep hasExt)
    (cb0 : cb 0 = 0) (cbT : cb T = A.m) (cbm : ∀ t, t < T → cb t ≤ cb (t + 1)) (cbc : ∀ t, t < T → cb (t + 1) - cb t ≤ (A.m + T - 1) / T)
    (hcap : A.m < max T (A.m + T - 1) / T * 2 + 64) :
    (constructTaskGraph sz hasExt cf useBarrier agg tr T A.m cb).Ok m (fun res m' => Constructed A dp ep useBarrier agg cf T res m' ∧
      ∀ a i, (∀ j, a ≠ .itmp j) → m' a i = m a i) := by
  have hptr0 := hm.pat.rowptr 0 (by omega)
  rw [hwf.ptr_zero] at hptr0
  unfold constructTaskGraph
  refine seq_rule ?_
  rw [wp_read]
  refine ⟨trivial, ((0 : Nat) : Int) + base, hptr0, ?_⟩
  rcases (by omega : base = 0 ∨ base = 1) with rfl | rfl
  · rw [if_pos (by rfl)]
    exact buildSchedule_ok hA hwf hnd hT hcf hbt hm cb0 cbT cbm cbc hcap
  · rw [if_neg (show ¬ ((0 : Nat) : Int) + ((1 : Nat) : Int) = 0 by decide)]
    refine seq_rule ?_
    rw [wp_assert]
    exact ⟨show ((0 : Nat) : Int) + ((1 : Nat) : Int) = 1 by decide, buildSchedule_ok hA hwf hnd hT hcf hbt hm cb0 cbT cbm cbc hcap⟩

omit [DecidableEq R] in
/-- A matrix with sorted rows, a full diagonal and a symmetric pattern meets the demands of constructTaskGraph, with the pointers to its
diagonal and with the ends `ep` of the local columns of the rows. -/
theorem schedulable_of_sorted (hd : DiagRows A) (hsym : SymPat A) (hdp : ∀ i, i < A.m → A.InRow i (dp i) ∧ A.col (dp i) = i)
    (hloc : ∀ i p, A.InRow i p → (p < ep i ↔ A.col p < A.m)) (hep : ∀ i, i < A.m → ep i ≤ A.ptr (i + 1)) : Schedulable A dp ep := by
  have hb : ∀ i, i < A.m → A.ptr i ≤ dp i ∧ dp i < ep i ∧ ep i ≤ A.ptr (i + 1) := by
    intro i hi
    obtain ⟨h1, h2⟩ := hdp i hi
    exact ⟨h1.2.1, (hloc i _ h1).2 (by omega), hep i hi⟩
  refine ⟨⟨hb, fun i hi => (hdp i hi).2, ?_, ?_, ?_⟩, ?_, hsym⟩
  · intro i p hi h1 h2
    have := (hd i hi).1 p (dp i) h1 h2 (hdp i hi).1.2.2
    rwa [(hdp i hi).2] at this
  · intro i p hi h1 h2
    have := (hd i hi).1 (dp i) p (hb i hi).1 h1 (by have := hep i hi; omega)
    rwa [(hdp i hi).2] at this
  · intro i p hi h1 h2
    have h3 : A.InRow i p := ⟨hi, by have := hb i hi; omega, h2⟩
    by_contra hlt
    have := (hloc i p h3).2 (by omega)
    omega
  · intro i p hi h1 h2
    exact (hloc i p ⟨hi, by have := hb i hi; omega, by have := hb i hi; omega⟩).1 h2

omit [DecidableEq R] in
theorem noDup_of_sorted (hd : DiagRows A) : NoDup A := by
  intro i p q hp hq hc
  rcases Nat.lt_trichotomy p q with h | h | h
  · have := (hd i hp.1).1 p q hp.2.1 h hq.2.2; omega
  · exact h
  · have := (hd i hp.1).1 q p hq.2.1 h hp.2.2; omega

/-- C63 for the overload that takes a CSR (reduction only without barriers; `hcap`: the discovery queues of the level search do not
overflow, which is so for fewer than 64 rows and for one or two threads). The matrix has sorted rows, a full diagonal and a symmetric pattern;
columns `m` and above, if any, are the ends of the rows, from extptr on; zero- or one-based arrays; the pointers to the diagonal are built or
there already. For every team size, every split of the rows among the threads and every interleaving: the construction finishes without an access outside an array, a
read of an element nobody wrote or a failing assertion, and leaves the levels and a good schedule in memory; the matrix is not changed
except that it has its diagonal pointers afterwards. -/
theorem C63_construct_partial (hwf : A.WF) (hd : DiagRows A) (hsym : SymPat A) (hloc : ∀ i p, A.InRow i p → (p < ep i ↔ A.col p < A.m)) (hT : 1 ≤ T) (hb : base ≤ 1)
    (hsq : A.m = A.n ∨ hasExt = true) {cf : Option (Int → Int)} (hcf : ∀ f, cf = some f → ∀ i : Nat, i < A.m → 0 < f i) {haveDiag useBarrier agg tr : Bool}
    (hbt : useBarrier = true → tr = false) (hp : HoldsPat m 0 base A) (he : HoldsExt m 0 base A hasExt ep)
    (hhave : haveDiag = true → ∃ dp, HoldsDiag m 0 base A dp) (hszd : (A.m : Int) ≤ sz (.diagptr 0)) (hszf : 1 ≤ sz (.itmp 0))
    (cb0 : cb 0 = 0) (cbT : cb T = A.m) (cbm : ∀ t, t < T → cb t ≤ cb (t + 1)) (cbc : ∀ t, t < T → cb (t + 1) - cb t ≤ (A.m + T - 1) / T)
    (hcap : A.m < max T (A.m + T - 1) / T * 2 + 64) :
    (constructTaskGraphCsr sz haveDiag hasExt cf useBarrier agg tr T A.m A.n cb).Ok m (fun res m' => ∃ dp, HoldsDiag m' 0 base A dp ∧
      Constructed A dp ep useBarrier agg cf T res m' ∧ ∀ a i, (∀ j, a ≠ .itmp j) → a ≠ .diagptr 0 → m' a i = m a i) := by
  unfold constructTaskGraphCsr
  rw [Script.ok_bind]
  have h1 : (constructDiagPtr (R := R) sz 0 A.m haveDiag).Ok m (fun _ m' => (∃ dp, HoldsDiag m' 0 base A dp) ∧ ∀ a, a ≠ .diagptr 0 → m' a = m a) := by
    cases haveDiag with
    | false => exact constructDiagPtr_ok hwf hp hd hszd
    | true =>
      show (Script.done ()).Ok m _
      exact Script.ok_done_of ⟨hhave rfl, fun _ _ => rfl⟩
  refine h1.mono ?_
  rintro _ m1 ⟨⟨dp, hdp⟩, hfr1⟩
  have hp1 : HoldsPat m1 0 base A := ⟨fun i hi => by rw [hfr1 _ (by simp)]; exact hp.rowptr i hi, fun i hi => by rw [hfr1 _ (by simp)]; exact hp.colidx i hi⟩
  have he1 : HoldsExt m1 0 base A hasExt ep := ⟨fun h i hi => by rw [hfr1 _ (by simp)]; exact he.1 h i hi, he.2⟩
  have hA : Schedulable A dp ep := schedulable_of_sorted hd hsym (fun i hi => ⟨(hdp i hi).1, (hdp i hi).2.1⟩) hloc (fun i hi => (he.2.2 i hi).2)
  rw [Script.ok_bind]
  refine (isSymmetric_ok (print := false) (chk := false) trivial hT hwf hp1 (by simp) he1 hszf).mono ?_
  rintro b m2 ⟨hbv, hfr2⟩
  have hbt' : b = true := hbv.2 ⟨hsq, fun i hi j g1 g2 => pairOk_of_sym hA (fun i hi => (he.2.2 i hi).2) hi g1 g2⟩
  refine seq_rule ?_
  rw [wp_assert]
  refine ⟨hbt', ?_⟩
  have hm2 : LvMem m2 base A dp ep hasExt := LvMem.congr ⟨hp1, hdp, he1⟩ fun a i ha => by
    rw [hfr2]; rintro rfl; simp [MatCell] at ha
  refine (constructTaskGraph_ok hA hwf (noDup_of_sorted hd) hT hb hcf hbt hm2 cb0 cbT cbm cbc hcap).mono ?_
  rintro res m3 ⟨h3, hfr3⟩
  refine ⟨dp, ?_, h3, ?_⟩
  · intro i hi
    refine ⟨(hdp i hi).1, (hdp i hi).2.1, ?_⟩
    rw [hfr3 _ _ (by simp), hfr2 _ (by simp)]
    exact (hdp i hi).2.2
  · intro a i ha hd'
    rw [hfr3 a i ha, hfr2 a (ha 0), hfr1 a hd']

/-- C63 for the overload that takes the arrays of a square matrix. -/
theorem C63_pointers_partial (hwf : A.WF) (hd : DiagRows A) (hsym : SymPat A) (hsq : A.m = A.n) (hT : 1 ≤ T) (hb : base ≤ 1)
    {cf : Option (Int → Int)} (hcf : ∀ f, cf = some f → ∀ i : Nat, i < A.m → 0 < f i) {useBarrier agg tr : Bool}
    (hbt : useBarrier = true → tr = false) (hp : HoldsPat m 0 base A) (hszd : (A.m : Int) ≤ sz (.diagptr 0))
    (cb0 : cb 0 = 0) (cbT : cb T = A.m) (cbm : ∀ t, t < T → cb t ≤ cb (t + 1)) (cbc : ∀ t, t < T → cb (t + 1) - cb t ≤ (A.m + T - 1) / T)
    (hcap : A.m < max T (A.m + T - 1) / T * 2 + 64) :
    (constructTaskGraphPtr sz cf useBarrier agg tr T A.m cb).Ok m (fun res m' => ∃ dp, HoldsDiag m' 0 base A dp ∧
      Constructed A dp (fun i => A.ptr (i + 1)) useBarrier agg cf T res m' ∧ ∀ a i, (∀ j, a ≠ .itmp j) → a ≠ .diagptr 0 → m' a i = m a i) := by
  unfold constructTaskGraphPtr
  rw [Script.ok_bind]
  refine (constructDiagPtr_ok hwf hp hd hszd).mono ?_
  rintro _ m1 ⟨⟨dp, hdp⟩, hfr1⟩
  have hp1 : HoldsPat m1 0 base A := ⟨fun i hi => by rw [hfr1 _ (by simp)]; exact hp.rowptr i hi, fun i hi => by rw [hfr1 _ (by simp)]; exact hp.colidx i hi⟩
  have he1 : HoldsExt m1 0 base A false (fun i => A.ptr (i + 1)) := ⟨by simp, fun _ _ _ => rfl, fun i hi => ⟨hwf.ptr_mono (by omega) (by omega), Nat.le_refl _⟩⟩
  have hA : Schedulable A dp (fun i => A.ptr (i + 1)) := schedulable_of_sorted hd hsym (fun i hi => ⟨(hdp i hi).1, (hdp i hi).2.1⟩)
    (fun i p hin => ⟨fun _ => by have := hwf.col_lt p (hin.lt_nnz hwf); omega, fun _ => hin.2.2⟩) (fun i hi => Nat.le_refl _)
  refine (constructTaskGraph_ok hA hwf (noDup_of_sorted hd) hT hb hcf hbt ⟨hp1, hdp, he1⟩ cb0 cbT cbm cbc hcap).mono ?_
  rintro res m3 ⟨h3, hfr3⟩
  refine ⟨dp, ?_, h3, ?_⟩
  · intro i hi
    refine ⟨(hdp i hi).1, (hdp i hi).2.1, ?_⟩
    rw [hfr3 _ _ (by simp)]
    exact (hdp i hi).2.2
  · intro a i ha hd'
    rw [hfr3 a i ha, hfr1 a hd']

end

theorem vee_diagRows : DiagRows vee := by
  intro i hi
  refine ⟨vee_sorted i hi, veeDp i, ?_, vee_schedulable.split.diag i hi⟩
  obtain ⟨h1, h2, h3⟩ := vee_schedulable.split.bounds i hi
  exact ⟨hi, h1, by omega⟩

/-- The hypotheses of C63 are met: `vee`, one-based, two threads, default costs, with transitive reduction. -/
example : (constructTaskGraphCsr (R := Int) (fun _ => 100) false false none false true true 2 3 3 (fun t => min (2 * t) 3)).Ok
    (csrMem 0 1 vee (fun _ => 0) (fun _ => 0)) (fun res m' => ∃ dp, HoldsDiag m' 0 1 vee dp ∧ Constructed vee dp veeEp false true none 2 res m' ∧
      ∀ a i, (∀ j, a ≠ .itmp j) → a ≠ .diagptr 0 → m' a i = csrMem 0 1 vee (fun _ => 0) (fun _ => 0) a i) := by
  refine C63_construct_partial (A := vee) vee_wf vee_diagRows vee_schedulable.sym ?_ (by decide) (by decide) (Or.inl rfl) (by simp) (by simp) (csrMem_pat _ _ _ _ _)
    ⟨by simp, fun _ _ _ => rfl, fun i hi => ?_⟩ (by simp) (by decide) (by decide) rfl rfl ?_ ?_ (by decide)
  · intro i p hin
    exact ⟨fun _ => vee_wf.col_lt p (hin.lt_nnz vee_wf), fun _ => hin.2.2⟩
  · obtain ⟨h1, h2, h3⟩ := vee_schedulable.split.bounds i hi
    exact ⟨by omega, h3⟩
  · intro t ht
    show min (2 * t) 3 ≤ min (2 * (t + 1)) 3
    omega
  · have : ∀ t < 2, min (2 * (t + 1)) 3 - min (2 * t) 3 ≤ (3 + 2 - 1) / 2 := by decide
    exact this

end SpMP.Props
