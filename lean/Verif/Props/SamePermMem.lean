import Verif.Props.SamePerm
import Verif.Props.BuildSchedule
/-
C71 for the constructions run in memory: the arrays with the permutation, and the level boundaries, do not depend on the options for
the synchronisation, the base, the splits of the rows in the level search or the interleaving.
-/
namespace SpMP.Props
open SpMP SpMP.Spec

variable {R : Type}

/-- What every construction for `A` with the given costs, aggregation option and team leaves: the ends `lev` of the levels, and `perm` and its inverse in
the arrays threadContToOrigPerm (`itmp 32`) and origToThreadContPerm (`itmp 54`). -/
def SameArrays (A : Csr R) (lev : List Int) (perm inv : Nat → Nat) (res : List Int × Int) (m : Mem (CTy R)) : Prop :=
  res.1 = lev ∧ (∀ p : Nat, p < A.m → m (.itmp 32) (p : Int) = some (perm p : Int)) ∧
    ∀ i : Nat, i < A.m → m (.itmp 54) (i : Int) = some (inv i : Int)

theorem levels_ends {dep : Nat → Nat → Prop} {m : Nat} {L L' : List (List Nat)} (h : LevelDecomp dep m L) (h' : LevelDecomp dep m L') :
    (List.range (L.length + 1)).map (fun k => ((L.take k).flatten.length : Int)) =
      (List.range (L'.length + 1)).map (fun k => ((L'.take k).flatten.length : Int)) := by
  obtain ⟨hl, hp⟩ := levels_perm h h'
  rw [hl]
  refine List.map_congr_left fun k hk => ?_
  have hk : k ≤ L'.length := by have := List.mem_range.1 hk; omega
  have : ∀ k, k ≤ L'.length → (L.take k).flatten.length = (L'.take k).flatten.length := by
    intro k
    induction k with
    | zero => intro _; simp
    | succ k ih =>
      intro hk
      have hlen := (hp k).length_eq
      rw [List.getD_eq_getElem _ _ (by omega), List.getD_eq_getElem _ _ (by omega)] at hlen
      rw [List.take_succ_eq_append_getElem (by omega), List.take_succ_eq_append_getElem (by omega)]
      simp only [List.flatten_append, List.flatten_cons, List.flatten_nil, List.append_nil, List.length_append]
      rw [ih (by omega), hlen]
  rw [this k hk]

theorem constructed_same {A : Csr R} {ep : Nat → Nat} (agg : Bool) (cf : Option (Int → Int)) {T : Nat} (hT : 1 ≤ T) (hc : ∀ i, i < A.m → 0 < rowCost A cf i) :
    ∃ (lev : List Int) (perm inv : Nat → Nat), ∀ (dp : Nat → Nat) (useBarrier : Bool) (res : List Int × Int) (m : Mem (CTy R)),
      Constructed A dp ep useBarrier agg cf T res m → SameArrays A lev perm inv res m := by
  by_cases hL0 : ∃ L0, LevelDecomp (Dep A) A.m L0
  · obtain ⟨L0, hL0⟩ := hL0
    let a0 : TaskArrays := ⟨fun _ => 0, fun _ => 0, fun _ => 0⟩
    obtain ⟨P0, _, hP0, _, g3, g4, _⟩ := taskPartition_ok (useBarrier := false) (agg := agg) (cost := rowCost A cf) a0 hT hL0.rows hc
    refine ⟨(List.range (L0.length + 1)).map (fun k => ((L0.take k).flatten.length : Int)), P0.sched.perm, P0.o2t, ?_⟩
    rintro dp ub res m ⟨L, S, hL, hres, hb, ⟨lvl, hg⟩, _, _, hSm, _, hin⟩
    obtain ⟨a1, P, hP, _, _, _, _, _, e6⟩ := hb.arrays
    obtain ⟨k1, _⟩ := partition_same hT hL hL0 hc hP hP0
    have hperm : ∀ p, p < A.m → S.perm p = P0.sched.perm p := fun p hp => by rw [e6]; exact k1 p hp
    refine ⟨hres.trans (levels_ends hL hL0), fun p hp => ?_, fun i hi => ?_⟩
    · rw [hin.perm p (by omega), hperm p hp]
    · have hlt := g4.inv_perm.1 i (by omega)
      have := hin.inv (P0.o2t i) (by omega)
      rw [hperm _ (by omega), g4.inv_right i (by omega)] at this
      exact this
  · refine ⟨[], fun _ => 0, fun _ => 0, ?_⟩
    rintro dp ub res m ⟨L, S, hL, _⟩
    exact absurd ⟨L, hL⟩ hL0

/-- C71 for the overload that takes a CSR (`hbt`: reduction only without barriers; `hcap`: the discovery queues of the level search do not overflow; as
C63). For every matrix with sorted rows, full diagonal and symmetric pattern, every team size, aggregation option and costs there are level ends, a
permutation and its inverse such that every construction, whatever its barrier and reduction options, base of the arrays, split of the rows in the level
search, memory before and interleaving, finishes and leaves exactly these. So threadContToOrigPerm of one schedule may be used with another (trsv_test.cpp:533-545). -/
theorem C71_construct_partial [DecidableEq R] {A : Csr R} {ep : Nat → Nat} {T : Nat} {hasExt : Bool} (hwf : A.WF) (hd : DiagRows A) (hsym : SymPat A)
    (hloc : ∀ i p, A.InRow i p → (p < ep i ↔ A.col p < A.m)) (hT : 1 ≤ T) (hsq : A.m = A.n ∨ hasExt = true) (agg : Bool) {cf : Option (Int → Int)}
    (hcf : ∀ f, cf = some f → ∀ i : Nat, i < A.m → 0 < f i) (hcap : A.m < max T (A.m + T - 1) / T * 2 + 64) :
    ∃ (lev : List Int) (perm inv : Nat → Nat), ∀ (useBarrier tr haveDiag : Bool) (base : Nat) (sz : CArr → Int) (cb : Nat → Nat) (m : Mem (CTy R)),
      (useBarrier = true → tr = false) → base ≤ 1 → HoldsPat m 0 base A → HoldsExt m 0 base A hasExt ep →
      (haveDiag = true → ∃ dp, HoldsDiag m 0 base A dp) → (A.m : Int) ≤ sz (.diagptr 0) → 1 ≤ sz (.itmp 0) →
      cb 0 = 0 → cb T = A.m → (∀ t, t < T → cb t ≤ cb (t + 1)) → (∀ t, t < T → cb (t + 1) - cb t ≤ (A.m + T - 1) / T) →
      (constructTaskGraphCsr sz haveDiag hasExt cf useBarrier agg tr T A.m A.n cb).Ok m (fun res m' => SameArrays A lev perm inv res m') := by
  have hc : ∀ i, i < A.m → 0 < rowCost A cf i := by
    intro i hi
    cases cf with
    | none =>
      obtain ⟨_, p, hp, _⟩ := hd i hi
      have := hp.2
      show 0 < A.ptr (i + 1) - A.ptr i
      omega
    | some f =>
      have := hcf f rfl i hi
      show 0 < (f i).toNat
      omega
  obtain ⟨lev, perm, inv, h⟩ := constructed_same (ep := ep) agg cf hT hc
  refine ⟨lev, perm, inv, ?_⟩
  intro ub tr haveDiag base sz cb m hbt hb hp he hhave hszd hszf cb0 cbT cbm cbc
  refine (C63_construct_partial hwf hd hsym hloc hT hb hsq hcf hbt hp he hhave hszd hszf cb0 cbT cbm cbc hcap).mono ?_
  rintro res m' ⟨dp, _, hC, _⟩
  exact h dp ub res m' hC

/-- The hypotheses of C71 are met: `vee` for two threads, built once one-based with transitive reduction and once zero-based with barriers and another split of
the rows; the two have the same permutation. -/
example : ∃ (lev : List Int) (perm inv : Nat → Nat),
    (constructTaskGraphCsr (R := Int) (fun _ => 100) false false none false true true 2 3 3 (fun t => min (2 * t) 3)).Ok
      (csrMem 0 1 vee (fun _ => 0) (fun _ => 0)) (fun res m' => SameArrays vee lev perm inv res m') ∧
    (constructTaskGraphCsr (R := Int) (fun _ => 100) false false none true true false 2 3 3 (fun t => ([0, 1, 3] : List Nat).getD t 3)).Ok
      (csrMem 0 0 vee (fun _ => 0) (fun _ => 0)) (fun res m' => SameArrays vee lev perm inv res m') := by
  obtain ⟨lev, perm, inv, h⟩ := C71_construct_partial (A := vee) (ep := veeEp) (T := 2) (hasExt := false) vee_wf vee_diagRows vee_schedulable.sym
    (fun i p hin => ⟨fun _ => vee_wf.col_lt p (hin.lt_nnz vee_wf), fun _ => hin.2.2⟩) (by decide) (Or.inl rfl) true (cf := none) (by simp) (by decide)
  have he : ∀ base, HoldsExt (csrMem 0 base vee (fun _ => 0) (fun _ => 0)) 0 base vee false veeEp := fun base =>
    ⟨by simp, fun _ _ _ => rfl, fun i hi => ⟨vee_wf.ptr_mono (by omega) (by have : vee.m = 3 := rfl; omega), Nat.le_refl _⟩⟩
  have h1 : ∀ t < 2, min (2 * t) 3 ≤ min (2 * (t + 1)) 3 := by decide
  have h2 : ∀ t < 2, min (2 * (t + 1)) 3 - min (2 * t) 3 ≤ (3 + 2 - 1) / 2 := by decide
  have h3 : ∀ t < 2, ([0, 1, 3] : List Nat).getD t 3 ≤ ([0, 1, 3] : List Nat).getD (t + 1) 3 := by decide
  have h4 : ∀ t < 2, ([0, 1, 3] : List Nat).getD (t + 1) 3 - ([0, 1, 3] : List Nat).getD t 3 ≤ (3 + 2 - 1) / 2 := by decide
  exact ⟨lev, perm, inv,
    h false true false 1 _ _ _ (by simp) (by decide) (csrMem_pat _ _ _ _ _) (he 1) (by simp) (by decide) (by decide) rfl rfl (fun t ht => h1 t ht) (fun t ht => h2 t ht),
    h true false false 0 _ _ _ (by simp) (by decide) (csrMem_pat _ _ _ _ _) (he 0) (by simp) (by decide) (by decide) rfl rfl (fun t ht => h3 t ht) (fun t ht => h4 t ht)⟩

end SpMP.Props
