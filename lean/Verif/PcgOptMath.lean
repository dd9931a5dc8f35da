import Verif.PcgRun
import Verif.PermuteMain
/-
The conjugate gradient method on a symmetrically permuted system is the method on the original one. Models no function.
-/
namespace SpMP
open Spec

set_option linter.unusedSectionVars false

variable {R : Type}

/-- `p` and `q` are inverse permutations of the first `n` numbers. -/
structure InvPerms (n : Nat) (p q : Nat → Nat) : Prop where
  p_lt : ∀ i, i < n → p i < n
  q_lt : ∀ i, i < n → q i < n
  pq : ∀ i, i < n → p (q i) = i
  qp : ∀ i, i < n → q (p i) = i

theorem InvPerms.of_perm {n : Nat} {q : Nat → Nat} (h : IsPermFn n q) : ∃ p, InvPerms n p q := by
  have hinv : ∀ k : Nat, ∃ i, k < n → i < n ∧ q i = k := by
    intro k
    by_cases hk : k < n
    · obtain ⟨i, h1, h2⟩ := isPermFn_surj h k hk; exact ⟨i, fun _ => ⟨h1, h2⟩⟩
    · exact ⟨0, fun h => absurd h hk⟩
  obtain ⟨p, hp⟩ := Classical.axiomOfChoice hinv
  exact ⟨p, fun i hi => (hp i hi).1, h.1, fun i hi => h.2 _ _ (hp _ (h.1 i hi)).1 hi (hp _ (h.1 i hi)).2, fun i hi => (hp i hi).2⟩

theorem InvPerms.perm {n : Nat} {p q : Nat → Nat} (h : InvPerms n p q) : IsPermFn n p :=
  ⟨h.p_lt, fun i j hi hj e => by rw [← h.qp i hi, ← h.qp j hj, e]⟩

/-- `B` is `A` with row `q i` moved to row `i` and column `c` renamed `p c`. -/
structure PermCsr (p q : Nat → Nat) (A B : Csr R) : Prop where
  wf : B.WF
  m : B.m = A.m
  n : B.n = A.n
  rows : ∀ i, i < A.m → B.row i = (A.row (q i)).map fun e => (p e.1, e.2)

theorem PermCsr.entry {p q : Nat → Nat} {A B : Csr R} (h : PermCsr p q A B) {i j : Nat} (hj : B.InRow i j) (hi : q i < A.m) :
    ∃ j', A.InRow (q i) j' ∧ B.col j = p (A.col j') := by
  have him : i < A.m := by rw [← h.m]; exact hj.1
  have : (B.col j, B.val j) ∈ B.row i := Csr.mem_row.2 ⟨j, hj.2.1, hj.2.2, rfl⟩
  rw [h.rows i him, List.mem_map] at this
  obtain ⟨e, h1, h2⟩ := this
  obtain ⟨j', h3, h4, h5⟩ := Csr.mem_row.1 h1
  refine ⟨j', ⟨hi, h3, h4⟩, ?_⟩
  have := congrArg Prod.fst h2
  simp only at this
  rw [← this, ← h5]

section ring
variable [CommRing R]

theorem PermCsr.mulVec {p q : Nat → Nat} {A B : Csr R} (h : PermCsr p q A B) (hwf : A.WF) {i : Nat} (hi : i < A.m) (hq : q i < A.m)
    (x : Nat → R) : B.mulVec x i = A.mulVec (fun c => x (p c)) (q i) := by
  rw [Props.mulVec_eq_row h.wf (by rw [h.m]; exact hi), Props.mulVec_eq_row hwf hq, h.rows i hi, List.map_map]
  rfl

theorem dotN_perm {n : Nat} {p q : Nat → Nat} (h : InvPerms n p q) {f g f' g' : Nat → R} (hf : ∀ i, i < n → f' i = f (p i))
    (hg : ∀ i, i < n → g' i = g (p i)) : dotN n f' g' = dotN n f g := by
  unfold dotN
  refine Finset.sum_nbij' p q ?_ ?_ ?_ ?_ ?_
  · intro a ha; exact Finset.mem_range.2 (h.p_lt a (Finset.mem_range.1 ha))
  · intro a ha; exact Finset.mem_range.2 (h.q_lt a (Finset.mem_range.1 ha))
  · intro a ha; exact h.qp a (Finset.mem_range.1 ha)
  · intro a ha; exact h.pq a (Finset.mem_range.1 ha)
  · intro a ha; rw [hf a (Finset.mem_range.1 ha), hg a (Finset.mem_range.1 ha)]

/-- A preconditioner seen through the permutation. -/
def permPrec (n : Nat) (p : Nat → Nat) (M : (Nat → R) → (Nat → R) → Prop) (z r : Nat → R) : Prop :=
  ∃ z1 r1, M z1 r1 ∧ (∀ i, i < n → z1 i = z (p i)) ∧ ∀ i, i < n → r1 i = r (p i)

theorem permPrec_precond [LT R] {n : Nat} {p q : Nat → Nat} {M : (Nat → R) → (Nat → R) → Prop} (h : InvPerms n p q) (hM : Precond n M) :
    Precond n (permPrec n p M) where
  total r := by
    obtain ⟨z, hz⟩ := hM.total fun i => r (p i)
    exact ⟨fun i => z (q i), z, _, hz, fun i hi => by show z i = z (q (p i)); rw [h.qp i hi], fun i _ => rfl⟩
  unique := by
    rintro z r z' r' ⟨z1, r1, a1, a2, a3⟩ ⟨z2, r2, b1, b2, b3⟩ hr i hi
    have := hM.unique _ _ _ _ a1 b1 (fun i hi => by rw [a3 i hi, b3 i hi, hr _ (h.p_lt i hi)]) (q i) (h.q_lt i hi)
    rw [a2 _ (h.q_lt i hi), b2 _ (h.q_lt i hi), h.pq i hi] at this
    exact this
  symm := by
    rintro z r z' r' ⟨z1, r1, a1, a2, a3⟩ ⟨z2, r2, b1, b2, b3⟩
    rw [← dotN_perm h b2 a3, ← dotN_perm h a2 b3]
    exact hM.symm _ _ _ _ a1 b1
  pos := by
    rintro z r ⟨z1, r1, a1, a2, a3⟩ ⟨i, hi, hne⟩
    rw [← dotN_perm h a2 a3]
    refine hM.pos _ _ a1 ⟨q i, h.q_lt i hi, ?_⟩
    rw [a3 _ (h.q_lt i hi), h.pq i hi]
    exact hne

theorem PermCsr.posDef [LT R] {p q : Nat → Nat} {A B : Csr R} (h : PermCsr p q A B) (hwf : A.WF) (hi : InvPerms A.m p q) (hpd : A.PosDef) :
    B.PosDef := by
  rintro x ⟨i, hin, hne⟩
  rw [h.m] at hin ⊢
  rw [← dotN_perm (f' := fun i => x (p i)) (g' := A.mulVec fun c => x (p c)) hi (fun _ _ => rfl) (fun i hin => by
    rw [h.mulVec hwf (hi.p_lt i hin) (by rw [hi.qp i hin]; exact hin), hi.qp i hin])]
  refine hpd _ ⟨q i, hi.q_lt i hin, ?_⟩
  rw [hi.pq i hin]; exact hne

end ring

section field
variable [Field R]

/-- The solves with the permuted triangles are the solves with the original ones. -/
theorem triSolve_perm {n : Nat} {p q : Nat → Nat} {L U L' U' : Csr R} {el eu z r : Nat → R} (h : InvPerms n p q)
    (hL : PermCsr p q L L') (hU : PermCsr p q U U') (hl : L.m = n) (hu : U.m = n) (hwl : L.WF) (hwu : U.WF)
    (ht : TriSolve n L' U' (fun i => el (q i)) (fun i => eu (q i)) z r) : TriSolve n L U el eu (fun i => z (p i)) (fun i => r (p i)) := by
  obtain ⟨y, h1, h2⟩ := ht
  refine ⟨fun i => y (p i), fun i hi => ?_, fun i hi => ?_⟩
  · have := h1 (p i) (h.p_lt i hi)
    dsimp only at this
    rw [hL.mulVec hwl (by rw [hl]; exact h.p_lt i hi) (by rw [h.qp i hi, hl]; exact hi), h.qp i hi] at this
    exact this
  · have := h2 (p i) (h.p_lt i hi)
    dsimp only at this
    rw [hU.mulVec hwu (by rw [hu]; exact h.p_lt i hi) (by rw [h.qp i hi, hu]; exact hi), h.qp i hi] at this
    exact this

/-- The method on the permuted system is the method on the original one. -/
theorem pcgEnds_perm [LinearOrder R] {A B : Csr R} {p q : Nat → Nat} {M : (Nat → R) → (Nat → R) → Prop} {b x0 xf b' x0' : Nat → R} {nrm : R → R}
    {tol : R} {maxiter : Nat} {res : Nat × R} (hi : InvPerms A.m p q) (hAB : PermCsr p q A B) (hwf : A.WF)
    (hb : ∀ i, i < A.m → b' i = b (q i)) (hx : ∀ i, i < A.m → x0' i = x0 (q i))
    (h : PcgEnds B (permPrec A.m p M) b' x0' nrm tol maxiter res xf) :
    PcgEnds A M b x0 nrm tol maxiter res fun i => xf (p i) := by
  obtain ⟨K, x, r, z, pp, htr, h1, h2, h3, h4, h5⟩ := h
  rw [hAB.m] at h1 h3 h4 h5
  have hw : ∀ k, ∃ z1 r1 : Nat → R, k ≤ K → M z1 r1 ∧ (∀ i, i < A.m → z1 i = z k (p i)) ∧ ∀ i, i < A.m → r1 i = r k (p i) := by
    intro k
    by_cases hk : k ≤ K
    · obtain ⟨z1, r1, h⟩ := htr.precond k hk
      exact ⟨z1, r1, fun _ => h⟩
    · exact ⟨fun _ => 0, fun _ => 0, fun h => absurd h hk⟩
  obtain ⟨z1, hw⟩ := Classical.axiomOfChoice hw
  obtain ⟨r1, hw⟩ := Classical.axiomOfChoice hw
  have hmul : ∀ v i, i < A.m → B.mulVec v (p i) = A.mulVec (fun c => v (p c)) i := fun v i him => by
    rw [hAB.mulVec hwf (hi.p_lt i him) (by rw [hi.qp i him]; exact him), hi.qp i him]
  have erz : ∀ k, k ≤ K → dotN A.m (r1 k) (z1 k) = dotN A.m (r k) (z k) := fun k hk => dotN_perm hi (hw k hk).2.2 (hw k hk).2.1
  have err : ∀ k, k ≤ K → dotN A.m (r1 k) (r1 k) = dotN A.m (r k) (r k) := fun k hk => dotN_perm hi (hw k hk).2.2 (hw k hk).2.2
  have epp : ∀ k, dotN A.m (fun i => pp k (p i)) (A.mulVec fun i => pp k (p i)) = dotN A.m (pp k) (B.mulVec (pp k)) := fun k =>
    dotN_perm hi (fun _ _ => rfl) (fun i him => (hmul _ i him).symm)
  refine ⟨K, fun k i => x k (p i), r1, z1, fun k i => pp k (p i), ?_, ?_, h2, ?_, ?_, ?_⟩
  · refine ⟨?_, fun k hk => (hw k hk).1, ?_, ?_, ?_, ?_, ?_⟩
    · intro i him
      have := htr.start (p i) (by rw [hAB.m]; exact hi.p_lt i him)
      rw [(hw 0 (by omega)).2.2 i him, this, hmul _ i him, hb _ (hi.p_lt i him), hi.qp i him]
    · intro i him
      have := htr.first (p i) (by rw [hAB.m]; exact hi.p_lt i him)
      rw [(hw 0 (by omega)).2.1 i him, ← this]
    · intro k hk
      have := htr.defined k hk
      rw [hAB.m] at this
      rw [epp k, erz k (by omega)]
      exact this
    · intro k hk i him
      have := htr.iterate k hk (p i) (by rw [hAB.m]; exact hi.p_lt i him)
      rw [hAB.m] at this
      rw [epp k, erz k (by omega)]
      exact this
    · intro k hk i him
      have := htr.residual k hk (p i) (by rw [hAB.m]; exact hi.p_lt i him)
      rw [hAB.m, hmul _ i him] at this
      rw [epp k, erz k (by omega), (hw (k + 1) (by omega)).2.2 i him, (hw k (by omega)).2.2 i him]
      exact this
    · intro k hk i him
      have := htr.direction k hk (p i) (by rw [hAB.m]; exact hi.p_lt i him)
      rw [hAB.m] at this
      rw [erz k (by omega), erz (k + 1) (by omega), (hw (k + 1) (by omega)).2.1 i him]
      exact this
  · intro i him
    show x 0 (p i) = _
    rw [h1 _ (hi.p_lt i him), hx _ (hi.p_lt i him), hi.qp i him]
  · intro i him; exact h3 _ (hi.p_lt i him)
  · intro k hk1 hk2
    rw [err k (by omega), err 0 (by omega)]
    exact h4 k hk1 hk2
  · rw [err K (by omega), err 0 (by omega)]
    exact h5

end field
end SpMP
