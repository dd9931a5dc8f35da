import Verif.PcgOpt
import Verif.PcgRun
/-
The triangular solves by point-to-point synchronisation on reordered matrices. Models no function.
-/
namespace SpMP
open Spec

set_option linter.unusedSectionVars false

variable {R : Type}

section tri
variable [Field R]

/-- What a row of a triangular solve does: it may write its own component of `y` and read everything but the flags and
components of `y` in columns it does not store. -/
def TriBody (sz : CArr → Int) (B : Csr R) (k base y b : Nat) (body : Nat → Prog (CTy R) Unit) : Prop :=
  ∀ (i : Nat) (W Rd : CArr → Int → Prop) (m : Mem (CTy R)) (bv ev yv : Nat → R) (Q : Unit → Mem (CTy R) → Prop), i < B.m →
    W (.vec y) (i : Int) → (∀ a j, a ≠ .vec y → a ≠ .itmp 0 → Rd a j) → (∀ j, B.InRow i j → Rd (.vec y) (B.col j : Int)) →
    HoldsPat m k base B → HoldsVal m k B → m (.vec b) (i : Int) = some (bv i) → m (.idiag k) (i : Int) = some (ev i) →
    (∀ j, B.InRow i j → m (.vec y) (B.col j : Int) = some (yv (B.col j))) →
    Q () (m.set (.vec y) (i : Int) ((bv i - B.mulVec yv i) * ev i)) → wp sz W Rd (body i) m Q

theorem triRow_body {sz : CArr → Int} {B : Csr R} {k base y b : Nat} (hwf : B.WF) (hyb : y ≠ b) (hsz : (B.m : Int) ≤ sz (.vec y)) :
    TriBody sz B k base y b fun r => triRow k y b base ((r : Int) + base) := by
  intro i W Rd m bv ev yv Q hi hW hR hRy hp hv hb he hy hQ
  have hmono := hwf.ptr_step i hi
  have e1 : (i : Int) + base - base = i := by omega
  have e2 : (i : Int) + base + 1 - base = ((i + 1 : Nat) : Int) := by omega
  dsimp only
  unfold triRow
  rw [e1, e2]
  refine wp_rd _ (hR _ _ (by simpa using hyb.symm) (by simp)) hb ?_
  refine wp_rd _ (hR _ _ (by simp) (by simp)) (hp.rowptr i (by omega)) ?_
  refine wp_rd _ (hR _ _ (by simp) (by simp)) (hp.rowptr (i + 1) (by omega)) ?_
  rw [wp_bind]
  refine wp_forUp (I := fun q s m' => m' = m ∧ ∃ j : Nat, q = (j : Int) + base ∧ B.ptr i ≤ j ∧ j ≤ B.ptr (i + 1) ∧
    s = bv i - ∑ t ∈ Finset.Ico (B.ptr i) j, B.val t * yv (B.col t)) ?_ ?_ ?_
  · exact ⟨rfl, B.ptr i, rfl, Nat.le_refl _, hmono, by simp⟩
  · rintro q s m' h1 h2 ⟨rfl, j, rfl, h3, h4, h5⟩
    have hlt : j < B.ptr (i + 1) := by omega
    have hin : B.InRow i j := ⟨hi, h3, hlt⟩
    have hj : j < B.nnz := Csr.InRow.lt_nnz hwf hin
    have e : (j : Int) + base - base = j := by omega
    have e3 : (B.col j : Int) + base - base = (B.col j : Int) := by omega
    rw [e]
    refine wp_rd _ (hR _ _ (by simp) (by simp)) (hv j hj) ?_
    refine wp_rd _ (hR _ _ (by simp) (by simp)) (hp.colidx j hj) ?_
    rw [e3]
    refine wp_rd _ (hRy j hin) (hy j hin) ?_
    rw [wp_pure]
    refine ⟨rfl, j + 1, by push_cast; omega, by omega, hlt, ?_⟩
    rw [Finset.sum_Ico_succ_top h3, h5]; ring
  · rintro s m' ⟨rfl, j, h1, h2, h3, h4⟩
    have : j = B.ptr (i + 1) := by omega
    subst this
    refine wp_rd _ (hR _ _ (by simp) (by simp)) he ?_
    rw [wp_write]
    refine ⟨hW, by omega, by omega, ?_⟩
    rw [h4]
    exact hQ

theorem triRowRev_body {sz : CArr → Int} {B : Csr R} {k base y b : Nat} (hwf : B.WF) (hyb : y ≠ b) (hsz : (B.m : Int) ≤ sz (.vec y)) :
    TriBody sz B k base y b fun r => triRowRev k y b base ((r : Int) + base) := by
  intro i W Rd m bv ev yv Q hi hW hR hRy hp hv hb he hy hQ
  have hmono := hwf.ptr_step i hi
  have e1 : (i : Int) + base - base = i := by omega
  have e2 : (i : Int) + base + 1 - base = ((i + 1 : Nat) : Int) := by omega
  dsimp only
  unfold triRowRev
  rw [e1, e2]
  refine wp_rd _ (hR _ _ (by simpa using hyb.symm) (by simp)) hb ?_
  refine wp_rd _ (hR _ _ (by simp) (by simp)) (hp.rowptr (i + 1) (by omega)) ?_
  refine wp_rd _ (hR _ _ (by simp) (by simp)) (hp.rowptr i (by omega)) ?_
  rw [wp_bind]
  refine wp_forDown (I := fun q s m' => m' = m ∧ ∃ j : Nat, q = (j : Int) + base ∧ B.ptr i ≤ j ∧ j ≤ B.ptr (i + 1) ∧
    s = bv i - ∑ t ∈ Finset.Ico j (B.ptr (i + 1)), B.val t * yv (B.col t)) ?_ ?_ ?_
  · exact ⟨rfl, B.ptr (i + 1), rfl, hmono, Nat.le_refl _, by simp⟩
  · rintro q s m' h1 h2 ⟨rfl, j', h6, h3, h4, h5⟩
    obtain ⟨j, rfl⟩ : ∃ j, j' = j + 1 := ⟨j' - 1, by omega⟩
    obtain rfl : q = (j : Int) + base := by omega
    have hge : B.ptr i ≤ j := by omega
    have hin : B.InRow i j := ⟨hi, hge, by omega⟩
    have hj : j < B.nnz := Csr.InRow.lt_nnz hwf hin
    have e : (j : Int) + base - base = j := by omega
    have e3 : (B.col j : Int) + base - base = (B.col j : Int) := by omega
    rw [e]
    refine wp_rd _ (hR _ _ (by simp) (by simp)) (hv j hj) ?_
    refine wp_rd _ (hR _ _ (by simp) (by simp)) (hp.colidx j hj) ?_
    rw [e3]
    refine wp_rd _ (hRy j hin) (hy j hin) ?_
    rw [wp_pure]
    refine ⟨rfl, j, rfl, hge, by omega, ?_⟩
    rw [Finset.sum_eq_sum_Ico_succ_bot (show j < B.ptr (i + 1) by omega), h5]; ring
  · rintro s m' ⟨rfl, j, h1, h2, h3, h4⟩
    have : j = B.ptr i := by omega
    subst this
    refine wp_rd _ (hR _ _ (by simp) (by simp)) he ?_
    rw [wp_write]
    refine ⟨hW, by omega, by omega, ?_⟩
    rw [h4]
    exact hQ

/-- A system that is triangular in the order `pos` has a solution. -/
theorem triSolution_exists {B : Csr R} {pos : Nat → Nat} (hpos : IsPermFn B.m pos)
    (hlow : ∀ i j, B.InRow i j → pos (B.col j) < pos i) (bv ev : Nat → R) :
    ∃ yv : Nat → R, ∀ i, i < B.m → yv i = (bv i - B.mulVec yv i) * ev i := by
  have key : ∀ k, ∃ yv : Nat → R, ∀ i, i < B.m → pos i < k → yv i = (bv i - B.mulVec yv i) * ev i := by
    intro k
    induction k with
    | zero => exact ⟨fun _ => 0, fun i _ h => by omega⟩
    | succ k ih =>
      obtain ⟨yv, hy⟩ := ih
      by_cases hex : ∃ i, i < B.m ∧ pos i = k
      · obtain ⟨i0, h1, h2⟩ := hex
        have hc : ∀ v i, i < B.m → pos i ≤ k → B.mulVec (Function.update yv i0 v) i = B.mulVec yv i := by
          intro v i hi hik
          unfold Csr.mulVec
          refine Finset.sum_congr rfl fun j hj => ?_
          rw [Finset.mem_Ico] at hj
          have := hlow i j ⟨hi, hj.1, hj.2⟩
          rw [Function.update_of_ne]
          rintro h; rw [h] at this; omega
        refine ⟨Function.update yv i0 ((bv i0 - B.mulVec yv i0) * ev i0), fun i hi hik => ?_⟩
        rw [hc _ i hi (by omega)]
        by_cases h : i = i0
        · subst h; rw [Function.update_self]
        · rw [Function.update_of_ne h]
          refine hy i hi ?_
          rcases Nat.lt_or_ge (pos i) k with h3 | h3
          · exact h3
          · exact absurd (hpos.2 i i0 hi h1 (by omega)) h
      · exact ⟨yv, fun i hi hik => hy i hi (by
          rcases Nat.lt_or_ge (pos i) k with h3 | h3
          · exact h3
          · exact absurd ⟨i, hi, by omega⟩ hex)⟩
  obtain ⟨yv, hy⟩ := key B.m
  exact ⟨yv, fun i hi => hy i hi (hpos.1 i hi)⟩

/-- The memory of the sequential solve before the row at position `k`. -/
def triMem (m0 : Mem (CTy R)) (y n : Nat) (pos : Nat → Nat) (yv : Nat → R) (k : Nat) : Mem (CTy R)
  | .vec j, i => if j = y ∧ 0 ≤ i ∧ i < n ∧ pos i.toNat < k then some (yv i.toNat) else m0 (.vec j) i
  | a, i => m0 a i

theorem triMem_other {m0 : Mem (CTy R)} {y n : Nat} {pos : Nat → Nat} {yv : Nat → R} {k : Nat} {a : CArr} (ha : a ≠ .vec y) :
    triMem m0 y n pos yv k a = m0 a := by
  funext i
  cases a with
  | vec j => 
    have : j ≠ y := by simpa using ha
    simp [triMem, this]
  | _ => rfl

theorem triMem_y {m0 : Mem (CTy R)} {y n : Nat} {pos : Nat → Nat} {yv : Nat → R} {k c : Nat} (hc : c < n) (hk : pos c < k) :
    triMem m0 y n pos yv k (.vec y) (c : Int) = some (yv c) := by
  simp [triMem, hc, hk]

theorem triMem_set {m0 : Mem (CTy R)} {y n : Nat} {pos : Nat → Nat} {yv : Nat → R} (hpos : IsPermFn n pos) {r : Nat} (hr : r < n) :
    (triMem m0 y n pos yv (pos r)).set (.vec y) (r : Int) (yv r) = triMem m0 y n pos yv (pos r + 1) := by
  funext a i
  rcases Mem.set_cases (triMem m0 y n pos yv (pos r)) (.vec y) (r : Int) (yv r) a i with ⟨rfl, rfl⟩ | h
  · rw [Mem.get_same]; simp [triMem, hr]
  · by_cases ha : a = .vec y
    · subst ha
      by_cases hi : i = (r : Int)
      · subst hi; rw [Mem.get_same]; simp [triMem, hr]
      · rw [h]
        by_cases hin : 0 ≤ i ∧ i < n
        · have hne : pos i.toNat ≠ pos r := fun he => hi (by have := hpos.2 _ _ (by omega) hr he; omega)
          have : pos i.toNat < pos r ↔ pos i.toNat < pos r + 1 := by omega
          simp only [triMem, this]
        · simp only [triMem]
          rw [if_neg (fun hh => hin ⟨hh.2.1, hh.2.2.1⟩), if_neg (fun hh => hin ⟨hh.2.1, hh.2.2.1⟩)]
    · rw [h, triMem_other ha, triMem_other ha]

/-- A triangular solve by point-to-point synchronisation, `pos` the sequential order. -/
theorem p2pTri_ok {sz : CArr → Int} {T : Nat} {tasksOf rowsOf parents : Nat → List Nat} {body : Nat → Prog (CTy R) Unit}
    {rank pos : Nat → Nat} {B : Csr R} {k base y b : Nat} {bv ev : Nat → R} {m : Mem (CTy R)}
    (hv : (sweepP2P tasksOf rowsOf parents body).Valid T rank)
    (hlt : ∀ t r, t < T → r ∈ (sweepP2P tasksOf rowsOf parents body).rowsT t → r < B.m)
    (hcov : ∀ r, r < B.m → ∃ t, t < T ∧ r ∈ (sweepP2P tasksOf rowsOf parents body).rowsT t)
    (hpos : IsPermFn B.m pos) (hlow : ∀ i j, B.InRow i j → pos (B.col j) < pos i)
    (hord : ∀ q r, q < B.m → r < B.m → pos q < pos r → B.Nbr r q → (sweepP2P tasksOf rowsOf parents body).RowBefore T q r)
    (hwf : B.WF) (hsq : B.n = B.m) (hyb : y ≠ b) (hbody : TriBody sz B k base y b body)
    (hp : HoldsPat m k base B) (hval : HoldsVal m k B) (hb : VecIs m b B.m bv)
    (he : ∀ i : Nat, i < B.m → m (.idiag k) (i : Int) = some (ev i))
    (hsz : ∀ t c, t < T → c ∈ tasksOf t → (c : Int) < sz (.itmp 0))
    (hflags : ∀ t c, t < T → c ∈ tasksOf t → m (.itmp 0) (c : Int) = some (0 : Int)) :
    P2POk sz (sweepP2P tasksOf rowsOf parents body) T (fun m' => ∃ yv, VecIs m' y B.m yv ∧
      (∀ i, i < B.m → yv i = (bv i - B.mulVec yv i) * ev i) ∧ ∀ a, a ≠ .vec y → a ≠ .itmp 0 → m' a = m a) m := by
  obtain ⟨yv, hyv⟩ := triSolution_exists hpos hlow bv ev
  have hseq : (sweepP2P tasksOf rowsOf parents body).SeqRun sz T B.m pos
      (fun r a i => a = .vec y ∧ i = (r : Int))
      (fun r a i => (a ≠ .vec y ∧ a ≠ .itmp 0) ∨ (a = .vec y ∧ ∃ j, B.InRow r j ∧ i = (B.col j : Int)))
      (triMem m y B.m pos yv) := by
    refine ⟨?_, ?_, ?_, ?_, ?_, ?_⟩
    · intro t r ht hr; exact hpos.1 r (hlt t r ht hr)
    · intro t q u r ht hu hq hr h; exact hpos.2 q r (hlt t q ht hq) (hlt u r hu hr) h
    · intro k hk
      obtain ⟨r, h1, h2⟩ := isPermFn_surj hpos k hk
      obtain ⟨t, ht, h3⟩ := hcov r h1
      exact ⟨t, r, ht, h3, h2⟩
    · intro t r ht hr
      have hrm := hlt t r ht hr
      have hoth : ∀ a, a ≠ .vec y → triMem m y B.m pos yv (pos r) a = m a := fun a ha => triMem_other ha
      refine hbody r _ _ _ bv ev yv _ hrm ⟨rfl, rfl⟩ (fun a j h1 h2 => Or.inl ⟨h1, h2⟩) (fun j hj => Or.inr ⟨rfl, j, hj, rfl⟩)
        (hp.of_eq (hoth _ (by simp)) (hoth _ (by simp))) (hval.of_eq (hoth _ (by simp))) ?_ ?_ ?_ ?_
      · rw [hoth _ (by simpa using hyb.symm)]; exact hb r hrm
      · rw [hoth _ (by simp)]; exact he r hrm
      · intro j hj
        have := hwf.col_lt j (hj.lt_nnz hwf)
        exact triMem_y (by omega) (hlow r j hj)
      · rw [← hyv r hrm]; exact triMem_set hpos hrm
    · rintro r i
      refine ⟨fun h => by simpa [sweepP2P] using h.1, ?_⟩
      rintro (h | h)
      · exact h.2 rfl
      · simpa [sweepP2P] using h.1
    · rintro t q u r a i ht hu hq hr hlt' h
      have hqm := hlt t q ht hq
      have hrm := hlt u r hu hr
      rcases h with ⟨⟨rfl, rfl⟩, h⟩ | ⟨⟨rfl, rfl⟩, h⟩
      · rcases h with (h | ⟨_, j, hj, hc⟩) | ⟨_, h⟩
        · exact absurd rfl h.1
        · exact hord q r hqm hrm hlt' ⟨j, hj, by omega⟩
        · obtain rfl : q = r := by omega
          omega
      · rcases h with (h | ⟨_, j, hj, hc⟩) | ⟨_, h⟩
        · exact absurd rfl h.1
        · have := hlow q j hj
          have e : r = B.col j := by omega
          rw [← e] at this; omega
        · obtain rfl : r = q := by omega
          omega
  refine P2POk.mono (p2p_correct hv hseq rfl hsz (fun t c ht hc => ⟨(0 : Int), hflags t c ht hc, rfl⟩) ?_) ?_
  · intro a i ha
    by_cases h : a = .vec y
    · subst h; simp [triMem]
    · rw [triMem_other h]
  · intro m' hm'
    refine ⟨yv, fun i hi => ?_, hyv, fun a h1 h2 => ?_⟩
    · rw [hm' _ _ (by simp [sweepP2P])]; exact triMem_y hi (hpos.1 i hi)
    · funext i; rw [hm' a i (by simpa [sweepP2P] using h2), triMem_other h1]


section sched
variable {S : Schedule} {sz : CArr → Int} {lvl : Nat → Nat} {B : Csr R}

theorem noPerm_tiling (h : S.Tiling) : (noPerm S).Tiling :=
  ⟨h.threadB_zero, h.threadB_mono, h.threadB_last, h.taskB_zero, h.taskB_mono, h.taskB_last, fun _ hi => hi, fun _ _ _ _ h => h⟩

theorem noPerm_fwd {a b : Nat} (h : S.Fwd a b) : (noPerm S).Fwd a b := by
  induction h with
  | parent h1 h2 => exact .parent h1 h2
  | thread h1 h2 => exact .thread h1 h2
  | trans _ _ i1 i2 => exact .trans i1 i2

theorem noPerm_bwd {a b : Nat} (h : S.Bwd a b) : (noPerm S).Bwd a b := by
  induction h with
  | parent h1 h2 => exact .parent h1 h2
  | thread h1 h2 => exact .thread h1 h2
  | trans _ _ i1 i2 => exact .trans i1 i2

theorem noPerm_rowIn {k i : Nat} (h : (noPerm S).RowIn k i) : S.RowIn k (S.perm i) := by
  obtain ⟨q, h1, h2⟩ := h
  have h2 : q = i := h2
  subst h2; exact ⟨q, h1, rfl⟩

/-- A matrix reordered by the permutation of a schedule whose entries are entries of a matrix the schedule covers. -/
def Reordered (S : Schedule) (nbr : Nat → Nat → Prop) (B : Csr R) : Prop :=
  ∀ r c, r < S.m → c < S.m → B.Nbr r c → nbr (S.perm r) (S.perm c)

theorem forwardReordered_ok [Races CArr] {nbr : Nat → Nat → Prop} {k y b : Nat} {bv ev : Nat → R} {m : Mem (CTy R)}
    {Q : Unit → Mem (CTy R) → Prop} (hS : S.Tiling) (hl : S.Levelled lvl) (hT : 1 ≤ S.T) (hf : (S.ntasks : Int) ≤ sz (.itmp 0))
    (hcov : S.CoversFwd nbr) (hm : B.m = S.m) (hsq : B.n = B.m) (hwf : B.WF) (hre : Reordered S nbr B)
    (hlow : ∀ i j, B.InRow i j → S.perm (B.col j) < S.perm i) (hyb : y ≠ b) (hsz : (B.m : Int) ≤ sz (.vec y))
    (hp : HoldsPat m k 0 B) (hval : HoldsVal m k B) (hb : VecIs m b B.m bv)
    (he : ∀ i : Nat, i < B.m → m (.idiag k) (i : Int) = some (ev i))
    (hQ : ∀ m' yv, VecIs m' y B.m yv → (∀ i, i < B.m → yv i = (bv i - B.mulVec yv i) * ev i) →
      (∀ a, a ≠ .vec y → a ≠ .itmp 0 → m' a = m a) → Q () m') :
    (forwardSolveReordered sz S k y b).Ok m Q := by
  have hS' := noPerm_tiling hS
  have hl' : (noPerm S).Levelled lvl := ⟨hl.thread, hl.parF, hl.parB⟩
  have hmm : (noPerm S).m = S.m := rfl
  unfold forwardSolveReordered
  refine seq_rule ?_
  rw [wp_read]
  refine ⟨trivial, _, hp.rowptr 0 (by omega), ?_⟩
  rw [hwf.ptr_zero, Script.ok_bind]
  refine Script.Ok.mono (clearFlags_ok hT hf) ?_
  rintro _ m1 ⟨c1, c2⟩
  refine P2POk.mono (p2pTri_ok (base := 0) (pos := S.perm) (bv := bv) (ev := ev) (B := B) (k := k) (fwd_valid hS' hl') ?_ ?_ ?_ hlow ?_ hwf hsq hyb
    (triRow_body hwf hyb hsz) (hp.of_eq (c2 _ (by simp)) (c2 _ (by simp))) (hval.of_eq (c2 _ (by simp))) (hb.frame (c2 _ (by simp)))
    (fun i hi => by rw [c2 _ (by simp)]; exact he i hi) ?_ ?_) ?_
  · intro t r ht h
    have := fwd_rows_lt hS' ht h
    omega
  · intro r hr'; exact fwd_cover hS' (by omega)
  · rw [hm]; exact hS.perm
  · intro q r hq hr' hlt hn
    rw [hm] at hq hr'
    obtain ⟨a, ha, hqa⟩ := exists_rowIn hS' (r := q) hq
    obtain ⟨c, hc, hrb⟩ := exists_rowIn hS' (r := r) hr'
    obtain ⟨t, ht, hat⟩ := fwdTasks_cover hS' ha
    obtain ⟨u, hu, hbu⟩ := fwdTasks_cover hS' hc
    exact Or.inl ⟨t, u, a, c, ht, hu, hat, hbu, (mem_fwdRows ha).2 hqa, (mem_fwdRows hc).2 hrb,
      fwd_taskBefore hS' (noPerm_fwd (hcov _ _ _ _ hlt (hS.perm.1 r hr') (Or.inl (hre r q hr' hq hn)) (noPerm_rowIn hqa) (noPerm_rowIn hrb)))⟩
  · intro t c ht hc
    have : c < S.ntasks := fwdTasks_lt hS' ht hc
    omega
  · intro t c ht hc; exact c1 c (fwdTasks_lt hS' ht hc)
  · rintro m' ⟨yv, h1, h2, h3⟩
    refine Script.ok_done_of (hQ m' yv h1 h2 fun a ha1 ha2 => ?_)
    rw [h3 a ha1 ha2, c2 a ha2]

theorem backwardReordered_ok [Races CArr] {nbr : Nat → Nat → Prop} {k y b : Nat} {bv ev : Nat → R} {m : Mem (CTy R)}
    {Q : Unit → Mem (CTy R) → Prop} (hS : S.Tiling) (hl : S.Levelled lvl) (hT : 1 ≤ S.T) (hf : (S.ntasks : Int) ≤ sz (.itmp 0))
    (hcov : S.CoversBwd nbr) (hm : B.m = S.m) (hsq : B.n = B.m) (hwf : B.WF) (hre : Reordered S nbr B)
    (hup : ∀ i j, B.InRow i j → S.perm i < S.perm (B.col j)) (hyb : y ≠ b) (hsz : (B.m : Int) ≤ sz (.vec y))
    (hp : HoldsPat m k 0 B) (hval : HoldsVal m k B) (hb : VecIs m b B.m bv)
    (he : ∀ i : Nat, i < B.m → m (.idiag k) (i : Int) = some (ev i))
    (hQ : ∀ m' yv, VecIs m' y B.m yv → (∀ i, i < B.m → yv i = (bv i - B.mulVec yv i) * ev i) →
      (∀ a, a ≠ .vec y → a ≠ .itmp 0 → m' a = m a) → Q () m') :
    (backwardSolveReordered sz S k y b).Ok m Q := by
  have hS' := noPerm_tiling hS
  have hl' : (noPerm S).Levelled lvl := ⟨hl.thread, hl.parF, hl.parB⟩
  have hmm : (noPerm S).m = S.m := rfl
  have hmem : ∀ t c, c ∈ bwdTasks (noPerm S) t ↔ c ∈ fwdTasks (noPerm S) t := fun t c => List.mem_reverse
  have hrT : ∀ body t r, r ∈ (sweepP2P (R := R) (bwdTasks (noPerm S)) (bwdRows (noPerm S)) S.parB body).rowsT t ↔
      r ∈ (fwdTasks (noPerm S) t).flatMap (fwdRows (noPerm S)) := by
    intro body t r
    show r ∈ ((bwdTasks (noPerm S) t).flatMap (bwdRows (noPerm S))) ↔ _
    rw [bwd_rowsT_perm]; exact List.mem_reverse
  unfold backwardSolveReordered
  refine seq_rule ?_
  rw [wp_read]
  refine ⟨trivial, _, hp.rowptr 0 (by omega), ?_⟩
  rw [hwf.ptr_zero, Script.ok_bind]
  refine Script.Ok.mono (clearFlags_ok hT hf) ?_
  rintro _ m1 ⟨c1, c2⟩
  refine P2POk.mono (p2pTri_ok (base := 0) (pos := fun i => B.m - 1 - S.perm i) (bv := bv) (ev := ev) (B := B) (k := k) (bwd_valid hS' hl') ?_ ?_ ?_ ?_ ?_ hwf hsq hyb
    (triRowRev_body hwf hyb hsz) (hp.of_eq (c2 _ (by simp)) (c2 _ (by simp))) (hval.of_eq (c2 _ (by simp))) (hb.frame (c2 _ (by simp)))
    (fun i hi => by rw [c2 _ (by simp)]; exact he i hi) ?_ ?_) ?_
  · intro t r ht h
    have := fwd_rows_lt hS' ht ((hrT _ t r).1 h)
    omega
  · intro r hr'
    obtain ⟨t, ht, h⟩ := fwd_cover hS' (r := r) (by omega)
    exact ⟨t, ht, (hrT _ t r).2 h⟩
  · rw [hm]
    refine ⟨fun i hi => by have := hS.perm.1 i hi; show S.m - 1 - S.perm i < S.m; omega, fun i j hi hj h => hS.perm.2 i j hi hj ?_⟩
    have h : S.m - 1 - S.perm i = S.m - 1 - S.perm j := h
    have := hS.perm.1 i hi
    have := hS.perm.1 j hj
    omega
  · intro i j hij
    have h1 := hup i j hij
    have h2 : B.col j < B.m := by rw [← hsq]; exact hwf.col_lt j (hij.lt_nnz hwf)
    have := hS.perm.1 (B.col j) (by omega)
    omega
  · intro q r hq hr' hlt hn
    have hlt : B.m - 1 - S.perm q < B.m - 1 - S.perm r := hlt
    rw [hm] at hq hr'
    have hpq := hS.perm.1 q hq
    have hpr := hS.perm.1 r hr'
    obtain ⟨a, ha, hqa⟩ := exists_rowIn hS' (r := q) hq
    obtain ⟨c, hc, hrb⟩ := exists_rowIn hS' (r := r) hr'
    obtain ⟨t, ht, hat⟩ := fwdTasks_cover hS' ha
    obtain ⟨u, hu, hbu⟩ := fwdTasks_cover hS' hc
    exact Or.inl ⟨t, u, a, c, ht, hu, (hmem _ _).2 hat, (hmem _ _).2 hbu,
      List.mem_reverse.2 ((mem_fwdRows ha).2 hqa), List.mem_reverse.2 ((mem_fwdRows hc).2 hrb),
      bwd_taskBefore hS' (noPerm_bwd (hcov _ _ _ _ (by omega) hpq (Or.inr (hre r q hr' hq hn)) (noPerm_rowIn hrb) (noPerm_rowIn hqa)))⟩
  · intro t c ht hc
    have : c < S.ntasks := fwdTasks_lt hS' ht ((hmem _ _).1 hc)
    omega
  · intro t c ht hc; exact c1 c (fwdTasks_lt hS' ht ((hmem _ _).1 hc))
  · rintro m' ⟨yv, h1, h2, h3⟩
    refine Script.ok_done_of (hQ m' yv h1 h2 fun a ha1 ha2 => ?_)
    rw [h3 a ha1 ha2, c2 a ha2]

/-- The two solves. -/
theorem p2pSolve_ok [Races CArr] {nbr : Nat → Nat → Prop} {kl ku n : Nat} {L U : Csr R} {el eu rv : Nat → R} {m : Mem (CTy R)}
    {Q : Unit → Mem (CTy R) → Prop} (hS : S.Tiling) (hl : S.Levelled lvl) (hT : 1 ≤ S.T) (hf : (S.ntasks : Int) ≤ sz (.itmp 0))
    (hcf : S.CoversFwd nbr) (hcb : S.CoversBwd nbr) (hn : n = S.m) (ho : TriObj m kl ku n L U el eu)
    (hrl : Reordered S nbr L) (hru : Reordered S nbr U)
    (hlow : ∀ i j, L.InRow i j → S.perm (L.col j) < S.perm i) (hup : ∀ i j, U.InRow i j → S.perm i < S.perm (U.col j))
    (hr : VecIs m 2 n rv) (hs3 : (n : Int) ≤ sz (.vec 3)) (hs4 : (n : Int) ≤ sz (.vec 4))
    (hK : ∀ m' z, VecIs m' 3 n z → TriSolve n L U el eu z rv → (∀ a, a ≠ .vec 3 → a ≠ .vec 4 → a ≠ .itmp 0 → m' a = m a) → Q () m') :
    (p2pSolve sz S kl ku).Ok m Q := by
  obtain ⟨l1, u1, l2, u2, ln, un, l3, l4, u4, u5, l6, u8⟩ := ho
  unfold p2pSolve
  rw [Script.ok_bind]
  refine forwardReordered_ok (nbr := nbr) (bv := rv) (ev := el) hS hl hT hf hcf (by omega) (by omega) l1 hrl hlow (by omega) (by rw [l2]; exact hs4) l3 l4
    (by rw [l2]; exact hr) (by rw [l2]; exact l6) ?_
  rw [l2]
  intro m1 yv hy1 hy2 hf1
  refine backwardReordered_ok (nbr := nbr) (bv := yv) (ev := eu) hS hl hT hf hcb (by omega) (by omega) u1 hru hup (by omega) (by rw [u2]; exact hs3)
    (u4.of_eq (hf1 _ (by simp) (by simp)) (hf1 _ (by simp) (by simp))) (u5.of_eq (hf1 _ (by simp) (by simp)))
    (by rw [u2]; exact hy1) (by rw [u2]; intro i hi; rw [hf1 _ (by simp) (by simp)]; exact u8 i hi) ?_
  rw [u2]
  intro m2 zv hz1 hz2 hf2
  refine hK m2 zv hz1 ⟨yv, hy2, hz2⟩ ?_
  intro a h3 h4 h0
  rw [hf2 a h3 h0, hf1 a h4 h0]

end sched
end tri
end SpMP
