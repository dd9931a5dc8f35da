import Verif.TgPure
import Verif.LevelsMem
import Verif.SplitLU
/-
The phases of constructTaskGraph_ before the adjacency lists are built: row-to-task table, sizes, prefix sums, load balance.
-/

namespace SpMP
open Spec

variable {R : Type}

/-- What constructTaskGraph_ is given. -/
structure TgHyp (S : Schedule) (A : Csr R) (dp ep : Nat → Nat) (tr : Bool) : Prop where
  tiling : S.Tiling
  rows : S.m = A.m
  split : SplitRows A dp ep
  inner : ∀ i p, i < A.m → dp i < p → p < ep i → A.col p < A.m
  sym : SymPat A
  nodup : NoDup A
  wf : A.WF
  team : 0 < S.T
  full : tr = true → ∀ c, c < S.ntasks → S.taskB c < S.taskB (c + 1)

/-- The arrays that are only read. -/
def TgRdo (a : CArr) : Prop := MatCell a ∨ a = .itmp 30 ∨ a = .itmp 31 ∨ a = .itmp 32

/-- The matrix and the partition into tasks are in memory. -/
structure TgIn (S : Schedule) (A : Csr R) (dp ep : Nat → Nat) (base : Nat) (hasExt : Bool) (m : Mem (CTy R)) : Prop where
  mat : LvMem m base A dp ep hasExt
  task : ∀ k : Nat, k ≤ S.ntasks → m (.itmp 30) (k : Int) = some (S.taskB k : Int)
  thread : ∀ t : Nat, t ≤ S.T → m (.itmp 31) (t : Int) = some (S.threadB t : Int)
  perm : ∀ p : Nat, p < S.m → m (.itmp 32) (p : Int) = some (S.perm p : Int)

theorem TgIn.congr {S : Schedule} {A : Csr R} {dp ep : Nat → Nat} {base : Nat} {hasExt : Bool} {m m' : Mem (CTy R)}
    (h : TgIn S A dp ep base hasExt m) (hm : ∀ a i, TgRdo a → m' a i = m a i) : TgIn S A dp ep base hasExt m' where
  mat := h.mat.congr fun a i ha => hm a i (Or.inl ha)
  task k hk := by rw [hm _ _ (by simp [TgRdo])]; exact h.task k hk
  thread k hk := by rw [hm _ _ (by simp [TgRdo])]; exact h.thread k hk
  perm k hk := by rw [hm _ _ (by simp [TgRdo])]; exact h.perm k hk

/-- Cuts of `0 .. n-1` into `T` ranges. -/
structure TgCuts (T n : Nat) (vb : Nat → Nat) : Prop where
  zero : vb 0 = 0
  mono : ∀ t, t < T → vb t ≤ vb (t + 1)
  last : vb T = n

theorem TgCuts.le {T n : Nat} {vb : Nat → Nat} (h : TgCuts T n vb) {a b : Nat} (hab : a ≤ b) (hb : b ≤ T) : vb a ≤ vb b :=
  mono_range h.mono hab hb

theorem TgCuts.le_n {T n : Nat} {vb : Nat → Nat} (h : TgCuts T n vb) {a : Nat} (ha : a ≤ T) : vb a ≤ n := by
  rw [← h.last]; exact h.le ha (Nat.le_refl _)

/-- Different ranges do not meet. -/
theorem TgCuts.disj {T n : Nat} {vb : Nat → Nat} (h : TgCuts T n vb) {t u v : Nat} (ht : t < T) (hu : u < T) (hne : t ≠ u)
    (h1 : vb t ≤ v ∧ v < vb (t + 1)) (h2 : vb u ≤ v ∧ v < vb (u + 1)) : False := by
  rcases Nat.lt_or_gt_of_ne hne with g | g
  · have := h.le (show t + 1 ≤ u by omega) (by omega); omega
  · have := h.le (show u + 1 ≤ t by omega) (by omega); omega

theorem TgCuts.find {T n : Nat} {vb : Nat → Nat} (h : TgCuts T n vb) {v : Nat} (hv : v < n) : ∃ t, t < T ∧ vb t ≤ v ∧ v < vb (t + 1) := by
  have key : ∀ T', T' ≤ T → v < vb T' → ∃ t, t < T' ∧ vb t ≤ v ∧ v < vb (t + 1) := by
    intro T'
    induction T' with
    | zero => intro _ h0; rw [h.zero] at h0; omega
    | succ k ih =>
      intro hk hv
      by_cases hc : v < vb k
      · obtain ⟨t, g1, g2⟩ := ih (by omega) hc; exact ⟨t, by omega, g2⟩
      · exact ⟨k, by omega, by omega, hv⟩
  exact key T (Nat.le_refl _) (by rw [h.last]; exact hv)

theorem rowCut_cuts {T : Nat} (hT : 0 < T) (n : Nat) : TgCuts T n (rowCut T n) where
  zero := rowCut_zero n
  mono t _ := rowCut_mono hT n (by omega)
  last := rowCut_last hT n

/-- Sums of differences along cuts. -/
theorem psum_cuts {r : Nat → Int} {T n : Nat} {vb F : Nat → Nat} (hv : TgCuts T n vb) (hF : F 0 = 0)
    (h : ∀ t, t < T → r t = (F (vb (t + 1)) : Int) - F (vb t)) {t : Nat} (ht : t ≤ T) : psum (onTeam T r) t = F (vb t) := by
  refine psum_rowStart hv.zero hF t ?_
  intro u hu
  unfold onTeam
  rw [if_pos (by omega)]; exact h u (by omega)

section
variable {S : Schedule} {A : Csr R} {dp ep : Nat → Nat} {base : Nat} {hasExt tr : Bool} {sz : CArr → Int} {nnz cR cF cB : Int}

/-- The row a position holds. -/
theorem TgHyp.perm_lt (H : TgHyp S A dp ep tr) {p : Nat} (hp : p < S.m) : S.perm p < A.m := by
  rw [← H.rows]; exact H.tiling.perm.1 p hp

theorem TgHyp.task_le (H : TgHyp S A dp ep tr) {v : Nat} (hv : v ≤ S.ntasks) : S.taskB v ≤ S.m := by
  rw [← H.tiling.taskB_last]; exact mono_range H.tiling.taskB_mono hv (Nat.le_refl _)

theorem TgHyp.task_mono (H : TgHyp S A dp ep tr) {v w : Nat} (h : v ≤ w) (hw : w ≤ S.ntasks) : S.taskB v ≤ S.taskB w :=
  mono_range H.tiling.taskB_mono h hw

/-! ### Row to task -/

theorem tg_orig (H : TgHyp S A dp ep tr) {m : Mem (CTy R)} (hm : TgIn S A dp ep base hasExt m) {Q : (Nat → Unit) → Mem (CTy R) → Prop}
    (hQ : ∀ r m', (∀ i : Nat, i < S.m → m' (.itmp 33) (i : Int) = some (origTask S i : Int)) → (∀ a i, a ≠ .itmp 33 → m' a i = m a i) → Q r m') :
    ParOk (tgSize sz S.T S.m S.ntasks nnz cR cF cB) S.ntasks Q tgOrig m := by
  let W : Nat → CArr → Int → Prop := fun k a i => a = .itmp 33 ∧ ∃ r : Nat, S.RowIn k r ∧ i = r
  refine par_rule (W := W) (R := fun k a i => W k a i ∨ TgRdo a) (Q := fun k _ m' => ∀ r : Nat, S.RowIn k r → m' (.itmp 33) (r : Int) = some (k : Int)) ?_ ?_ ?_
  · rintro k l a i hk hl hne ⟨rfl, r, h1, rfl⟩ h2
    rcases h2 with ⟨_, r', h3, h4⟩ | h2
    · have : r = r' := by omega
      subst this
      exact hne (rowIn_unique H.tiling h1 h3)
    · simp [TgRdo, MatCell] at h2
  · intro k hk
    unfold tgOrig
    refine wp_rd _ (Or.inr (by simp [TgRdo])) (hm.task k (by omega)) ?_
    refine wp_rd _ (Or.inr (by simp [TgRdo])) (by rw [show (k : Int) + 1 = ((k + 1 : Nat) : Int) by omega]; exact hm.task (k + 1) hk) ?_
    have hle := H.task_le (show k + 1 ≤ S.ntasks by omega)
    refine wp_forN (b := 0) (lo := S.taskB k) (hi := S.taskB (k + 1))
      (fun p _ m' => TgIn S A dp ep base hasExt m' ∧ ∀ q, S.taskB k ≤ q → q < p → m' (.itmp 33) (S.perm q : Int) = some (k : Int))
      (H.tiling.taskB_mono k hk) ⟨hm, fun q h1 h2 => by omega⟩ ?_ ?_ (by omega) (by omega)
    · rintro p _ m' h1 h2 ⟨h3, h4⟩
      rw [Int.add_zero]
      have hpm : p < S.m := by omega
      refine wp_rd _ (Or.inr (by simp [TgRdo])) (h3.perm p hpm) ?_
      have hr := H.tiling.perm.1 p hpm
      refine wp_wr1 ⟨rfl, S.perm p, ⟨p, ⟨hk, h1, h2⟩, rfl⟩, rfl⟩ ⟨by omega, ?_⟩ ⟨?_, ?_⟩
      · show (S.perm p : Int) < (S.m : Int); omega
      · refine h3.congr fun a i ha => ?_
        rw [Mem.set_other _ _ _ _ _ (by rintro rfl; simp [TgRdo, MatCell] at ha)]
      · intro q g1 g2
        by_cases hq : q = p
        · subst hq; rw [Mem.get_same]
        · rw [Mem.get_ne _ _ _ _ _ ?_]
          · exact h4 q g1 (by omega)
          · intro e
            exact hq (H.tiling.perm.2 q p (by omega) hpm (by omega))
    · rintro _ m' ⟨_, h4⟩ r ⟨p, ⟨_, g1, g2⟩, rfl⟩
      exact h4 p g1 g2
  · intro r m' h1 h2
    refine hQ r m' ?_ ?_
    · intro i hi
      obtain ⟨k, hk, hki⟩ := exists_rowIn H.tiling hi
      obtain ⟨mt, h3, h4⟩ := h1 k hk
      rw [h4 _ _ (Or.inl ⟨rfl, i, hki, rfl⟩), h3 i hki, origTask_spec H.tiling hki]
    · intro a i ha
      exact h2 a i (fun k _ hw => ha hw.1)

/-! ### Zeroing -/

theorem tg_zero {m : Mem (CTy R)} {T mm n : Nat} {Q : (Nat → Unit) → Mem (CTy R) → Prop}
    (hQ : ∀ r m', (∀ i : Nat, i < n → m' (.itmp 38) (i : Int) = some (0 : Int) ∧ m' (.itmp 40) (i : Int) = some (0 : Int)) →
      (∀ a i, a ≠ .itmp 38 → a ≠ .itmp 40 → a ≠ .itmp 43 → m' a i = m a i) → Q r m') :
    ParOk (tgSize sz T mm n nnz cR cF cB) n Q tgZero m := by
  let W : Nat → CArr → Int → Prop := fun k a i => (a = .itmp 38 ∨ a = .itmp 40 ∨ a = .itmp 43) ∧ i = k
  refine par_rule (W := W) (R := W)
    (Q := fun k _ m' => m' (.itmp 38) (k : Int) = some (0 : Int) ∧ m' (.itmp 40) (k : Int) = some (0 : Int)) ?_ ?_ ?_
  · rintro k l a i hk hl hne ⟨_, h1⟩ ⟨_, h2⟩; omega
  · intro k hk
    unfold tgZero
    have hsz : (0 : Int) ≤ (k : Int) ∧ (k : Int) < (n : Int) := by omega
    refine wp_wr ⟨by simp, rfl⟩ hsz ?_
    refine wp_wr ⟨by simp, rfl⟩ hsz ?_
    refine wp_wr1 ⟨by simp, rfl⟩ hsz ?_
    rw [Mem.get_same]
    refine ⟨rfl, ?_⟩
    rw [Mem.set_other _ _ _ _ _ (by simp), Mem.set_other _ _ _ _ _ (by simp), Mem.get_same]
  · intro r m' h1 h2
    refine hQ r m' ?_ ?_
    · intro i hi
      obtain ⟨mt, ⟨h3, h5⟩, h4⟩ := h1 i hi
      rw [h4 _ _ ⟨by simp, rfl⟩, h4 _ _ ⟨by simp, rfl⟩]; exact ⟨h3, h5⟩
    · intro a i g1 g2 g3
      exact h2 a i (fun k _ hw => by rcases hw.1 with h | h | h <;> contradiction)

/-- Writing zero to the cells of one array in parallel. -/
theorem tg_fill {m : Mem (CTy R)} {j n : Nat} {sz : CArr → Int} (hsz : (n : Int) ≤ sz (.itmp j)) {Q : (Nat → Unit) → Mem (CTy R) → Prop}
    (hQ : ∀ r m', (∀ i : Nat, i < n → m' (.itmp j) (i : Int) = some (0 : Int)) → (∀ a i, a ≠ .itmp j → m' a i = m a i) → Q r m') :
    ParOk sz n Q (fun i => Prog.write (ty := CTy R) (.itmp j) (i : Int) (0 : Int)) m := by
  let W : Nat → CArr → Int → Prop := fun k a i => a = .itmp j ∧ i = k
  refine par_rule (W := W) (R := W) (Q := fun k _ m' => m' (.itmp j) (k : Int) = some (0 : Int)) ?_ ?_ ?_
  · rintro k l a i hk hl hne ⟨_, h1⟩ ⟨_, h2⟩; omega
  · intro k hk
    exact wp_wr1 ⟨rfl, rfl⟩ ⟨by omega, by omega⟩ (Mem.get_same _ _ _ _)
  · intro r m' h1 h2
    refine hQ r m' ?_ ?_
    · intro i hi
      obtain ⟨mt, h3, h4⟩ := h1 i hi
      rw [h4 _ _ ⟨rfl, rfl⟩]; exact h3
    · intro a i g1
      exact h2 a i (fun k _ hw => g1 hw.1)

/-! ### Sizes of the tasks -/

/-- Entries right of the diagonals before task `v`. -/
def tgUU (S : Schedule) (dp ep : Nat → Nat) (v : Nat) : Nat := tgU S dp ep (S.taskB v)

/-- Room of the inverse lists before task `v`. -/
def tgWW (S : Schedule) (A : Csr R) (dp : Nat → Nat) (v : Nat) : Nat := tgW S A dp (S.taskB v)

theorem tgUU_mono (H : TgHyp S A dp ep tr) {v w : Nat} (h : v ≤ w) (hw : w ≤ S.ntasks) : tgUU S dp ep v ≤ tgUU S dp ep w :=
  cumul_mono _ (H.task_mono h hw)

theorem tgWW_mono (H : TgHyp S A dp ep tr) {v w : Nat} (h : v ≤ w) (hw : w ≤ S.ntasks) : tgWW S A dp v ≤ tgWW S A dp w :=
  cumul_mono _ (H.task_mono h hw)

theorem tgUU_zero (H : TgHyp S A dp ep tr) : tgUU S dp ep 0 = 0 := by unfold tgUU; rw [H.tiling.taskB_zero]; rfl

theorem tgWW_zero (H : TgHyp S A dp ep tr) : tgWW S A dp 0 = 0 := by unfold tgWW; rw [H.tiling.taskB_zero]; rfl

theorem tgUU_total (H : TgHyp S A dp ep tr) : tgUU S dp ep S.ntasks * 2 + A.m ≤ A.nnz := by
  unfold tgUU; rw [H.tiling.taskB_last]; exact (tgW_total H.tiling H.rows H.split H.inner H.sym H.wf H.nodup).2

theorem tgWW_total (H : TgHyp S A dp ep tr) : tgWW S A dp S.ntasks * 2 ≤ A.nnz + A.m := by
  unfold tgWW; rw [H.tiling.taskB_last]; exact (tgW_total H.tiling H.rows H.split H.inner H.sym H.wf H.nodup).1

theorem wp_tgRows (H : TgHyp S A dp ep tr) {W Rd : CArr → Int → Prop} {sz : CArr → Int} {m : Mem (CTy R)} (hm : TgIn S A dp ep base hasExt m)
    (hR : ∀ a i, TgRdo a → Rd a i) {v : Nat} (hv : v < S.ntasks) {Q : Int × Int → Mem (CTy R) → Prop}
    (hQ : Q ((tgUU S dp ep (v + 1) : Int) - tgUU S dp ep v, (tgWW S A dp (v + 1) : Int) - tgWW S A dp v) m) :
    wp sz W Rd (tgRows hasExt (v : Int)) m Q := by
  unfold tgRows
  refine wp_rd _ (hR _ _ (by simp [TgRdo])) (hm.task v (by omega)) ?_
  refine wp_rd _ (hR _ _ (by simp [TgRdo])) (by rw [show (v : Int) + 1 = ((v + 1 : Nat) : Int) by omega]; exact hm.task (v + 1) hv) ?_
  have hle := H.task_le (show v + 1 ≤ S.ntasks by omega)
  refine wp_forN (b := 0) (lo := S.taskB v) (hi := S.taskB (v + 1))
    (fun p s m' => m' = m ∧ s = ((tgU S dp ep p : Int) - tgU S dp ep (S.taskB v), (tgW S A dp p : Int) - tgW S A dp (S.taskB v)))
    (H.tiling.taskB_mono v hv) ⟨rfl, by simp⟩ ?_ ?_ (by omega) (by omega)
  · rintro p s m' h1 h2 ⟨rfl, rfl⟩
    rw [Int.add_zero]
    have hpm : p < S.m := by omega
    have hpl := H.perm_lt hpm
    refine wp_rd _ (hR _ _ (by simp [TgRdo])) (hm.perm p hpm) ?_
    rw [wp_bind]
    refine wp_extAt hm.mat (fun a i ha => hR a i (Or.inl ha)) hpl ?_
    refine wp_rd _ (hR _ _ (by simp [TgRdo, MatCell])) (hm.mat.diag _ hpl).2.2 ?_
    refine wp_rd _ (hR _ _ (by simp [TgRdo, MatCell])) (hm.mat.pat.rowptr _ (by omega)) ?_
    rw [wp_pure]
    refine ⟨rfl, ?_⟩
    have hb := H.split.bounds _ hpl
    have e1 : tgU S dp ep (p + 1) = tgU S dp ep p + (ep (S.perm p) - dp (S.perm p) - 1) := by
      show _ + (upPos dp ep (S.perm p)).length = _
      unfold upPos; rw [List.length_range']; rfl
    have e2 : tgW S A dp (p + 1) = tgW S A dp p + ((dp (S.perm p) - A.ptr (S.perm p)) + 1) := by
      show _ + ((loPos A dp (S.perm p)).length + 1) = _
      unfold loPos; rw [List.length_range']; rfl
    rw [e1, e2]
    refine Prod.ext ?_ ?_
    · show (tgU S dp ep p : Int) - tgU S dp ep (S.taskB v) + ((ep (S.perm p) : Int) + base - ((dp (S.perm p) : Int) + base) - 1) = _
      show _ = ((tgU S dp ep p + (ep (S.perm p) - dp (S.perm p) - 1) : Nat) : Int) - tgU S dp ep (S.taskB v)
      omega
    · show (tgW S A dp p : Int) - tgW S A dp (S.taskB v) + ((dp (S.perm p) : Int) + base - ((A.ptr (S.perm p) : Int) + base) + 1) = _
      show _ = ((tgW S A dp p + ((dp (S.perm p) - A.ptr (S.perm p)) + 1) : Nat) : Int) - tgW S A dp (S.taskB v)
      omega
  · rintro s m' ⟨rfl, rfl⟩
    exact hQ

/-- After counting, the sizes within the threads' ranges are known. -/
theorem tg_count (H : TgHyp S A dp ep tr) {m : Mem (CTy R)} (hm : TgIn S A dp ep base hasExt m) {Q : (Nat → Int × Int) → Mem (CTy R) → Prop}
    (hQ : ∀ r m', (∀ t, t < S.T → r t = ((tgUU S dp ep (rowCut S.T S.ntasks (t + 1)) : Int) - tgUU S dp ep (rowCut S.T S.ntasks t),
        (tgWW S A dp (rowCut S.T S.ntasks (t + 1)) : Int) - tgWW S A dp (rowCut S.T S.ntasks t))) →
      (∀ t v : Nat, t < S.T → rowCut S.T S.ntasks t ≤ v → v < rowCut S.T S.ntasks (t + 1) →
        m' (.itmp 34) (v : Int) = some ((tgUU S dp ep v : Int) - tgUU S dp ep (rowCut S.T S.ntasks t) : Int) ∧
        m' (.itmp 36) (v : Int) = some ((tgWW S A dp v : Int) - tgWW S A dp (rowCut S.T S.ntasks t) : Int) ∧
        m' (.itmp 39) (v : Int) = some ((tgUU S dp ep (v + 1) : Int) - tgUU S dp ep v : Int)) →
      (∀ a i, a ≠ .itmp 34 → a ≠ .itmp 36 → a ≠ .itmp 39 → m' a i = m a i) → Q r m') :
    ParOk (tgSize sz S.T S.m S.ntasks nnz cR cF cB) S.T Q (tgCount hasExt S.T S.ntasks) m := by
  have hcut := rowCut_cuts H.team S.ntasks
  generalize hc : rowCut S.T S.ntasks = cut at hcut hQ
  let W : Nat → CArr → Int → Prop := fun t a i => (a = .itmp 34 ∨ a = .itmp 36 ∨ a = .itmp 39) ∧ ∃ v : Nat, cut t ≤ v ∧ v < cut (t + 1) ∧ i = v
  refine par_rule (W := W) (R := fun t a i => W t a i ∨ TgRdo a)
    (Q := fun t r m' => r = ((tgUU S dp ep (cut (t + 1)) : Int) - tgUU S dp ep (cut t), (tgWW S A dp (cut (t + 1)) : Int) - tgWW S A dp (cut t)) ∧
      ∀ v : Nat, cut t ≤ v → v < cut (t + 1) → m' (.itmp 34) (v : Int) = some ((tgUU S dp ep v : Int) - tgUU S dp ep (cut t) : Int) ∧
        m' (.itmp 36) (v : Int) = some ((tgWW S A dp v : Int) - tgWW S A dp (cut t) : Int) ∧
        m' (.itmp 39) (v : Int) = some ((tgUU S dp ep (v + 1) : Int) - tgUU S dp ep v : Int)) ?_ ?_ ?_
  · rintro t u a i ht hu hne ⟨h1, v, h2, h3, rfl⟩ h4
    rcases h4 with ⟨_, w, h5, h6, h7⟩ | h4
    · have : v = w := by omega
      subst this
      exact hcut.disj ht hu hne ⟨h2, h3⟩ ⟨h5, h6⟩
    · rcases h1 with rfl | rfl | rfl <;> simp [TgRdo, MatCell] at h4
  · intro t ht
    unfold tgCount
    rw [rowCut_eq H.team, rowCut_end H.team, hc]
    have hle := hcut.le_n (show t + 1 ≤ S.T by omega)
    refine wp_forN (b := 0) (lo := cut t) (hi := cut (t + 1))
      (fun v s m' => TgIn S A dp ep base hasExt m' ∧
        s = ((tgUU S dp ep v : Int) - tgUU S dp ep (cut t), (tgWW S A dp v : Int) - tgWW S A dp (cut t)) ∧
        ∀ w : Nat, cut t ≤ w → w < v → m' (.itmp 34) (w : Int) = some ((tgUU S dp ep w : Int) - tgUU S dp ep (cut t) : Int) ∧
          m' (.itmp 36) (w : Int) = some ((tgWW S A dp w : Int) - tgWW S A dp (cut t) : Int) ∧
          m' (.itmp 39) (w : Int) = some ((tgUU S dp ep (w + 1) : Int) - tgUU S dp ep w : Int))
      (hcut.mono t ht) ⟨hm, by simp, fun w h1 h2 => by omega⟩ ?_ ?_ (by omega) (by omega)
    · rintro v s m' h1 h2 ⟨h3, rfl, h4⟩
      rw [Int.add_zero, wp_bind]
      refine wp_tgRows H h3 (fun a i ha => Or.inr ha) (by omega) ?_
      have hw : ∀ a : CArr, (a = .itmp 34 ∨ a = .itmp 36 ∨ a = .itmp 39) → W t a (v : Int) := fun a ha => ⟨ha, v, h1, h2, rfl⟩
      refine wp_wr (hw _ (by simp)) ⟨by omega, show (v : Int) < ((S.ntasks : Int) + 1) by omega⟩ ?_
      refine wp_wr (hw _ (by simp)) ⟨by omega, show (v : Int) < ((S.ntasks : Int) + 1) by omega⟩ ?_
      refine wp_wr (hw _ (by simp)) ⟨by omega, show (v : Int) < (S.ntasks : Int) by omega⟩ ?_
      rw [wp_pure]
      refine ⟨?_, ?_, ?_⟩
      · refine h3.congr fun a i ha => ?_
        rw [Mem.set_other _ _ _ _ _ (by rintro rfl; simp [TgRdo, MatCell] at ha), Mem.set_other _ _ _ _ _ (by rintro rfl; simp [TgRdo, MatCell] at ha),
          Mem.set_other _ _ _ _ _ (by rintro rfl; simp [TgRdo, MatCell] at ha)]
      · refine Prod.ext ?_ ?_
        · show (tgUU S dp ep v : Int) - tgUU S dp ep (cut t) + ((tgUU S dp ep (v + 1) : Int) - tgUU S dp ep v) = (tgUU S dp ep (v + 1) : Int) - tgUU S dp ep (cut t)
          omega
        · show (tgWW S A dp v : Int) - tgWW S A dp (cut t) + ((tgWW S A dp (v + 1) : Int) - tgWW S A dp v) = (tgWW S A dp (v + 1) : Int) - tgWW S A dp (cut t)
          omega
      · intro w g1 g2
        by_cases hvw : w = v
        · subst hvw
          refine ⟨?_, ?_, ?_⟩
          · rw [Mem.set_other _ _ _ _ _ (by simp), Mem.set_other _ _ _ _ _ (by simp), Mem.get_same]
          · rw [Mem.set_other _ _ _ _ _ (by simp), Mem.get_same]
          · rw [Mem.get_same]
        · have hne : (w : Int) ≠ (v : Int) := by omega
          obtain ⟨k1, k2, k3⟩ := h4 w g1 (by omega)
          refine ⟨?_, ?_, ?_⟩
          · rw [Mem.set_other _ _ _ _ _ (by simp), Mem.set_other _ _ _ _ _ (by simp), Mem.get_ne _ _ _ _ _ hne]; exact k1
          · rw [Mem.set_other _ _ _ _ _ (by simp), Mem.get_ne _ _ _ _ _ hne, Mem.set_other _ _ _ _ _ (by simp)]; exact k2
          · rw [Mem.get_ne _ _ _ _ _ hne, Mem.set_other _ _ _ _ _ (by simp), Mem.set_other _ _ _ _ _ (by simp)]; exact k3
    · rintro s m' ⟨_, rfl, h4⟩
      exact ⟨rfl, h4⟩
  · intro r m' h1 h2
    refine hQ r m' ?_ ?_ ?_
    · intro t ht
      obtain ⟨mt, h3, _⟩ := h1 t ht
      exact h3.1
    · intro t v ht g1 g2
      obtain ⟨mt, ⟨_, h3⟩, h4⟩ := h1 t ht
      have hw : ∀ a : CArr, (a = .itmp 34 ∨ a = .itmp 36 ∨ a = .itmp 39) → W t a (v : Int) := fun a ha => ⟨ha, v, g1, g2, rfl⟩
      rw [h4 _ _ (Or.inl (hw _ (by simp))), h4 _ _ (Or.inl (hw _ (by simp))), h4 _ _ (Or.inl (hw _ (by simp)))]
      exact h3 v g1 g2
    · intro a i g1 g2 g3
      exact h2 a i (fun k _ hw => by rcases hw.1 with h | h | h <;> contradiction)

/-! ### Load balance -/

/-- What `tgCut` finds, before 1 is subtracted: `p` tasks have work at most `x` before them. -/
structure TgPos (T : Nat) (B F : Nat → Nat) (x : Int) (p : Nat) : Prop where
  le : p ≤ B (T - 1)
  lo : ∀ v, v < p → (F v : Int) ≤ x
  hi : ∀ v, p ≤ v → v < B (T - 1) → x < (F v : Int)

theorem wp_tgCut {W Rd : CArr → Int → Prop} {sz : CArr → Int} {m : Mem (CTy R)} {T n : Nat} {s Bi off : Nat → Int} {B F : Nat → Nat} {per : Int}
    (hB : TgCuts T n B) (hF : ∀ a b, a ≤ b → b ≤ n → F a ≤ F b) (hF0 : F 0 = 0)
    (hs : ∀ t, t < T → s t = F (B t)) (hBi : ∀ t, t ≤ T → Bi t = B t) (hper : 0 ≤ per)
    (hrd : ∀ t v : Nat, t < T → B t ≤ v → v < B (t + 1) → Rd (.itmp 34) (v : Int) ∧ m (.itmp 34) (v : Int) = some ((F v : Int) + off t : Int))
    {tid : Nat} (htid : tid < T) {Q : Int → Mem (CTy R) → Prop}
    (hQ1 : tid + 1 = T → Q (n : Int) m)
    (hQ2 : tid + 1 < T → ∀ p : Nat, TgPos T B F (per * ((tid : Int) + 1)) p → Q ((p - 1 : Nat) : Int) m) :
    wp sz W Rd (tgCut T n s Bi off per tid) m Q := by
  unfold tgCut
  by_cases hl : tid + 1 = T
  · rw [if_pos hl, wp_pure]; exact hQ1 hl
  · rw [if_neg hl, wp_bind]
    have hx : 0 ≤ per * ((tid : Int) + 1) := by
      refine Int.mul_nonneg hper (by omega)
    generalize per * ((tid : Int) + 1) = x at hx hQ2
    rw [show (T : Int) - 1 = ((T - 2 : Nat) : Int) + 1 by omega]
    refine wp_upperBoundT (F := s) ?_ ?_
    · intro a b h1 h2
      rw [hs a (by omega), hs b (by omega)]
      have := hF (B a) (B b) (hB.le h1 (by omega)) (hB.le_n (by omega))
      omega
    · intro b hb1 hb2 hb3
      have hbpos : 0 < b := by
        rcases Nat.eq_zero_or_pos b with rfl | h
        · have := hb3 0 (by omega) (by omega)
          rw [hs 0 (by omega), hB.zero, hF0] at this; omega
        · exact h
      have he : ((b : Int) - 1).toNat = b - 1 := by omega
      show wp sz W Rd (upperBound (fun j => Prog.read (ty := CTy R) (.itmp 34) j) (Bi ((b : Int) - 1).toNat) (Bi (((b : Int) - 1).toNat + 1))
        (x + off ((b : Int) - 1).toNat) >>= _) m Q
      rw [he, show b - 1 + 1 = b by omega, hBi _ (by omega), hBi _ (by omega), wp_bind]
      have hsb := hb2 (b - 1) (by omega)
      rw [hs _ (by omega)] at hsb
      have hmono := hB.mono (b - 1) (by omega)
      rw [show b - 1 + 1 = b by omega] at hmono
      unfold upperBound
      refine wp_lowerBound (f := fun i => (F i.toNat : Int) + off (b - 1)) (by omega) ?_ ?_ ?_
      · intro i h1 h2 Q hQ
        obtain ⟨i, rfl⟩ := Int.eq_ofNat_of_zero_le (show 0 ≤ i by omega)
        obtain ⟨g1, g2⟩ := hrd (b - 1) i (by omega) (by omega) (by rw [show b - 1 + 1 = b by omega]; omega)
        rw [wp_read]
        refine ⟨g1, _, g2, ?_⟩
        exact hQ
      · intro i j h1 h2 h3
        have := hF i.toNat j.toNat (by omega) (by have := hB.le_n (show b ≤ T by omega); omega)
        show (F i.toNat : Int) + _ ≤ (F j.toNat : Int) + _
        omega
      · intro p h1 h2 h3 h4
        obtain ⟨p, rfl⟩ := Int.eq_ofNat_of_zero_le (show 0 ≤ p by omega)
        rw [wp_pure]
        have hlast : B b ≤ B (T - 1) := hB.le (by omega) (by omega)
        have := hQ2 (by omega) p ⟨by omega, ?_, ?_⟩
        · rw [show max 0 ((p : Int) - 1) = ((p - 1 : Nat) : Int) by omega]; exact this
        · intro v hv
          by_cases hvb : v < B (b - 1)
          · have := hF v (B (b - 1)) (by omega) (hB.le_n (by omega)); omega
          · have := h3 (v : Int) (by omega) (by omega)
            rw [show ((v : Int)).toNat = v by omega] at this; omega
        · intro v hv1 hv2
          by_cases hvb : v < B b
          · have := h4 (v : Int) (by omega) (by omega)
            rw [show ((v : Int)).toNat = v by omega] at this; omega
          · have hbT : b ≤ T - 2 := by
              by_contra hc
              have : b = T - 1 := by omega
              subst this; omega
            have h5 := hb3 b (by omega) hbT
            rw [hs b (by omega)] at h5
            have := hF (B b) v (by omega) (by have := hB.le_n (show T - 1 ≤ T by omega); omega)
            omega

theorem TgPos.mono {T : Nat} {B F : Nat → Nat} {x x' : Int} {p p' : Nat} (h : TgPos T B F x p) (h' : TgPos T B F x' p') (hx : x ≤ x') : p ≤ p' := by
  by_contra hc
  have h1 := h.lo p' (by omega)
  have h2 := h'.hi p' (Nat.le_refl _) (by have := h.le; omega)
  omega

/-- The boundaries computed by a team are cuts. -/
theorem tgBounds_cuts {T n : Nat} {B F : Nat → Nat} {per : Int} (hB : TgCuts T n B) (hT : 0 < T) (hper : 0 ≤ per) {r : Nat → Int}
    (h1 : r (T - 1) = n) (h2 : ∀ t, t + 1 < T → ∃ p : Nat, TgPos T B F (per * ((t : Int) + 1)) p ∧ r t = ((p - 1 : Nat) : Int)) :
    ∃ vb, TgCuts T n vb ∧ ∀ t, t ≤ T → tgBounds r t = vb t := by
  refine ⟨fun t => (tgBounds r t).toNat, ⟨rfl, ?_, ?_⟩, ?_⟩
  · intro t ht
    show (tgBounds r t).toNat ≤ (tgBounds r (t + 1)).toNat
    unfold tgBounds
    rw [if_neg (by omega : ¬ t + 1 = 0), Nat.add_sub_cancel]
    split
    · omega
    · rename_i h0
      obtain ⟨p, hp, e⟩ := h2 (t - 1) (by omega)
      have hpn := hB.le_n (show T - 1 ≤ T by omega)
      have := hp.le
      by_cases hl : t = T - 1
      · rw [hl] at e ⊢; rw [e, h1]; omega
      · obtain ⟨p', hp', e'⟩ := h2 t (by omega)
        have := hp.mono hp' (by
          rw [show ((t - 1 : Nat) : Int) + 1 = t by omega]
          exact Int.mul_le_mul_of_nonneg_left (by omega) hper)
        rw [e, e']; omega
  · show (tgBounds r T).toNat = n
    unfold tgBounds
    rw [if_neg (by omega), h1]; omega
  · intro t ht
    show tgBounds r t = ((tgBounds r t).toNat : Int)
    unfold tgBounds
    split
    · omega
    · rename_i h0
      by_cases hl : t = T
      · subst hl; rw [h1]; omega
      · obtain ⟨p, _, e⟩ := h2 (t - 1) (by omega)
        rw [e]; omega

/-- The starts of the inverse lists become absolute, and the first cuts are found. -/
theorem tg_shift (H : TgHyp S A dp ep tr) {m : Mem (CTy R)} {sO sI : Nat → Int} (hnnz : (S.m : Int) ≤ nnz)
    (hsO : ∀ t, t < S.T → sO t = tgUU S dp ep (rowCut S.T S.ntasks t)) (hsI : ∀ t, t < S.T → sI t = tgWW S A dp (rowCut S.T S.ntasks t))
    (hm : ∀ t v : Nat, t < S.T → rowCut S.T S.ntasks t ≤ v → v < rowCut S.T S.ntasks (t + 1) →
        m (.itmp 34) (v : Int) = some ((tgUU S dp ep v : Int) - tgUU S dp ep (rowCut S.T S.ntasks t) : Int) ∧
        m (.itmp 36) (v : Int) = some ((tgWW S A dp v : Int) - tgWW S A dp (rowCut S.T S.ntasks t) : Int))
    {Q : (Nat → Int) → Mem (CTy R) → Prop}
    (hQ : ∀ r m' vb, TgCuts S.T S.ntasks vb → (∀ t, t ≤ S.T → tgBounds r t = vb t) →
      (∀ v : Nat, v < S.ntasks → m' (.itmp 36) (v : Int) = some (tgWW S A dp v : Int)) →
      (∀ a i, a ≠ .itmp 36 → m' a i = m a i) → Q r m') :
    ParOk (tgSize sz S.T S.m S.ntasks nnz cR cF cB) S.T Q (tgShift S.T S.m S.ntasks nnz sO sI) m := by
  have hcut := rowCut_cuts H.team S.ntasks
  have hBi : ∀ t : Nat, simpleBegin S.T t S.ntasks = (rowCut S.T S.ntasks t : Int) := fun t => rowCut_eq H.team _ _
  have hEn : ∀ t : Nat, simpleEnd S.T t S.ntasks = (rowCut S.T S.ntasks (t + 1) : Int) := fun t => rowCut_end H.team _ _
  have hT := H.team
  generalize hc : rowCut S.T S.ntasks = cut at hcut hQ hm hsO hsI hBi hEn
  have hper : 0 ≤ ((nnz - S.m) / 2 + S.T - 1) / (S.T : Int) := Int.ediv_nonneg (by omega) (by omega)
  generalize hp : ((nnz - S.m) / 2 + S.T - 1) / (S.T : Int) = per at hper
  let W : Nat → CArr → Int → Prop := fun t a i => a = .itmp 36 ∧ ∃ v : Nat, cut t ≤ v ∧ v < cut (t + 1) ∧ i = v
  refine par_rule (W := W) (R := fun t a i => W t a i ∨ a = .itmp 34)
    (Q := fun t r m' => ((t + 1 = S.T → r = S.ntasks) ∧ (t + 1 < S.T → ∃ p : Nat, TgPos S.T cut (tgUU S dp ep) (per * ((t : Int) + 1)) p ∧ r = ((p - 1 : Nat) : Int))) ∧
      ∀ v : Nat, cut t ≤ v → v < cut (t + 1) → m' (.itmp 36) (v : Int) = some (tgWW S A dp v : Int)) ?_ ?_ ?_
  · rintro t u a i ht hu hne ⟨h1, v, h2, h3, rfl⟩ h4
    rcases h4 with ⟨_, w, h5, h6, h7⟩ | h4
    · have : v = w := by omega
      subst this
      exact hcut.disj ht hu hne ⟨h2, h3⟩ ⟨h5, h6⟩
    · rw [h1] at h4; simp at h4
  · intro t ht
    unfold tgShift
    rw [hBi t, hEn t, wp_bind]
    have hle := hcut.le_n (show t + 1 ≤ S.T by omega)
    refine wp_forN (b := 0) (lo := cut t) (hi := cut (t + 1))
      (fun v _ m' => (∀ a i, a ≠ .itmp 36 → m' a i = m a i) ∧ (∀ w : Nat, v ≤ w → m' (.itmp 36) (w : Int) = m (.itmp 36) (w : Int)) ∧
        ∀ w : Nat, cut t ≤ w → w < v → m' (.itmp 36) (w : Int) = some (tgWW S A dp w : Int))
      (hcut.mono t ht) ⟨fun _ _ _ => rfl, fun _ _ => rfl, fun w h1 h2 => by omega⟩ ?_ ?_ (by omega) (by omega)
    · rintro v _ m' h1 h2 ⟨h3, h4, h5⟩
      rw [Int.add_zero]
      have hw : W t (.itmp 36) (v : Int) := ⟨rfl, v, h1, h2, rfl⟩
      refine wp_rd _ (Or.inl hw) ((h4 v (Nat.le_refl _)).trans (hm t v ht h1 h2).2) ?_
      refine wp_wr1 hw ⟨by omega, show (v : Int) < ((S.ntasks : Int) + 1) by omega⟩ ⟨?_, ?_, ?_⟩
      · intro a i ha
        rw [Mem.set_other _ _ _ _ _ ha]; exact h3 a i ha
      · intro w hwv
        rw [Mem.get_ne _ _ _ _ _ (by omega)]; exact h4 w (by omega)
      · intro w g1 g2
        by_cases hvw : w = v
        · subst hvw
          rw [Mem.get_same, hsI t ht]
          show some (((tgWW S A dp w : Int) - tgWW S A dp (cut t)) + tgWW S A dp (cut t) : Int) = some (tgWW S A dp w : Int)
          rw [Int.sub_add_cancel]
        · rw [Mem.get_ne _ _ _ _ _ (by omega)]; exact h5 w g1 (by omega)
    · rintro _ m' ⟨h3, _, h5⟩
      rw [hp]
      refine wp_tgCut (B := cut) (F := tgUU S dp ep) hcut (fun a b h1 h2 => tgUU_mono H h1 h2) (tgUU_zero H) hsO (fun t _ => hBi t) hper ?_ ht ?_ ?_
      · intro u v hu g1 g2
        refine ⟨Or.inr rfl, ?_⟩
        rw [h3 _ _ (by simp), (hm u v hu g1 g2).1, hsO u hu]
        rfl
      · intro hl
        exact ⟨⟨fun _ => rfl, fun h => by omega⟩, h5⟩
      · intro hl p hpp
        exact ⟨⟨fun h => by omega, fun _ => ⟨p, hpp, rfl⟩⟩, h5⟩
  · intro r m' h1 h2
    obtain ⟨vb, hv1, hv2⟩ := tgBounds_cuts (r := r) (per := per) (F := tgUU S dp ep) hcut hT hper
      (by obtain ⟨mt, h3, _⟩ := h1 (S.T - 1) (by omega); exact h3.1.1 (by omega))
      (by intro t ht; obtain ⟨mt, h3, _⟩ := h1 t (by omega); exact h3.1.2 ht)
    refine hQ r m' vb hv1 hv2 ?_ ?_
    · intro v hv
      obtain ⟨t, ht, g1, g2⟩ := hcut.find hv
      obtain ⟨mt, ⟨_, h3⟩, h4⟩ := h1 t ht
      rw [h4 _ _ (Or.inl ⟨rfl, v, g1, g2, rfl⟩)]
      exact h3 v g1 g2
    · intro a i g1
      exact h2 a i (fun k _ hw => g1 hw.1)

/-- The threads' sums and maxima. -/
theorem tg_sum {m : Mem (CTy R)} {T n : Nat} {vb F : Nat → Nat} {vi : Nat → Int} {chk : Bool} {sz : CArr → Int} (hv : TgCuts T n vb)
    (hvi : ∀ t, t ≤ T → vi t = vb t)
    (hm : ∀ v : Nat, v < n → m (.itmp 39) (v : Int) = some ((F (v + 1) : Int) - F v : Int)) {Q : (Nat → Int × Int) → Mem (CTy R) → Prop}
    (hQ : ∀ r, (∀ t, t < T → (r t).1 = (F (vb (t + 1)) : Int) - F (vb t) ∧ 0 ≤ (r t).2 ∧ ∀ v, vb t ≤ v → v < vb (t + 1) → (F (v + 1) : Int) - F v ≤ (r t).2) → Q r m) :
    ParOk sz T Q (fun tid => tgSum n chk (vi tid) (vi (tid + 1))) m := by
  refine par_rule (W := fun _ _ _ => False) (R := fun _ _ _ => True)
    (Q := fun t r m' => m' = m ∧ r.1 = (F (vb (t + 1)) : Int) - F (vb t) ∧ 0 ≤ r.2 ∧ ∀ v, vb t ≤ v → v < vb (t + 1) → (F (v + 1) : Int) - F v ≤ r.2) ?_ ?_ ?_
  · rintro t u a i _ _ _ h; exact h.elim
  · intro t ht
    unfold tgSum
    rw [hvi t (by omega), hvi (t + 1) (by omega)]
    have hle := hv.le_n (show t + 1 ≤ T by omega)
    refine wp_forN (b := 0) (lo := vb t) (hi := vb (t + 1))
      (fun v s m' => m' = m ∧ s.1 = (F v : Int) - F (vb t) ∧ 0 ≤ s.2 ∧ ∀ w, vb t ≤ w → w < v → (F (w + 1) : Int) - F w ≤ s.2)
      (hv.mono t ht) ⟨rfl, by simp, by simp, fun w h1 h2 => by omega⟩ ?_ ?_ (by omega) (by omega)
    · rintro v s m' h1 h2 ⟨rfl, h3, h5, h4⟩
      rw [Int.add_zero]
      have hrest : wp sz (fun _ _ => False) (fun _ _ => True) (do
          let z ← Prog.read (ty := CTy R) (.itmp 39) (v : Int)
          pure (s.1 + (z : Int), max s.2 (z : Int)) : Prog (CTy R) (Int × Int)) m'
          (fun s m => m = m' ∧ s.1 = (F (v + 1) : Int) - F (vb t) ∧ 0 ≤ s.2 ∧ ∀ w, vb t ≤ w → w < v + 1 → (F (w + 1) : Int) - F w ≤ s.2) := by
        refine wp_rd _ trivial (hm v (by omega)) ?_
        rw [wp_pure]
        refine ⟨rfl, ?_, ?_, ?_⟩
        · show s.1 + ((F (v + 1) : Int) - F v) = _
          omega
        · show 0 ≤ max s.2 ((F (v + 1) : Int) - F v); omega
        · intro w g1 g2
          show (F (w + 1) : Int) - F w ≤ max s.2 ((F (v + 1) : Int) - F v)
          by_cases hwv : w = v
          · subst hwv; omega
          · have := h4 w g1 (by omega); omega
      cases chk with
      | true =>
        show wp _ _ _ (Prog.assert _ >>= _) _ _
        rw [wp_bind, wp_assert]
        exact ⟨by omega, hrest⟩
      | false =>
        show wp _ _ _ (pure () >>= _) _ _
        rw [wp_bind, wp_pure]
        exact hrest
    · rintro s m' h; exact h
  · intro r m' h1 h2
    have : m' = m := by
      funext a i; exact h2 a i (fun t _ h => h)
    subst this
    refine hQ r ?_
    intro t ht
    obtain ⟨mt, h3, _⟩ := h1 t ht
    exact h3.2

end

end SpMP
