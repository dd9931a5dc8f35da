import Verif.TgPhase
/-
The phase of constructTaskGraph_ that builds the adjacency lists and appends to the inverse lists.
-/

namespace SpMP
open Spec

variable {R : Type}

theorem threadB_cuts {S : Schedule} (hS : S.Tiling) : TgCuts S.T S.ntasks S.threadB := ⟨hS.threadB_zero, hS.threadB_mono, hS.threadB_last⟩

theorem threadOf_eq {S : Schedule} (hS : S.Tiling) {t v : Nat} (ht : t < S.T) (h : S.threadB t ≤ v ∧ v < S.threadB (t + 1)) : threadOf S v = t := by
  have hv : v < S.ntasks := by
    have := (threadB_cuts hS).le_n (show t + 1 ≤ S.T by omega); omega
  obtain ⟨h1, h2⟩ := exists_thread hS hv
  by_contra hne
  exact (threadB_cuts hS).disj h1 ht hne h2 h

section Tasks
variable {S : Schedule} {E : BkEnv R} {σ : Type}

/-- The search for the thread of a task. -/
theorem wp_findThread (hS : S.Tiling) {W Rd : CArr → Int → Prop} {sz : CArr → Int} {m : Mem (CTy R)} (hR : ∀ i, Rd (.itmp 31) i)
    (hm : ∀ u : Nat, u ≤ S.T → m (.itmp 31) (u : Int) = some (S.threadB u : Int)) {v : Nat} {Q : Int → Mem (CTy R) → Prop}
    (hQ : ∀ p : Nat, p ≤ S.T → S.threadB p ≤ v → (∀ u, p < u → u ≤ S.T → v < S.threadB u) → Q ((p : Int) + 1) m) :
    wp sz W Rd (upperBound (fun t => Prog.read (ty := CTy R) (.itmp 31) t) 0 ((S.T : Int) + 1) (v : Int)) m Q := by
  unfold upperBound
  refine wp_lowerBound (f := fun i => (S.threadB i.toNat : Int)) (by omega) ?_ ?_ ?_
  · intro i h1 h2 Q hQ
    obtain ⟨i, rfl⟩ := Int.eq_ofNat_of_zero_le h1
    rw [wp_read]
    exact ⟨hR _, _, hm i (by omega), hQ⟩
  · intro i j h1 h2 h3
    have := (threadB_cuts hS).le (show i.toNat ≤ j.toNat by omega) (by omega)
    show (S.threadB i.toNat : Int) ≤ (S.threadB j.toNat : Int)
    omega
  · intro p h1 h2 h3 h4
    obtain ⟨p, rfl⟩ := Int.eq_ofNat_of_zero_le h1
    have hp : 0 < p := by
      rcases Nat.eq_zero_or_pos p with rfl | h
      · have := h4 0 (by omega) (by omega)
        rw [show ((0 : Int)).toNat = 0 from rfl, hS.threadB_zero] at this; omega
      · exact h
    have := hQ (p - 1) (by omega) ?_ ?_
    · rwa [show ((p - 1 : Nat) : Int) + 1 = (p : Int) by omega] at this
    · have := h3 ((p - 1 : Nat) : Int) (by omega) (by omega)
      rw [Int.toNat_natCast] at this; omega
    · intro u hu1 hu2
      have := h4 (u : Int) (by omega) (by omega)
      rw [Int.toNat_natCast] at this; omega

/-- The loops over the tasks of `[vb, ve)`. -/
theorem BkEnv.LB_tasks (hE : E.Ok) {t : Nat} (ht : t < E.T) (hS : S.Tiling) (hT : 0 < S.T) {vb ve : Nat} (h1 : vb ≤ ve) (h2 : ve ≤ S.ntasks)
    (hc : ∀ i, E.Const (.itmp 31) i) (I : Nat → σ → Mem (CTy R) → List (Nat × Nat) → Prop)
    (hI : ∀ v s m1 L, I v s m1 L → ∀ u : Nat, u ≤ S.T → m1 (.itmp 31) (u : Int) = some (S.threadB u : Int))
    {s : σ} {m1 : Mem (CTy R)} {L : List (Nat × Nat)} {body : Int → Int → Int → σ → Prog (CTy R) σ} (h0 : I vb s m1 L)
    (hstep : ∀ v s m1 L, vb ≤ v → v < ve → I v s m1 L →
      E.LB t (body (v : Int) (S.threadB (threadOf S v) : Int) (S.threadB (threadOf S v + 1) : Int) s) m1 L (fun s' m' L' => I (v + 1) s' m' L'))
    {Q : σ → Mem (CTy R) → List (Nat × Nat) → Prop} (hQ : ∀ s m L, I ve s m L → Q s m L) :
    E.LB t (tgTasks S.T (vb : Int) (ve : Int) s body) m1 L Q := by
  have hcut := threadB_cuts hS
  unfold tgTasks
  refine BkEnv.LB_seq hE ht (wp_findThread hS (fun i => Or.inr (hc i)) (hI _ _ _ _ h0) ?_)
  intro p1 hp1 hp2 hp3
  refine BkEnv.LB_seq hE ht (wp_findThread hS (fun i => Or.inr (hc i)) (hI _ _ _ _ h0) ?_)
  intro p2 hq1 hq2 hq3
  have hp12 : p1 ≤ p2 := by
    by_contra hcn
    have := hq3 p1 (by omega) hp1; omega
  rw [Int.add_sub_cancel, Int.add_sub_cancel]
  refine BkEnv.LB_forUp hE ht (fun i s m L => ∃ u : Nat, i = u ∧ p1 ≤ u ∧ u ≤ S.T ∧ I (max vb (min (S.threadB u) ve)) s m L) ?_ ?_ ?_
  · refine ⟨p1, rfl, Nat.le_refl _, hp1, ?_⟩
    rw [show max vb (min (S.threadB p1) ve) = vb by omega]; exact h0
  · rintro i s m L g1 g2 ⟨u, rfl, g3, g4, hinv⟩
    have hu : u < S.T := by omega
    have hu2 : u ≤ p2 := by omega
    have hlo := hcut.le hu2 hq1
    have hlh := hcut.mono u hu
    have hv2 : vb < S.threadB (u + 1) := hp3 (u + 1) (by omega) (by omega)
    refine BkEnv.LB_rd hE ht _ (Or.inr (hc _)) (hI _ _ _ _ hinv u (by omega)) ?_
    refine BkEnv.LB_rd hE ht _ (Or.inr (hc _)) (by rw [show (u : Int) + 1 = ((u + 1 : Nat) : Int) by omega]; exact hI _ _ _ _ hinv (u + 1) (by omega)) ?_
    refine BkEnv.LB_forUp hE ht (fun i s m L => ∃ v : Nat, i = v ∧ I v s m L) ?_ ?_ ?_
    · refine ⟨max (S.threadB u) vb, by omega, ?_⟩
      rw [show max vb (min (S.threadB u) ve) = max (S.threadB u) vb by omega] at hinv; exact hinv
    · rintro i s m L k1 k2 ⟨v, rfl, hinv⟩
      have hth : threadOf S v = u := threadOf_eq hS hu ⟨by omega, by omega⟩
      have := hstep v s m L (by omega) (by omega) hinv
      rw [hth] at this
      refine BkEnv.LB_mono this ?_
      intro s' m' L' hh
      exact ⟨v + 1, by omega, hh⟩
    · rintro s m L ⟨v, hv, hinv⟩
      refine ⟨u + 1, by omega, by omega, by omega, ?_⟩
      have : v = max vb (min (S.threadB (u + 1)) ve) := by omega
      rw [← this]; exact hinv
  · rintro s m L ⟨u, hu, hu1, hu2, hinv⟩
    refine hQ s m L ?_
    have : ve ≤ S.threadB u := by
      by_cases h : p2 = S.T
      · have : u = S.T := by omega
        rw [this, hS.threadB_last]; exact h2
      · have := hq3 u (by omega) hu2; omega
    rw [show max vb (min (S.threadB u) ve) = ve by omega] at hinv; exact hinv

end Tasks

section
variable {S : Schedule} {A : Csr R} {dp ep : Nat → Nat} {base : Nat} {hasExt tr : Bool} {sz : CArr → Int}

/-! ### The list of a task -/

/-- The tasks of other threads right of the diagonal of row `i`. -/
def rowRaw (S : Schedule) (A : Csr R) (dp : Nat → Nat) (v i e : Nat) : List Nat :=
  ((List.range' (dp i + 1) (e - (dp i + 1))).map fun j => origTask S (A.col j)).filter fun x =>
    decide (x < S.threadB (threadOf S v)) || decide (S.threadB (threadOf S v + 1) ≤ x)

theorem adjRaw_eq (S : Schedule) (A : Csr R) (dp ep : Nat → Nat) (v : Nat) : adjRaw S A dp ep v =
    (List.range' (S.taskB v) (S.taskB (v + 1) - S.taskB v)).flatMap fun p => rowRaw S A dp v (S.perm p) (ep (S.perm p)) := rfl

theorem rowRaw_succ {v i e : Nat} (h : dp i + 1 ≤ e) : rowRaw S A dp v i (e + 1) = rowRaw S A dp v i e ++
    (if origTask S (A.col e) < S.threadB (threadOf S v) ∨ S.threadB (threadOf S v + 1) ≤ origTask S (A.col e) then [origTask S (A.col e)] else []) := by
  unfold rowRaw
  rw [show e + 1 - (dp i + 1) = (e - (dp i + 1)) + 1 by omega, List.range'_concat, List.map_append, List.filter_append]
  congr 1
  rw [show dp i + 1 + 1 * (e - (dp i + 1)) = e by omega]
  simp only [List.map_cons, List.map_nil, List.filter_cons, List.filter_nil]
  by_cases h1 : origTask S (A.col e) < S.threadB (threadOf S v)
  · simp [h1]
  · by_cases h2 : S.threadB (threadOf S v + 1) ≤ origTask S (A.col e)
    · simp [h2]
    · simp [h1, h2]

theorem rowRaw_length {v i e : Nat} : (rowRaw S A dp v i e).length ≤ e - (dp i + 1) := by
  unfold rowRaw
  refine Nat.le_trans (List.length_filter_le _ _) ?_
  simp

theorem wp_tgRaw (H : TgHyp S A dp ep tr) {W Rd : CArr → Int → Prop} {m : Mem (CTy R)} (hm : TgIn S A dp ep base hasExt m)
    (ho : ∀ i : Nat, i < S.m → m (.itmp 33) (i : Int) = some (origTask S i : Int))
    (hR : ∀ a i, TgRdo a ∨ a = .itmp 33 → Rd a i) {v : Nat} (hv : v < S.ntasks) {cap : Int} (hcap : (tgUU S dp ep (v + 1) : Int) - tgUU S dp ep v ≤ cap)
    {Q : List Int → Mem (CTy R) → Prop} (hQ : Q ((adjRaw S A dp ep v).map Nat.cast) m) :
    wp sz W Rd (tgRaw hasExt base cap (S.threadB (threadOf S v) : Int) (S.threadB (threadOf S v + 1) : Int) (v : Int)) m Q := by
  have hR1 : ∀ a i, TgRdo a → Rd a i := fun a i h => hR a i (Or.inl h)
  unfold tgRaw
  refine wp_rd _ (hR1 _ _ (by simp [TgRdo])) (hm.task v (by omega)) ?_
  refine wp_rd _ (hR1 _ _ (by simp [TgRdo])) (by rw [show (v : Int) + 1 = ((v + 1 : Nat) : Int) by omega]; exact hm.task (v + 1) hv) ?_
  have hle := H.task_le (show v + 1 ≤ S.ntasks by omega)
  have htm := H.tiling.taskB_mono v hv
  refine wp_forN (b := 0) (lo := S.taskB v) (hi := S.taskB (v + 1))
    (fun p l m' => m' = m ∧ l = ((List.range' (S.taskB v) (p - S.taskB v)).flatMap fun p => rowRaw S A dp v (S.perm p) (ep (S.perm p))).map Nat.cast ∧
      (l.length : Int) ≤ (tgU S dp ep p : Int) - tgU S dp ep (S.taskB v))
    htm ⟨rfl, by simp, by simp⟩ ?_ ?_ (by omega) (by omega)
  · rintro p l m' h1 h2 ⟨rfl, hl, hlen⟩
    rw [Int.add_zero]
    have hpm : p < S.m := by omega
    have hpl := H.perm_lt hpm
    have hb := H.split.bounds _ hpl
    refine wp_rd _ (hR1 _ _ (by simp [TgRdo])) (hm.perm p hpm) ?_
    refine wp_rd _ (hR1 _ _ (by simp [TgRdo, MatCell])) (hm.mat.diag _ hpl).2.2 ?_
    rw [wp_bind]
    refine wp_extAt hm.mat (fun a i ha => hR1 a i (Or.inl ha)) hpl ?_
    have hup : tgU S dp ep (p + 1) = tgU S dp ep p + (ep (S.perm p) - dp (S.perm p) - 1) := by
      show _ + (upPos dp ep (S.perm p)).length = _
      unfold upPos; rw [List.length_range']; rfl
    have hle2 : tgU S dp ep (p + 1) ≤ tgUU S dp ep (v + 1) := cumul_mono _ (by omega)
    generalize hi : S.perm p = i at hpl hb hup
    have hcapU : tgUU S dp ep v = tgU S dp ep (S.taskB v) := rfl
    refine wp_forN (b := 0) (lo := dp i + 1) (hi := ep i)
      (fun j l' m'' => m'' = m' ∧ l' = l ++ (rowRaw S A dp v i j).map Nat.cast ∧ l'.length ≤ l.length + (j - (dp i + 1)))
      (by omega) ⟨rfl, by simp [rowRaw], by simp⟩ ?_ ?_ ?_ ?_
    · rintro j l' m'' g1 g2 ⟨rfl, rfl, hl2⟩
      rw [Int.add_zero]
      have hnz : j < A.nnz := by
        have := H.wf.ptr_le_nnz (show i + 1 ≤ A.m by omega); omega
      refine wp_rd _ (hR1 _ _ (by simp [TgRdo, MatCell])) (hm.mat.pat.colidx j hnz) ?_
      have hcl := H.inner i j hpl (by omega) g2
      rw [← H.rows] at hcl
      refine wp_rd (origTask S (A.col j) : Int) (hR _ _ (Or.inr rfl)) ?_ ?_
      · rw [show ((A.col j : Int) + base - base) = (A.col j : Int) by omega]; exact ho _ hcl
      · rw [rowRaw_succ (by omega)]
        by_cases hcnd : origTask S (A.col j) < S.threadB (threadOf S v) ∨ S.threadB (threadOf S v + 1) ≤ origTask S (A.col j)
        · have hci : ((origTask S (A.col j) : Int) < (S.threadB (threadOf S v) : Int) ∨ (S.threadB (threadOf S v + 1) : Int) ≤ (origTask S (A.col j) : Int)) := by omega
          rw [if_pos hci, if_pos hcnd, wp_bind, wp_assert]
          refine ⟨by omega, ?_⟩
          rw [wp_pure]
          refine ⟨rfl, by simp, ?_⟩
          rw [List.length_append]; show _ + 1 ≤ _; omega
        · have hci : ¬ ((origTask S (A.col j) : Int) < (S.threadB (threadOf S v) : Int) ∨ (S.threadB (threadOf S v + 1) : Int) ≤ (origTask S (A.col j) : Int)) := by omega
          rw [if_neg hci, if_neg hcnd, wp_pure]
          refine ⟨rfl, by simp, by omega⟩
    · rintro l' m'' ⟨rfl, hl', hl2⟩
      refine ⟨rfl, ?_, ?_⟩
      · rw [hl', hl, show p + 1 - S.taskB v = (p - S.taskB v) + 1 by omega, List.range'_concat, List.flatMap_append, List.map_append]
        congr 1
        rw [List.flatMap_singleton, show S.taskB v + 1 * (p - S.taskB v) = p by omega, hi]
      · rw [hup]; omega
    · show (dp i : Int) + base + 1 - base = _
      push_cast; omega
    · show (ep i : Int) + base - base = _
      omega
  · rintro l m' ⟨rfl, rfl, _⟩
    rw [← adjRaw_eq]; exact hQ

/-! ### The team -/

/-- Length of the adjacency lists before task `v`. -/
def tgLp (S : Schedule) (A : Csr R) (dp ep : Nat → Nat) : Nat → Nat := cumul fun v => (taskAdj S A dp ep v).length

theorem tgLp_zero : tgLp S A dp ep 0 = 0 := rfl

theorem tgLp_succ (v : Nat) : tgLp S A dp ep (v + 1) = tgLp S A dp ep v + (taskAdj S A dp ep v).length := rfl

theorem tgLp_le (H : TgHyp S A dp ep tr) {a b : Nat} (h : a ≤ b) (hb : b ≤ S.ntasks) :
    tgLp S A dp ep b + tgUU S dp ep a ≤ tgLp S A dp ep a + tgUU S dp ep b := by
  induction b with
  | zero => have : a = 0 := by omega
            subst this; omega
  | succ b ih =>
    rcases Nat.lt_or_ge a (b + 1) with h1 | h1
    · have := ih (by omega) (by omega)
      have h2 := taskAdj_length S A dp ep b
      have h3 := adjRaw_length H.tiling A dp ep (show b < S.ntasks by omega)
      rw [tgLp_succ]
      unfold tgUU at *
      omega
    · have : a = b + 1 := by omega
      subst this; omega

/-- The team that builds the lists. -/
def tgEnv (S : Schedule) (A : Csr R) (dp ep : Nat → Nat) (tr : Bool) (sz : CArr → Int) (vb : Nat → Nat) (m0 : Mem (CTy R)) : BkEnv R where
  sz := sz
  T := S.T
  jc := 38
  js := 37
  M := S.ntasks
  slots := true
  Sl := tgWW S A dp
  items t := (List.range' (vb t) (vb (t + 1) - vb t)).flatMap (tgEv S A dp ep tr)
  m0 := m0
  Own t a i := ((a = .itmp 34 ∨ a = .itmp 39) ∧ ∃ v : Nat, vb t ≤ v ∧ v < vb (t + 1) ∧ i = v) ∨
    (a = .itmp 35 ∧ (tgUU S dp ep (vb t) : Int) ≤ i ∧ i < (tgUU S dp ep (vb (t + 1)) : Int))
  Const a _ := TgRdo a ∨ a = .itmp 33 ∨ a = .itmp 36

theorem bkN_eq {T : Nat} {items : Nat → List (Nat × Nat)} (c : Nat) : bkN T items c = (appended ((List.range T).flatMap items) c).length := by
  unfold bkN appended
  rw [List.length_map, List.countP_eq_length_filter]

theorem tgEnv_items {vb : Nat → Nat} (hv : TgCuts S.T S.ntasks vb) {m0 : Mem (CTy R)} :
    (List.range S.T).flatMap (tgEnv S A dp ep tr sz vb m0).items = allInvEvents S A dp ep tr := by
  rw [← tgEv_all]
  exact flatMap_cuts hv.zero hv.mono hv.last

theorem TgHyp.row (H : TgHyp S A dp ep tr) : ∀ i, i < S.m → ∃ k, S.RowIn k i := fun i hi => by
  obtain ⟨k, _, h⟩ := exists_rowIn H.tiling hi; exact ⟨k, h⟩

theorem TgHyp.col (H : TgHyp S A dp ep tr) : ∀ i p, i < S.m → dp i < p → p < ep i → A.col p < S.m := by rw [H.rows]; exact H.inner

theorem allInv_lt (H : TgHyp S A dp ep tr) {e : Nat × Nat} (he : e ∈ allInvEvents S A dp ep tr) : e.1 < S.ntasks := by
  obtain ⟨b, a⟩ := e
  obtain ⟨_, h | ⟨h, _, hs⟩⟩ := (mem_allInvEvents H.tiling H.row H.col).1 he
  · obtain ⟨_, i, p, _, _, _, h4⟩ := h
    exact (rowIn_lt H.tiling h4).2
  · show b < _
    rw [h]; exact (sameThread_lt H.tiling hs).2

theorem tg_room (H : TgHyp S A dp ep tr) {c : Nat} (hc : c < S.ntasks) :
    (appended (allInvEvents S A dp ep tr) c).length + tgWW S A dp c ≤ tgWW S A dp (c + 1) :=
  inv_room H.tiling H.rows H.split H.inner H.sym H.wf hc (fun h => H.full h c hc)

theorem tgEnv_ok (H : TgHyp S A dp ep tr) {vb : Nat → Nat} (hv : TgCuts S.T S.ntasks vb) {m0 : Mem (CTy R)} {nnz cR cF cB : Int} (hnnz : nnz = A.nnz)
    (h0 : ∀ i : Nat, i < S.ntasks → m0 (.itmp 38) (i : Int) = some (0 : Int)) :
    (tgEnv S A dp ep tr (tgSize sz S.T S.m S.ntasks nnz cR cF cB) vb m0).Ok where
  disj := by
    rintro t u a i ht hu hne h1 h2
    rcases h1 with ⟨h1, v, g1, g2, rfl⟩ | ⟨rfl, g1, g2⟩
    · rcases h2 with ⟨_, w, k1, k2, k3⟩ | ⟨h2, _⟩
      · have : v = w := by omega
        subst this
        exact hv.disj ht hu hne ⟨g1, g2⟩ ⟨k1, k2⟩
      · rw [h2] at h1; simp at h1
    · rcases h2 with ⟨h2, _⟩ | ⟨_, k1, k2⟩
      · simp at h2
      · rcases Nat.lt_or_gt_of_ne hne with g | g
        · have := tgUU_mono H (hv.le (show t + 1 ≤ u by omega) (Nat.le_of_lt hu)) (hv.le_n (Nat.le_of_lt hu)); omega
        · have := tgUU_mono H (hv.le (show u + 1 ≤ t by omega) (Nat.le_of_lt ht)) (hv.le_n (Nat.le_of_lt ht)); omega
  own_ctr := by
    rintro t a i _ h1 ⟨h2, _⟩
    rw [show a = CArr.itmp 38 from h2] at h1
    simp [tgEnv] at h1
  own_slot := by
    rintro t a i _ h1 ⟨_, h2, _⟩
    rw [show a = CArr.itmp 37 from h2] at h1
    simp [tgEnv] at h1
  con_own := by
    rintro t a i _ h1 h2
    rcases h2 with ⟨rfl | rfl, _⟩ | ⟨rfl, _⟩ <;> simp [tgEnv, TgRdo, MatCell] at h1
  con_ctr := by
    rintro a i h1 ⟨h2, _⟩
    rw [show a = CArr.itmp 38 from h2] at h1
    simp [tgEnv, TgRdo, MatCell] at h1
  con_slot := by
    rintro a i h1 ⟨_, h2, _⟩
    rw [show a = CArr.itmp 37 from h2] at h1
    simp [tgEnv, TgRdo, MatCell] at h1
  ne := by intro _; show (38 : Nat) ≠ 37; omega
  dis := by
    intro _ c c' s s' hc hc' hs hs' he
    rw [bkN_eq] at hs hs'
    have e1 : (List.range (tgEnv S A dp ep tr (tgSize sz S.T S.m S.ntasks nnz cR cF cB) vb m0).T).flatMap
      (tgEnv S A dp ep tr (tgSize sz S.T S.m S.ntasks nnz cR cF cB) vb m0).items = allInvEvents S A dp ep tr := tgEnv_items hv
    rw [e1] at hs hs'
    have he : tgWW S A dp c + 0 + s = tgWW S A dp c' + 0 + s' := he
    have hc : c < S.ntasks := hc
    have hc' : c' < S.ntasks := hc'
    have r1 := tg_room H hc
    have r2 := tg_room H hc'
    by_contra hne
    rcases Nat.lt_or_gt_of_ne hne with g | g
    · have := tgWW_mono H (show c + 1 ≤ c' by omega) (Nat.le_of_lt hc'); omega
    · have := tgWW_mono H (show c' + 1 ≤ c by omega) (Nat.le_of_lt hc); omega
  inM := by
    intro t ht x hx
    refine allInv_lt H ?_
    rw [← tgEnv_items (sz := tgSize sz S.T S.m S.ntasks nnz cR cF cB) (m0 := m0) hv]
    exact List.mem_flatMap.2 ⟨t, List.mem_range.2 ht, hx⟩
  room := by
    intro _ c s hc hs
    rw [bkN_eq] at hs
    have e1 : (List.range (tgEnv S A dp ep tr (tgSize sz S.T S.m S.ntasks nnz cR cF cB) vb m0).T).flatMap
      (tgEnv S A dp ep tr (tgSize sz S.T S.m S.ntasks nnz cR cF cB) vb m0).items = allInvEvents S A dp ep tr := tgEnv_items hv
    rw [e1] at hs
    have hc : c < S.ntasks := hc
    have r1 := tg_room H hc
    have r2 := tgWW_mono H (show c + 1 ≤ S.ntasks by omega) (Nat.le_refl _)
    have r3 := tgWW_total H
    have hm := H.rows
    show (tgWW S A dp c : Int) + s < (nnz - (S.m : Int)) / 2 + S.m + S.ntasks
    omega
  ctrsz := Int.le_refl _
  zero := h0

/-- Storing the list and appending the reverse edges. -/
theorem LB_tgEmit (H : TgHyp S A dp ep tr) {vb : Nat → Nat} {m0 : Mem (CTy R)} {t v : Nat} {at_ : Int}
    (hE : (tgEnv S A dp ep tr sz vb m0).Ok) (ht : t < S.T) (h36 : ∀ c : Nat, c < S.ntasks → m0 (.itmp 36) (c : Int) = some (tgWW S A dp c : Int))
    {bnd : Int} (hb : bnd = sz (.itmp 37)) : ∀ (vs : List Nat) (old : Option Nat) (oldI : Int) (l : Nat) (intra : Bool) (m1 : Mem (CTy R)) (L : List (Nat × Nat)),
    (old = none ∧ oldI = -1 ∨ ∃ o : Nat, old = some o ∧ oldI = o) →
    L ++ invEvents tr v intra (skipRep old vs) <+: (tgEnv S A dp ep tr sz vb m0).items t →
    (∀ a i, (tgEnv S A dp ep tr sz vb m0).Const a i → m1 a i = m0 a i) →
    (∀ k : Nat, k < (skipRep old vs).length → (tgEnv S A dp ep tr sz vb m0).Own t (.itmp 35) (at_ + l + k) ∧ 0 ≤ at_ + l + k ∧ at_ + l + k < sz (.itmp 35)) →
    ∀ {Q : Int → Mem (CTy R) → List (Nat × Nat) → Prop},
    (∀ m1', HoldsQ m1' 35 (at_ + l) (skipRep old vs) →
      (∀ a i, ¬ (a = .itmp 35 ∧ at_ + l ≤ i ∧ i < at_ + l + (skipRep old vs).length) → m1' a i = m1 a i) →
      Q ((l : Int) + (skipRep old vs).length) m1' (L ++ invEvents tr v intra (skipRep old vs))) →
    (tgEnv S A dp ep tr sz vb m0).LB t (tgEmit tr bnd at_ (v : Int) (vs.map Nat.cast) oldI (l : Int) intra) m1 L Q := by
  have happ : ∀ (c : Nat) (chk : Bool) (m1 : Mem (CTy R)) (L : List (Nat × Nat)), L ++ [(c, v)] <+: (tgEnv S A dp ep tr sz vb m0).items t →
      (∀ a i, (tgEnv S A dp ep tr sz vb m0).Const a i → m1 a i = m0 a i) → ∀ {Q : Unit → Mem (CTy R) → List (Nat × Nat) → Prop},
      Q () m1 (L ++ [(c, v)]) → (tgEnv S A dp ep tr sz vb m0).LB t (bkAppend 38 36 37 chk bnd (c : Int) (v : Int)) m1 L Q := by
    intro c chk m1 L hpre hcon Q h
    have hc : c < S.ntasks := hE.inM t ht (c, v) (hpre.subset (by simp))
    have hcn : (tgEnv S A dp ep tr sz vb m0).Const (.itmp 36) (c : Int) := Or.inr (Or.inr rfl)
    exact BkEnv.LB_append (E := tgEnv S A dp ep tr sz vb m0) hE ht rfl hpre (fun _ => hb) hcn (by rw [hcon _ _ hcn]; exact h36 c hc) h
  intro vs
  induction vs with
  | nil =>
    intro old oldI l intra m1 L hold hpre hcon hown Q hQ
    have hskip : skipRep old [] = [] := by unfold skipRep; rfl
    rw [hskip] at hpre hQ
    have hQ' : Q (l : Int) m1 (L ++ invEvents tr v intra []) := by
      have := hQ m1 (fun x s hx => by simp at hx) (fun _ _ _ => rfl)
      simpa using this
    show (tgEnv S A dp ep tr sz vb m0).LB t (tgEmit tr bnd at_ (v : Int) [] oldI (l : Int) intra) m1 L Q
    unfold tgEmit
    unfold invEvents at hQ' hpre
    by_cases hc : (!intra && tr) = true
    · rw [if_pos hc] at hQ' hpre ⊢
      refine BkEnv.LB_bind ?_
      rw [show (v : Int) + 1 = ((v + 1 : Nat) : Int) by omega]
      refine happ (v + 1) true m1 L hpre hcon ?_
      exact BkEnv.LB_pure hE ht hQ'
    · rw [if_neg hc] at hQ' hpre ⊢
      refine BkEnv.LB_bind (BkEnv.LB_pure hE ht ?_)
      rw [List.append_nil] at hQ'
      exact BkEnv.LB_pure hE ht hQ'
  | cons v2 vs ih =>
    intro old oldI l intra m1 L hold hpre hcon hown Q hQ
    show (tgEnv S A dp ep tr sz vb m0).LB t (tgEmit tr bnd at_ (v : Int) ((v2 : Int) :: vs.map Nat.cast) oldI (l : Int) intra) m1 L Q
    unfold tgEmit
    by_cases heq : old = some v2
    · have hsk : skipRep old (v2 :: vs) = skipRep old vs := by rw [skipRep, if_pos heq]
      rw [hsk] at hpre hown hQ
      have : (v2 : Int) = oldI := by
        rcases hold with ⟨h, _⟩ | ⟨o, h1, h2⟩
        · rw [h] at heq; simp at heq
        · rw [heq] at h1; injection h1 with h1; omega
      rw [if_pos this]
      exact ih old oldI l intra m1 L hold hpre hcon hown hQ
    · have hsk : skipRep old (v2 :: vs) = v2 :: skipRep (some v2) vs := by rw [skipRep, if_neg heq]
      rw [hsk] at hpre hown hQ
      have : ¬ (v2 : Int) = oldI := by
        rcases hold with ⟨_, h⟩ | ⟨o, h1, h2⟩
        · omega
        · intro e; apply heq; rw [h1]; congr 1; omega
      rw [if_neg this]
      obtain ⟨o1, o2, o3⟩ := hown 0 (by simp)
      rw [show at_ + (l : Int) + ((0 : Nat) : Int) = at_ + l by omega] at o1 o2 o3
      refine BkEnv.LB_wr hE ht o1 ⟨o2, o3⟩ ?_
      generalize hm2 : m1.set (.itmp 35) (at_ + (l : Int)) (v2 : Int) = m2
      have hcon2 : ∀ a i, (tgEnv S A dp ep tr sz vb m0).Const a i → m2 a i = m0 a i := by
        intro a i ha
        rw [← hm2, Mem.set_other _ _ _ _ _ ?_]
        · exact hcon a i ha
        · rintro rfl; simp [tgEnv, TgRdo, MatCell] at ha
      -- the rest, after the first append
      have hrest : ∀ L', L' ++ (v2, v) :: invEvents tr v (intra || (tr && decide (v + 1 ≤ v2))) (skipRep (some v2) vs) =
          L ++ invEvents tr v intra (v2 :: skipRep (some v2) vs) →
          (tgEnv S A dp ep tr sz vb m0).LB t (bkAppend 38 36 37 true bnd (v2 : Int) (v : Int) >>= fun _ =>
            tgEmit tr bnd at_ (v : Int) (vs.map Nat.cast) (v2 : Int) ((l : Int) + 1) (intra || (tr && decide ((v : Int) + 1 ≤ (v2 : Int))))) m2 L' Q := by
        intro L' hL'
        refine BkEnv.LB_bind ?_
        have hL2 : (L' ++ [(v2, v)]) ++ invEvents tr v (intra || (tr && decide (v + 1 ≤ v2))) (skipRep (some v2) vs) =
            L ++ invEvents tr v intra (v2 :: skipRep (some v2) vs) := by rw [← hL']; simp
        refine happ v2 true m2 L' ?_ hcon2 ?_
        · refine List.IsPrefix.trans ?_ hpre
          rw [← hL2]; exact List.prefix_append _ _
        · have hdec : decide ((v : Int) + 1 ≤ (v2 : Int)) = decide (v + 1 ≤ v2) := by
            rw [decide_eq_decide]; omega
          rw [hdec, show (l : Int) + 1 = ((l + 1 : Nat) : Int) by omega]
          refine ih (some v2) (v2 : Int) (l + 1) _ m2 (L' ++ [(v2, v)]) (Or.inr ⟨v2, rfl, rfl⟩) (by rw [hL2]; exact hpre) hcon2 ?_ ?_
          · intro k hk
            have := hown (k + 1) (by simp; omega)
            rw [show at_ + (l : Int) + ((k + 1 : Nat) : Int) = at_ + ((l + 1 : Nat) : Int) + k by push_cast; omega] at this
            exact this
          · intro m1' hq hf
            rw [hL2]
            have := hQ m1' ?_ ?_
            · rw [show ((l + 1 : Nat) : Int) + ((skipRep (some v2) vs).length : Int) = (l : Int) + ((v2 :: skipRep (some v2) vs).length : Int) by
                rw [List.length_cons]; push_cast; omega]
              exact this
            · intro x s hx
              cases x with
              | zero =>
                rw [hf _ _ (by rintro ⟨_, h, _⟩; omega), ← hm2, show at_ + (l : Int) + ((0 : Nat) : Int) = at_ + l by omega, Mem.get_same]
                simp at hx; rw [hx]
              | succ x =>
                have := hq x s (by simpa using hx)
                rw [← this]
                congr 1
                push_cast; omega
            · intro a i hne
              rw [hf a i (by rintro ⟨h1, h2, h3⟩; exact hne ⟨h1, by omega, by rw [List.length_cons]; push_cast at h3 ⊢; omega⟩), ← hm2]
              rcases Mem.set_cases m1 (.itmp 35) (at_ + (l : Int)) (v2 : Int) a i with ⟨rfl, rfl⟩ | h
              · exact absurd ⟨rfl, Int.le_refl _, by rw [List.length_cons]; push_cast; omega⟩ hne
              · exact h
      by_cases hcnd : (!intra && tr && decide (v + 1 < v2)) = true
      · have hcI : (!intra && tr && decide ((v : Int) + 1 < (v2 : Int))) = true := by
          simp only [Bool.and_eq_true, decide_eq_true_eq] at hcnd ⊢
          exact ⟨hcnd.1, by omega⟩
        rw [if_pos hcI]
        have hev : L ++ invEvents tr v intra (v2 :: skipRep (some v2) vs) =
            (L ++ [(v + 1, v)]) ++ (v2, v) :: invEvents tr v (intra || (tr && decide (v + 1 ≤ v2))) (skipRep (some v2) vs) := by
          simp only [Bool.and_eq_true, decide_eq_true_eq] at hcnd
          have : (!intra && tr && decide (v + 1 ≤ v2)) = true := by
            simp only [Bool.and_eq_true, decide_eq_true_eq]; exact ⟨hcnd.1, by omega⟩
          rw [invEvents, if_pos this, if_pos hcnd.2]; simp
        refine BkEnv.LB_bind ?_
        rw [show (v : Int) + 1 = ((v + 1 : Nat) : Int) by omega]
        refine happ (v + 1) false m2 L ?_ hcon2 ?_
        · refine List.IsPrefix.trans ?_ hpre
          rw [hev]; exact List.prefix_append _ _
        · have := hrest (L ++ [(v + 1, v)]) hev.symm
          exact this
      · have hcI : ¬ (!intra && tr && decide ((v : Int) + 1 < (v2 : Int))) = true := by
          intro h
          apply hcnd
          simp only [Bool.and_eq_true, decide_eq_true_eq] at h ⊢
          exact ⟨h.1, by omega⟩
        rw [if_neg hcI]
        have hev : L ++ invEvents tr v intra (v2 :: skipRep (some v2) vs) =
            L ++ (v2, v) :: invEvents tr v (intra || (tr && decide (v + 1 ≤ v2))) (skipRep (some v2) vs) := by
          rw [invEvents]
          by_cases h2 : (!intra && tr && decide (v + 1 ≤ v2)) = true
          · rw [if_pos h2, if_neg ?_, List.nil_append]
            intro h3
            apply hcnd
            simp only [Bool.and_eq_true, decide_eq_true_eq] at h2 ⊢
            exact ⟨h2.1, h3⟩
          · rw [if_neg h2, List.nil_append]
        refine BkEnv.LB_bind (BkEnv.LB_pure hE ht ?_)
        exact hrest L hev.symm

/-- Where the adjacency list of task `w` starts when `b` is the first task of the thread that built it. -/
def tgAt (S : Schedule) (A : Csr R) (dp ep : Nat → Nat) (b w : Nat) : Int := (tgUU S dp ep b : Int) + tgLp S A dp ep w - tgLp S A dp ep b

/-- The adjacency list of task `w` is in memory. -/
structure TgAdjAt (S : Schedule) (A : Csr R) (dp ep : Nat → Nat) (b w : Nat) (m : Mem (CTy R)) : Prop where
  ptr : m (.itmp 34) (w : Int) = some (tgAt S A dp ep b w : Int)
  len : m (.itmp 39) (w : Int) = some ((taskAdj S A dp ep w).length : Int)
  adj : HoldsQ m 35 (tgAt S A dp ep b w) (taskAdj S A dp ep w)

theorem insertionSort_cast (l : List Nat) : (l.map (Nat.cast : Nat → Int)).insertionSort (· ≤ ·) = (l.insertionSort (· ≤ ·)).map Nat.cast := by
  refine (List.map_insertionSort (· ≤ ·) (· ≤ ·) Nat.cast l ?_).symm
  intro a _ b _
  omega

theorem tgAt_range (H : TgHyp S A dp ep tr) {b w e : Nat} (h1 : b ≤ w) (h2 : w < e) (h3 : e ≤ S.ntasks) :
    (tgUU S dp ep b : Int) ≤ tgAt S A dp ep b w ∧ tgAt S A dp ep b w + (taskAdj S A dp ep w).length ≤ tgUU S dp ep e := by
  have q1 := tgLp_le H (show b ≤ w + 1 by omega) (by omega)
  have q2 : tgLp S A dp ep b ≤ tgLp S A dp ep w := cumul_mono _ h1
  have q3 := tgUU_mono H (show w + 1 ≤ e by omega) h3
  rw [tgLp_succ] at q1
  unfold tgAt
  omega

/-- One thread. -/
theorem LB_tgBuild (H : TgHyp S A dp ep tr) {vb : Nat → Nat} (hv : TgCuts S.T S.ntasks vb) {m0 : Mem (CTy R)} {nnz cR cF cB : Int} (hnnz : nnz = A.nnz)
    (hm : TgIn S A dp ep base hasExt m0) (h33 : ∀ i : Nat, i < S.m → m0 (.itmp 33) (i : Int) = some (origTask S i : Int))
    (h36 : ∀ c : Nat, c < S.ntasks → m0 (.itmp 36) (c : Int) = some (tgWW S A dp c : Int))
    (h38 : ∀ i : Nat, i < S.ntasks → m0 (.itmp 38) (i : Int) = some (0 : Int))
    {t : Nat} (ht : t < S.T) {cap : Int} (hcap : ∀ v, vb t ≤ v → v < vb (t + 1) → (tgUU S dp ep (v + 1) : Int) - tgUU S dp ep v ≤ cap)
    {vi ve start : Int} (hvi : vi = vb t) (hve : ve = vb (t + 1)) (hst : start = tgUU S dp ep (vb t)) :
    (tgEnv S A dp ep tr (tgSize sz S.T S.m S.ntasks nnz cR cF cB) vb m0).LB t
      (tgBuild hasExt tr base S.T S.m S.ntasks nnz vi ve start cap) m0 []
      (fun a m1 L => L = (tgEnv S A dp ep tr (tgSize sz S.T S.m S.ntasks nnz cR cF cB) vb m0).items t ∧
        a = (tgLp S A dp ep (vb (t + 1)) : Int) - tgLp S A dp ep (vb t) ∧ ∀ w, vb t ≤ w → w < vb (t + 1) → TgAdjAt S A dp ep (vb t) w m1) := by
  subst hvi hve hst
  have hE := tgEnv_ok (sz := sz) (cR := cR) (cF := cF) (cB := cB) H hv hnnz h38
  have hle := hv.le_n (show t + 1 ≤ S.T by omega)
  generalize hsz : tgSize sz S.T S.m S.ntasks nnz cR cF cB = Z at hE
  have hsz34 : Z (.itmp 34) = (S.ntasks : Int) + 1 := by rw [← hsz]; rfl
  have hsz39 : Z (.itmp 39) = (S.ntasks : Int) := by rw [← hsz]; rfl
  have hsz35 : Z (.itmp 35) = (nnz - S.m) / 2 + S.m := by rw [← hsz]; rfl
  have hsz37 : Z (.itmp 37) = (nnz - S.m) / 2 + S.m + S.ntasks := by rw [← hsz]; rfl
  unfold tgBuild
  refine BkEnv.LB_tasks hE ht H.tiling H.team (hv.mono t ht) hle (fun _ => Or.inl (by simp [TgRdo]))
    (fun v cnt m1 L => cnt = (tgLp S A dp ep v : Int) - tgLp S A dp ep (vb t) ∧ L = (List.range' (vb t) (v - vb t)).flatMap (tgEv S A dp ep tr) ∧
      (∀ a i, (tgEnv S A dp ep tr Z vb m0).Const a i → m1 a i = m0 a i) ∧ ∀ w, vb t ≤ w → w < v → TgAdjAt S A dp ep (vb t) w m1) ?_ ?_ ?_ ?_
  · rintro v cnt m1 L ⟨_, _, h, _⟩ u hu
    rw [h _ _ (Or.inl (by simp [TgRdo]))]; exact hm.thread u hu
  · exact ⟨by simp, by simp, fun _ _ _ => rfl, fun w h1 h2 => by omega⟩
  · rintro v cnt m1 L h1 h2 ⟨rfl, rfl, hcon, hdone⟩
    have hin1 : TgIn S A dp ep base hasExt m1 := hm.congr fun a i ha => hcon a i (Or.inl ha)
    refine BkEnv.LB_seq hE ht ?_
    refine wp_tgRaw H hin1 (fun i hi => by rw [hcon _ _ (Or.inr (Or.inl rfl))]; exact h33 i hi)
      (fun a i ha => Or.inr (ha.elim Or.inl (fun h => Or.inr (Or.inl h)))) (by omega) (hcap v h1 h2) ?_
    have hat : (tgUU S dp ep (vb t) : Int) + ((tgLp S A dp ep v : Int) - tgLp S A dp ep (vb t)) = tgAt S A dp ep (vb t) v := by unfold tgAt; omega
    have o34 : (tgEnv S A dp ep tr Z vb m0).Own t (.itmp 34) (v : Int) := Or.inl ⟨Or.inl rfl, v, h1, h2, rfl⟩
    have o39 : (tgEnv S A dp ep tr Z vb m0).Own t (.itmp 39) (v : Int) := Or.inl ⟨Or.inr rfl, v, h1, h2, rfl⟩
    rw [hat, insertionSort_cast]
    refine BkEnv.LB_wr hE ht o34 ⟨by omega, by show _ < Z _; rw [hsz34]; omega⟩ ?_
    refine BkEnv.LB_bind ?_
    have hth := (exists_thread H.tiling (show v < S.ntasks by omega)).2
    have hdec : decide ((v : Int) = (S.threadB (threadOf S v + 1) : Int) - 1) = decide (v = S.threadB (threadOf S v + 1) - 1) := by
      rw [decide_eq_decide]; omega
    rw [hdec]
    obtain ⟨a1, a2⟩ := tgAt_range H h1 h2 hle
    have hUn := tgUU_mono H hle (Nat.le_refl _)
    have hUt := tgUU_total H
    have hrows := H.rows
    refine LB_tgEmit H hE ht h36 hsz37.symm _ none (-1) 0 _ _ _ (Or.inl ⟨rfl, rfl⟩) ?_ ?_ ?_ ?_
    · have hpre : (List.range' (vb t) (v - vb t)).flatMap (tgEv S A dp ep tr) ++ tgEv S A dp ep tr v <+:
          (List.range' (vb t) (vb (t + 1) - vb t)).flatMap (tgEv S A dp ep tr) := by
        have e : List.range' (vb t) (vb (t + 1) - vb t) = List.range' (vb t) (v - vb t) ++ v :: List.range' (v + 1) (vb (t + 1) - (v + 1)) := by
          have e2 : v :: List.range' (v + 1) (vb (t + 1) - (v + 1)) = List.range' v (vb (t + 1) - v) := by
            rw [show vb (t + 1) - v = (vb (t + 1) - (v + 1)) + 1 by omega, List.range'_succ]
          have := List.range'_append_1 (s := vb t) (m := v - vb t) (n := vb (t + 1) - v)
          rw [e2, show vb (t + 1) - vb t = (v - vb t) + (vb (t + 1) - v) by omega, ← this, show vb t + (v - vb t) = v by omega]
        rw [e, List.flatMap_append, List.flatMap_cons, ← List.append_assoc]
        exact List.prefix_append _ _
      exact hpre
    · intro a i ha
      rw [Mem.set_other _ _ _ _ _ ?_]
      · exact hcon a i ha
      · rintro rfl; simp [tgEnv, TgRdo, MatCell] at ha
    · intro k hk
      have hk : k < (taskAdj S A dp ep v).length := hk
      have hR : (tgUU S dp ep (vb t) : Int) ≤ tgAt S A dp ep (vb t) v + ((0 : Nat) : Int) + (k : Int) ∧
          tgAt S A dp ep (vb t) v + ((0 : Nat) : Int) + (k : Int) < (tgUU S dp ep (vb (t + 1)) : Int) := by
        constructor
        · omega
        · omega
      refine ⟨Or.inr ⟨rfl, hR.1, hR.2⟩, by omega, ?_⟩
      show _ < Z _
      rw [hsz35]
      omega
    · intro m2 hq hf
      have hq : HoldsQ m2 35 (tgAt S A dp ep (vb t) v + ((0 : Nat) : Int)) (taskAdj S A dp ep v) := hq
      have hf : ∀ a i, ¬ (a = .itmp 35 ∧ tgAt S A dp ep (vb t) v + ((0 : Nat) : Int) ≤ i ∧ i < tgAt S A dp ep (vb t) v + ((0 : Nat) : Int) + (taskAdj S A dp ep v).length) →
          m2 a i = (m1.set (.itmp 34) (v : Int) (tgAt S A dp ep (vb t) v)) a i := hf
      show (tgEnv S A dp ep tr Z vb m0).LB t (Prog.write (ty := CTy R) (.itmp 39) (v : Int) (((0 : Nat) : Int) + ((taskAdj S A dp ep v).length : Int)) >>= fun _ => _) m2 _ _
      refine BkEnv.LB_wr hE ht o39 ⟨by omega, by show _ < Z _; rw [hsz39]; omega⟩ ?_
      refine BkEnv.LB_pure hE ht ⟨?_, ?_, ?_, ?_⟩
      · show (tgLp S A dp ep v : Int) - tgLp S A dp ep (vb t) + (((0 : Nat) : Int) + ((taskAdj S A dp ep v).length : Int)) = ((tgLp S A dp ep v + (taskAdj S A dp ep v).length : Nat) : Int) - tgLp S A dp ep (vb t)
        push_cast; omega
      · show (List.range' (vb t) (v - vb t)).flatMap (tgEv S A dp ep tr) ++ tgEv S A dp ep tr v = _
        rw [show v + 1 - vb t = (v - vb t) + 1 by omega, List.range'_concat, List.flatMap_append, List.flatMap_singleton,
          show vb t + 1 * (v - vb t) = v by omega]
      · intro a i ha
        rw [Mem.set_other _ _ _ _ _ (by rintro rfl; simp [tgEnv, TgRdo, MatCell] at ha), hf a i (by rintro ⟨rfl, _⟩; simp [tgEnv, TgRdo, MatCell] at ha),
          Mem.set_other _ _ _ _ _ (by rintro rfl; simp [tgEnv, TgRdo, MatCell] at ha)]
        exact hcon a i ha
      · intro w g1 g2
        by_cases hwv : w = v
        · subst hwv
          refine ⟨?_, ?_, ?_⟩
          · rw [Mem.set_other _ _ _ _ _ (by simp), hf _ _ (by simp), Mem.get_same]
          · rw [Mem.get_same]
            show some (((0 : Nat) : Int) + ((taskAdj S A dp ep w).length : Int) : Int) = _
            rw [Int.ofNat_zero, Int.zero_add]
          · intro x s hx
            rw [Mem.set_other _ _ _ _ _ (by simp)]
            have := hq x s hx
            rwa [show tgAt S A dp ep (vb t) w + ((0 : Nat) : Int) + (x : Int) = tgAt S A dp ep (vb t) w + x by omega] at this
        · have hd := hdone w g1 (by omega)
          refine ⟨?_, ?_, ?_⟩
          · rw [Mem.set_other _ _ _ _ _ (by simp), hf _ _ (by simp), Mem.get_ne _ _ _ _ _ (by omega)]; exact hd.ptr
          · rw [Mem.get_ne _ _ _ _ _ (by omega), hf _ _ (by simp), Mem.set_other _ _ _ _ _ (by simp)]; exact hd.len
          · intro x s hx
            have hxl : x < (taskAdj S A dp ep w).length := by
              by_contra hc
              rw [List.getElem?_eq_none (by omega)] at hx; simp at hx
            have hmono : tgLp S A dp ep (w + 1) ≤ tgLp S A dp ep v := cumul_mono _ (by omega)
            rw [tgLp_succ] at hmono
            rw [Mem.set_other _ _ _ _ _ (by simp), hf _ _ ?_, Mem.set_other _ _ _ _ _ (by simp)]
            · exact hd.adj x s hx
            · rintro ⟨_, q, _⟩
              unfold tgAt at q
              omega
  · rintro a m1 L ⟨rfl, rfl, _, hdone⟩
    exact ⟨rfl, rfl, hdone⟩

/-- From lists per target, one list of all appends. -/
theorem collect_events {n : Nat} {all : List (Nat × Nat)} (hall : ∀ e ∈ all, e.1 < n) {P : Nat → List Nat → Prop}
    (h : ∀ c, c < n → ∃ L : List Nat, L.Perm (appended all c) ∧ P c L) : ∃ ev : List (Nat × Nat), ev.Perm all ∧ ∀ c, c < n → P c (appended ev c) := by
  classical
  choose! L hL using h
  have happ : ∀ (k c : Nat), appended ((List.range k).flatMap fun d => (L d).map fun x => (d, x)) c = if c < k then L c else [] := by
    intro k c
    rw [appended_flatMap]
    have hone : ∀ d, appended ((L d).map fun x => (d, x)) c = if d = c then L c else [] := by
      intro d
      unfold appended
      by_cases hd : d = c
      · subst hd
        rw [if_pos rfl, List.filter_eq_self.2 (by intro e he; obtain ⟨x, _, rfl⟩ := List.mem_map.1 he; simp), List.map_map]
        exact List.map_id'' (fun _ => rfl) _
      · rw [if_neg hd, List.filter_eq_nil_iff.2 (by intro e he; obtain ⟨x, _, rfl⟩ := List.mem_map.1 he; simpa using hd)]; rfl
    simp only [hone]
    induction k with
    | zero => simp
    | succ k ih =>
      rw [List.range_succ, List.flatMap_append, ih, List.flatMap_singleton]
      by_cases h1 : c < k
      · rw [if_pos h1, if_neg (by omega), if_pos (by omega), List.append_nil]
      · rw [if_neg h1, List.nil_append]
        by_cases h2 : k = c
        · rw [if_pos h2, if_pos (by omega)]
        · rw [if_neg h2, if_neg (by omega)]
  refine ⟨(List.range n).flatMap fun d => (L d).map fun x => (d, x), ?_, ?_⟩
  · rw [List.perm_iff_count]
    rintro ⟨c, x⟩
    have hcnt : ∀ l : List (Nat × Nat), l.count (c, x) = (appended l c).count x := by
      intro l
      unfold appended
      rw [List.count_eq_countP, List.count_eq_countP, List.countP_map, List.countP_filter]
      refine List.countP_congr ?_
      rintro ⟨a, b⟩ _
      simp [Prod.ext_iff]
      exact And.comm
    rw [hcnt, hcnt, happ]
    by_cases hc : c < n
    · rw [if_pos hc]; exact (hL c hc).1.count_eq x
    · rw [if_neg hc]
      symm
      rw [List.count_nil, List.count_eq_zero]
      intro hx
      exact hc (hall _ (mem_appended.1 hx))
  · intro c hc
    rw [happ, if_pos hc]; exact (hL c hc).2

/-- After the lists are built. -/
structure TgBuilt (S : Schedule) (A : Csr R) (dp ep : Nat → Nat) (vb : Nat → Nat) (m : Mem (CTy R)) : Prop where
  adj : ∀ t w : Nat, t < S.T → vb t ≤ w → w < vb (t + 1) → TgAdjAt S A dp ep (vb t) w m

/-- The team. -/
theorem tg_build (H : TgHyp S A dp ep tr) {vb : Nat → Nat} (hv : TgCuts S.T S.ntasks vb) {m0 : Mem (CTy R)} {nnz cR cF cB : Int} (hnnz : nnz = A.nnz)
    (hm : TgIn S A dp ep base hasExt m0) (h33 : ∀ i : Nat, i < S.m → m0 (.itmp 33) (i : Int) = some (origTask S i : Int))
    (h36 : ∀ c : Nat, c < S.ntasks → m0 (.itmp 36) (c : Int) = some (tgWW S A dp c : Int))
    (h38 : ∀ i : Nat, i < S.ntasks → m0 (.itmp 38) (i : Int) = some (0 : Int))
    {vi sO : Nat → Int} {q : Nat → Int × Int} (hvi : ∀ t, t ≤ S.T → vi t = vb t) (hsO : ∀ t, t < S.T → sO t = tgUU S dp ep (vb t))
    (hq : ∀ t, t < S.T → ∀ v, vb t ≤ v → v < vb (t + 1) → (tgUU S dp ep (v + 1) : Int) - tgUU S dp ep v ≤ (q t).2)
    {Q : (Nat → Int) → Mem (CTy R) → Prop}
    (hQ : ∀ r m ev, (∀ t, t < S.T → r t = (tgLp S A dp ep (vb (t + 1)) : Int) - tgLp S A dp ep (vb t)) → TgBuilt S A dp ep vb m →
      ev.Perm (allInvEvents S A dp ep tr) → (∀ c : Nat, c < S.ntasks → m (.itmp 38) (c : Int) = some ((appended ev c).length : Int) ∧
        HoldsQ m 37 (tgWW S A dp c) (appended ev c)) →
      (∀ a i, a ≠ .itmp 34 → a ≠ .itmp 35 → a ≠ .itmp 37 → a ≠ .itmp 38 → a ≠ .itmp 39 → m a i = m0 a i) → Q r m) :
    ParOk (tgSize sz S.T S.m S.ntasks nnz cR cF cB) S.T Q
      (fun tid => tgBuild hasExt tr base S.T S.m S.ntasks nnz (vi tid) (vi (tid + 1)) (sO tid) (q tid).2) m0 := by
  have hE := tgEnv_ok (sz := sz) (cR := cR) (cF := cF) (cB := cB) H hv hnnz h38
  refine ParOk.mono (BkEnv.team (E := tgEnv S A dp ep tr (tgSize sz S.T S.m S.ntasks nnz cR cF cB) vb m0) hE
    (Q := fun t a m1 => a = (tgLp S A dp ep (vb (t + 1)) : Int) - tgLp S A dp ep (vb t) ∧ ∀ w, vb t ≤ w → w < vb (t + 1) → TgAdjAt S A dp ep (vb t) w m1) ?_) ?_
  · intro t ht
    exact LB_tgBuild H hv hnnz hm h33 h36 h38 ht (hq t ht) (hvi t (Nat.le_of_lt ht)) (hvi (t + 1) ht) (hsO t ht)
  · rintro r m ⟨hd, ha⟩
    have hitems : (List.range S.T).flatMap (tgEnv S A dp ep tr (tgSize sz S.T S.m S.ntasks nnz cR cF cB) vb m0).items = allInvEvents S A dp ep tr :=
      tgEnv_items hv
    have hmask : ∀ a i, a ≠ .itmp 34 → a ≠ .itmp 35 → a ≠ .itmp 39 →
        (tgEnv S A dp ep tr (tgSize sz S.T S.m S.ntasks nnz cR cF cB) vb m0).mask m a i = m a i := by
      intro a i g1 g2 g3
      refine BkEnv.mask_eq ?_
      rintro ⟨t, _, ⟨h | h, _⟩ | ⟨h, _⟩⟩ <;> contradiction
    obtain ⟨ev, hev, hc⟩ := collect_events (n := S.ntasks) (all := allInvEvents S A dp ep tr) (fun e he => allInv_lt H he)
      (P := fun c L => m (.itmp 38) (c : Int) = some (L.length : Int) ∧ HoldsQ m 37 (tgWW S A dp c) L) (by
        intro c hc
        obtain ⟨L, hL, hs⟩ := hd.slot rfl c hc
        have hL : L.Perm (appended ((List.range S.T).flatMap (tgEnv S A dp ep tr (tgSize sz S.T S.m S.ntasks nnz cR cF cB) vb m0).items) c) := hL
        have hctr := hd.ctr c hc
        have hn : bkN (tgEnv S A dp ep tr (tgSize sz S.T S.m S.ntasks nnz cR cF cB) vb m0).T
            (tgEnv S A dp ep tr (tgSize sz S.T S.m S.ntasks nnz cR cF cB) vb m0).items c = L.length := by
          rw [bkN_eq]; exact hL.length_eq.symm
        rw [hn] at hctr
        rw [hitems] at hL
        have hctr : (tgEnv S A dp ep tr (tgSize sz S.T S.m S.ntasks nnz cR cF cB) vb m0).mask m (.itmp 38) ((c : Int) + (0 : Nat)) =
          some (((0 : Nat) : Int) + (L.length : Nat) : Int) := hctr
        rw [hmask _ _ (by simp) (by simp) (by simp), Int.ofNat_zero, Int.add_zero, Int.zero_add] at hctr
        refine ⟨L, hL, hctr, ?_⟩
        intro x s hx
        obtain ⟨hxl, hxe⟩ := List.getElem?_eq_some_iff.1 hx
        have := hs x hxl
        have this : (tgEnv S A dp ep tr (tgSize sz S.T S.m S.ntasks nnz cR cF cB) vb m0).mask m (.itmp 37) ((tgWW S A dp c : Int) + (0 : Nat) + x) = some (L[x] : Int) := this
        rw [hmask _ _ (by simp) (by simp) (by simp), Int.ofNat_zero, Int.add_zero, hxe] at this
        exact this)
    refine hQ r m ev ?_ ⟨?_⟩ hev hc ?_
    · intro t ht
      obtain ⟨m1, _, h, _⟩ := ha t ht
      exact h
    · intro t w ht h1 h2
      obtain ⟨m1, hag, _, h⟩ := ha t ht
      have hw := h w h1 h2
      refine ⟨?_, ?_, ?_⟩
      · rw [hag _ _ (Or.inl (Or.inl ⟨Or.inl rfl, w, h1, h2, rfl⟩))]; exact hw.ptr
      · rw [hag _ _ (Or.inl (Or.inl ⟨Or.inr rfl, w, h1, h2, rfl⟩))]; exact hw.len
      · intro x s hx
        have hxl : x < (taskAdj S A dp ep w).length := by
          by_contra hc
          rw [List.getElem?_eq_none (by omega)] at hx; simp at hx
        obtain ⟨a1, a2⟩ := tgAt_range H h1 h2 (hv.le_n (show t + 1 ≤ S.T by omega))
        rw [hag _ _ (Or.inl (Or.inr ⟨rfl, by omega, by omega⟩))]; exact hw.adj x s hx
    · intro a i g1 g2 g3 g4 g5
      have := hd.frame a i (by rintro ⟨h, _⟩; exact g4 h) (by rintro ⟨_, h, _⟩; exact g3 h)
      rw [hmask _ _ g1 g2 g5] at this
      exact this

end

end SpMP
