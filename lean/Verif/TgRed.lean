import Verif.TgTail
/-
constructTaskGraph_ with transitive reduction: the children that are kept, and the parents.
-/

namespace SpMP
open Spec

variable {R : Type}

section
variable {S : Schedule} {A : Csr R} {dp ep : Nat → Nat} {base : Nat} {hasExt tr : Bool} {sz : CArr → Int}

theorem map_toNat_cast (l : List Nat) : (l.map (Nat.cast : Nat → Int)).map Int.toNat = l := by
  rw [List.map_map]
  exact List.map_id'' (fun n => by simp) l

theorem tempAdj_length (S : Schedule) (t j : Nat) (adj : List Nat) : (tempAdj S t j adj).length ≤ adj.length + 1 := by
  unfold tempAdj
  split
  · dsimp only
    split
    · omega
    · rw [List.length_append, List.length_cons, List.length_take, List.length_drop]; omega
  · omega

theorem kept_length (S : Schedule) (inv : Nat → List Nat) (j : Nat) (adj : List Nat) : (keptChildren S inv j adj).length ≤ adj.length :=
  List.length_filter_le _ _

/-- Number of children kept before task `v`. -/
def tgKp (S : Schedule) (A : Csr R) (dp ep : Nat → Nat) (ev : List (Nat × Nat)) : Nat → Nat := cumul fun v => (reducedChildren S A dp ep ev v).length

theorem tgKp_succ {ev : List (Nat × Nat)} (v : Nat) : tgKp S A dp ep ev (v + 1) = tgKp S A dp ep ev v + (reducedChildren S A dp ep ev v).length := rfl

theorem tgKp_le {ev : List (Nat × Nat)} {a b : Nat} (h : a ≤ b) : tgKp S A dp ep ev b + tgLp S A dp ep a ≤ tgKp S A dp ep ev a + tgLp S A dp ep b := by
  induction b with
  | zero => have : a = 0 := by omega
            subst this; omega
  | succ b ih =>
    rcases Nat.lt_or_ge a (b + 1) with h1 | h1
    · have := ih (by omega)
      have h2 := kept_length S (taskInv ev) b (taskAdj S A dp ep b)
      rw [tgLp_succ, tgKp_succ]
      unfold reducedChildren
      omega
    · have : a = b + 1 := by omega
      subst this; omega

/-- The appends to the parents' counts made for task `j`. -/
def tgPev (S : Schedule) (A : Csr R) (dp ep : Nat → Nat) (ev : List (Nat × Nat)) (j : Nat) : List (Nat × Nat) :=
  (reducedChildren S A dp ep ev j).map fun child => (child, j)

theorem tgPev_all (ev : List (Nat × Nat)) : (List.range S.ntasks).flatMap (tgPev S A dp ep ev) = parentEvents S.ntasks (reducedChildren S A dp ep ev) := rfl

/-- The team that reduces. -/
def tgREnv (S : Schedule) (A : Csr R) (dp ep : Nat → Nat) (ev : List (Nat × Nat)) (sz : CArr → Int) (vb : Nat → Nat) (m0 : Mem (CTy R)) : BkEnv R where
  sz := sz
  T := S.T
  jc := 40
  js := 0
  M := S.ntasks
  slots := false
  Sl := fun _ => 0
  items t := (List.range' (vb t) (vb (t + 1) - vb t)).flatMap (tgPev S A dp ep ev)
  m0 := m0
  Own t a i := ((a = .itmp 46 ∨ a = .itmp 48) ∧ ∃ v : Nat, vb t ≤ v ∧ v < vb (t + 1) ∧ i = v) ∨
    (a = .itmp 47 ∧ (tgLp S A dp ep (vb t) : Int) ≤ i ∧ i < (tgLp S A dp ep (vb (t + 1)) : Int))
  Const a _ := TgRdo a ∨ a = .itmp 34 ∨ a = .itmp 35 ∨ a = .itmp 36 ∨ a = .itmp 37 ∨ a = .itmp 38 ∨ a = .itmp 39

theorem tgREnv_items {vb : Nat → Nat} (hv : TgCuts S.T S.ntasks vb) {m0 : Mem (CTy R)} {ev : List (Nat × Nat)} :
    (List.range S.T).flatMap (tgREnv S A dp ep ev sz vb m0).items = parentEvents S.ntasks (reducedChildren S A dp ep ev) := by
  rw [← tgPev_all]
  exact flatMap_cuts hv.zero hv.mono hv.last

theorem child_lt (H : TgHyp S A dp ep tr) {ev : List (Nat × Nat)} {j c : Nat} (hj : j < S.ntasks) (hc : c ∈ reducedChildren S A dp ep ev j) : c < S.ntasks := by
  have h1 : c ∈ taskAdj S A dp ep j := (List.mem_filter.1 hc).1
  obtain ⟨_, i, p, _, _, _, h4⟩ := (mem_taskAdj H.tiling H.row H.col hj).1 h1
  exact (rowIn_lt H.tiling h4).2

theorem adj_lt (H : TgHyp S A dp ep tr) {j c : Nat} (hj : j < S.ntasks) (hc : c ∈ taskAdj S A dp ep j) : c < S.ntasks := by
  obtain ⟨_, i, p, _, _, _, h4⟩ := (mem_taskAdj H.tiling H.row H.col hj).1 hc
  exact (rowIn_lt H.tiling h4).2

theorem parentEv_lt (H : TgHyp S A dp ep tr) {ev : List (Nat × Nat)} {e : Nat × Nat} (he : e ∈ parentEvents S.ntasks (reducedChildren S A dp ep ev)) : e.1 < S.ntasks := by
  obtain ⟨c, j⟩ := e
  obtain ⟨h1, h2⟩ := mem_parentEvents.1 he
  exact child_lt H h1 h2

theorem tgREnv_ok (H : TgHyp S A dp ep tr) {vb : Nat → Nat} (hv : TgCuts S.T S.ntasks vb) {m0 : Mem (CTy R)} {ev : List (Nat × Nat)}
    (hsz : sz (.itmp 40) = S.ntasks) (h0 : ∀ i : Nat, i < S.ntasks → m0 (.itmp 40) (i : Int) = some (0 : Int)) :
    (tgREnv S A dp ep ev sz vb m0).Ok where
  disj := by
    rintro t u a i ht hu hne h1 h2
    rcases h1 with ⟨h1, v, g1, g2, rfl⟩ | ⟨rfl, g1, g2⟩
    · rcases h2 with ⟨_, w, k1, k2, k3⟩ | ⟨h2, _⟩
      · have : v = w := by omega
        subst this
        exact hv.disj ht hu hne ⟨g1, g2⟩ ⟨k1, k2⟩
      · rw [h2] at h1; simp at h1
    · rcases h2 with ⟨h2, _⟩ | ⟨_, k1, k2⟩
      · simp at h2
      · have hmono : ∀ a b, a ≤ b → tgLp S A dp ep a ≤ tgLp S A dp ep b := fun a b h => cumul_mono _ h
        rcases Nat.lt_or_gt_of_ne hne with g | g
        · have := hmono _ _ (hv.le (show t + 1 ≤ u by omega) (Nat.le_of_lt hu)); omega
        · have := hmono _ _ (hv.le (show u + 1 ≤ t by omega) (Nat.le_of_lt ht)); omega
  own_ctr := by
    rintro t a i _ h1 ⟨h2, _⟩
    rw [show a = CArr.itmp 40 from h2] at h1
    simp [tgREnv] at h1
  own_slot := by
    rintro t a i _ h1 ⟨h2, _⟩
    simp [tgREnv] at h2
  con_own := by
    rintro t a i _ h1 h2
    rcases h2 with ⟨rfl | rfl, _⟩ | ⟨rfl, _⟩ <;> simp [tgREnv, TgRdo, MatCell] at h1
  con_ctr := by
    rintro a i h1 ⟨h2, _⟩
    rw [show a = CArr.itmp 40 from h2] at h1
    simp [tgREnv, TgRdo, MatCell] at h1
  con_slot := by
    rintro a i h1 ⟨h2, _⟩
    simp [tgREnv] at h2
  ne := by intro h; simp [tgREnv] at h
  dis := by intro h; simp [tgREnv] at h
  inM := by
    intro t ht x hx
    refine parentEv_lt H (ev := ev) ?_
    rw [← tgREnv_items (sz := sz) (m0 := m0) hv]
    exact List.mem_flatMap.2 ⟨t, List.mem_range.2 ht, hx⟩
  room := by intro h; simp [tgREnv] at h
  ctrsz := by show (S.ntasks : Int) ≤ sz (.itmp 40); rw [hsz]
  zero := h0

/-- The inverse lists and adjacency lists in memory. -/
structure TgLists (S : Schedule) (A : Csr R) (dp ep : Nat → Nat) (ev : List (Nat × Nat)) (pB : Nat → Nat) (m : Mem (CTy R)) : Prop where
  invp : ∀ c : Nat, c < S.ntasks → m (.itmp 36) (c : Int) = some (tgWW S A dp c : Int)
  invn : ∀ c : Nat, c < S.ntasks → m (.itmp 38) (c : Int) = some ((taskInv ev c).length : Int)
  inv : ∀ c : Nat, c < S.ntasks → HoldsQ m 37 (tgWW S A dp c) (taskInv ev c)
  adjp : ∀ c : Nat, c < S.ntasks → m (.itmp 34) (c : Int) = some (pB c : Int)
  adjn : ∀ c : Nat, c < S.ntasks → m (.itmp 39) (c : Int) = some ((taskAdj S A dp ep c).length : Int)
  adj : ∀ c : Nat, c < S.ntasks → HoldsQ m 35 (pB c) (taskAdj S A dp ep c)

theorem TgLists.congr {ev : List (Nat × Nat)} {pB : Nat → Nat} {m m' : Mem (CTy R)} (h : TgLists S A dp ep ev pB m)
    (hm : ∀ a i, a = .itmp 34 ∨ a = .itmp 35 ∨ a = .itmp 36 ∨ a = .itmp 37 ∨ a = .itmp 38 ∨ a = .itmp 39 → m' a i = m a i) : TgLists S A dp ep ev pB m' where
  invp c hc := by rw [hm _ _ (by simp)]; exact h.invp c hc
  invn c hc := by rw [hm _ _ (by simp)]; exact h.invn c hc
  inv c hc := (h.inv c hc).congr fun i _ _ => hm _ _ (by simp)
  adjp c hc := by rw [hm _ _ (by simp)]; exact h.adjp c hc
  adjn c hc := by rw [hm _ _ (by simp)]; exact h.adjn c hc
  adj c hc := (h.adj c hc).congr fun i _ _ => hm _ _ (by simp)

/-- Keeping the edges that are not redundant. -/
theorem LB_tgKeep {ev : List (Nat × Nat)} {vb : Nat → Nat} {m0 : Mem (CTy R)} {pB : Nat → Nat} {t j : Nat} {cb : Int}
    (hE : (tgREnv S A dp ep ev sz vb m0).Ok) (ht : t < S.T) (hl : TgLists S A dp ep ev pB m0) (tmp : List Nat) :
    ∀ (is : List Nat) (idx : Nat) (m1 : Mem (CTy R)) (L : List (Nat × Nat)),
    (∀ i ∈ is, i < S.ntasks) →
    L ++ (is.filter fun i => !toRemove (taskInv ev i) tmp).map (fun c => (c, j)) <+: (tgREnv S A dp ep ev sz vb m0).items t →
    (∀ a i, (tgREnv S A dp ep ev sz vb m0).Const a i → m1 a i = m0 a i) →
    (∀ k : Nat, k < (is.filter fun i => !toRemove (taskInv ev i) tmp).length →
      (tgREnv S A dp ep ev sz vb m0).Own t (.itmp 47) (cb + idx + k) ∧ 0 ≤ cb + idx + k ∧ cb + idx + k < sz (.itmp 47)) →
    ∀ {Q : Int → Mem (CTy R) → List (Nat × Nat) → Prop},
    (∀ m1', HoldsQ m1' 47 (cb + idx) (is.filter fun i => !toRemove (taskInv ev i) tmp) →
      (∀ a i, ¬ (a = .itmp 47 ∧ cb + idx ≤ i ∧ i < cb + idx + (is.filter fun i => !toRemove (taskInv ev i) tmp).length) → m1' a i = m1 a i) →
      Q ((idx : Int) + (is.filter fun i => !toRemove (taskInv ev i) tmp).length) m1'
        (L ++ (is.filter fun i => !toRemove (taskInv ev i) tmp).map (fun c => (c, j)))) →
    (tgREnv S A dp ep ev sz vb m0).LB t (tgKeep tmp cb (is.map Nat.cast) (idx : Int)) m1 L Q := by
  intro is
  induction is with
  | nil =>
    intro idx m1 L _ _ _ _ Q hQ
    show (tgREnv S A dp ep ev sz vb m0).LB t (pure (idx : Int)) m1 L Q
    refine BkEnv.LB_pure hE ht ?_
    have := hQ m1 (fun x s hx => by simp at hx) (fun _ _ _ => rfl)
    simpa using this
  | cons i is ih =>
    intro idx m1 L hlt hpre hcon hown Q hQ
    have hi : i < S.ntasks := hlt i (by simp)
    show (tgREnv S A dp ep ev sz vb m0).LB t (tgKeep tmp cb ((i : Int) :: is.map Nat.cast) (idx : Int)) m1 L Q
    unfold tgKeep
    have hc36 : ∀ x, (tgREnv S A dp ep ev sz vb m0).Const (.itmp 36) x := fun _ => by simp [tgREnv]
    have hc37 : ∀ x, (tgREnv S A dp ep ev sz vb m0).Const (.itmp 37) x := fun _ => by simp [tgREnv]
    have hc38 : ∀ x, (tgREnv S A dp ep ev sz vb m0).Const (.itmp 38) x := fun _ => by simp [tgREnv]
    refine BkEnv.LB_rd hE ht _ (Or.inr (hc36 _)) ((hcon _ _ (hc36 _)).trans (hl.invp i hi)) ?_
    refine BkEnv.LB_rd hE ht _ (Or.inr (hc38 _)) ((hcon _ _ (hc38 _)).trans (hl.invn i hi)) ?_
    have hlen : (((taskInv ev i).length : Int)).toNat = ((taskInv ev i).map (Nat.cast : Nat → Int)).length := by simp
    show (tgREnv S A dp ep ev sz vb m0).LB t (readList 37 (tgWW S A dp i : Int) (((taskInv ev i).length : Int)).toNat >>= _) m1 L Q
    rw [hlen]
    refine BkEnv.LB_seq hE ht (wp_readList _ _ ?_ ?_)
    · intro q hq
      exact ⟨Or.inr (hc37 _), (hcon _ _ (hc37 _)).trans ((hl.inv i hi).get q hq)⟩
    rw [map_toNat_cast]
    by_cases hrem : toRemove (taskInv ev i) tmp = true
    · rw [if_pos hrem]
      have hf : (i :: is).filter (fun i => !toRemove (taskInv ev i) tmp) = is.filter fun i => !toRemove (taskInv ev i) tmp := by
        rw [List.filter_cons, if_neg (by simp [hrem])]
      rw [hf] at hpre hown hQ
      exact ih idx m1 L (fun x hx => hlt x (by simp [hx])) hpre hcon hown hQ
    · rw [if_neg hrem]
      have hf : (i :: is).filter (fun i => !toRemove (taskInv ev i) tmp) = i :: is.filter fun i => !toRemove (taskInv ev i) tmp := by
        rw [List.filter_cons, if_pos (by simp at hrem; simp [hrem])]
      rw [hf] at hpre hown hQ
      generalize hrl : is.filter (fun i => !toRemove (taskInv ev i) tmp) = rl at hpre hown hQ
      obtain ⟨o1, o2, o3⟩ := hown 0 (by simp)
      rw [show cb + (idx : Int) + ((0 : Nat) : Int) = cb + idx by omega] at o1 o2 o3
      refine BkEnv.LB_wr hE ht o1 ⟨o2, o3⟩ ?_
      have hL2 : (L ++ [(i, j)]) ++ rl.map (fun c => (c, j)) = L ++ (i :: rl).map (fun c => (c, j)) := by simp
      refine BkEnv.LB_count (E := tgREnv S A dp ep ev sz vb m0) (c := i) (x := j) hE ht rfl ?_ (fun v => rfl) ?_
      · refine List.IsPrefix.trans ?_ hpre
        rw [← hL2]; exact List.prefix_append _ _
      · intro _
        show (tgREnv S A dp ep ev sz vb m0).LB t (tgKeep tmp cb (is.map Nat.cast) ((idx : Int) + 1)) (m1.set (.itmp 47) (cb + (idx : Int)) (i : Int)) (L ++ [(i, j)]) Q
        generalize hm2 : m1.set (.itmp 47) (cb + (idx : Int)) (i : Int) = m2
        have ih' := ih (idx + 1) m2 (L ++ [(i, j)]) (fun x hx => hlt x (by simp [hx]))
        rw [hrl] at ih'
        rw [show (idx : Int) + 1 = ((idx + 1 : Nat) : Int) by omega]
        refine ih' (by rw [hL2]; exact hpre) ?_ ?_ ?_
        · intro a x ha
          rw [← hm2, Mem.set_other _ _ _ _ _ ?_]
          · exact hcon a x ha
          · rintro rfl; simp [tgREnv, TgRdo, MatCell] at ha
        · intro k hk
          have := hown (k + 1) (by simp; omega)
          rw [show cb + (idx : Int) + ((k + 1 : Nat) : Int) = cb + ((idx + 1 : Nat) : Int) + k by push_cast; omega] at this
          exact this
        · intro m1' hq hfr
          rw [hL2]
          have := hQ m1' ?_ ?_
          · rw [show ((idx + 1 : Nat) : Int) + (rl.length : Int) = (idx : Int) + ((i :: rl).length : Int) by rw [List.length_cons]; push_cast; omega]
            exact this
          · intro x s hx
            cases x with
            | zero =>
              rw [hfr _ _ (by rintro ⟨_, h, _⟩; omega), ← hm2, show cb + (idx : Int) + ((0 : Nat) : Int) = cb + idx by omega, Mem.get_same]
              simp at hx; rw [hx]
            | succ x =>
              have := hq x s (by simpa using hx)
              rw [← this]
              congr 1
              push_cast; omega
          · intro a x hne
            rw [hfr a x (by rintro ⟨h1, h2, h3⟩; exact hne ⟨h1, by omega, by rw [List.length_cons]; push_cast at h3 ⊢; omega⟩), ← hm2]
            rcases Mem.set_cases m1 (.itmp 47) (cb + (idx : Int)) (i : Int) a x with ⟨rfl, rfl⟩ | h
            · exact absurd ⟨rfl, Int.le_refl _, by rw [List.length_cons]; push_cast; omega⟩ hne
            · exact h

/-- Where the children of task `w` start when `b` is the first task of the thread that reduced it. -/
def tgCAt (S : Schedule) (A : Csr R) (dp ep : Nat → Nat) (ev : List (Nat × Nat)) (b w : Nat) : Int :=
  (tgLp S A dp ep b : Int) + ((tgKp S A dp ep ev w : Int) - tgKp S A dp ep ev b)

/-- The children of task `w` are in memory. -/
structure TgChAt (S : Schedule) (A : Csr R) (dp ep : Nat → Nat) (ev : List (Nat × Nat)) (b w : Nat) (m : Mem (CTy R)) : Prop where
  ptr : m (.itmp 46) (w : Int) = some (tgCAt S A dp ep ev b w : Int)
  len : m (.itmp 48) (w : Int) = some ((reducedChildren S A dp ep ev w).length : Int)
  ch : HoldsQ m 47 (tgCAt S A dp ep ev b w) (reducedChildren S A dp ep ev w)

theorem tgCAt_range {ev : List (Nat × Nat)} {b w e : Nat} (h1 : b ≤ w) (h2 : w < e) :
    (tgLp S A dp ep b : Int) ≤ tgCAt S A dp ep ev b w ∧ tgCAt S A dp ep ev b w + (reducedChildren S A dp ep ev w).length ≤ tgLp S A dp ep e := by
  have q1 := tgKp_le (S := S) (A := A) (dp := dp) (ep := ep) (ev := ev) (show b ≤ w + 1 by omega)
  have q2 : tgKp S A dp ep ev b ≤ tgKp S A dp ep ev w := cumul_mono _ h1
  have q3 : tgLp S A dp ep (w + 1) ≤ tgLp S A dp ep e := cumul_mono _ (by omega)
  rw [tgKp_succ] at q1
  unfold tgCAt
  omega

/-- One thread. -/
theorem LB_tgReduce (H : TgHyp S A dp ep tr) {vb : Nat → Nat} (hv : TgCuts S.T S.ntasks vb) {m0 : Mem (CTy R)} {ev : List (Nat × Nat)} {pB : Nat → Nat}
    (hth : ∀ u : Nat, u ≤ S.T → m0 (.itmp 31) (u : Int) = some (S.threadB u : Int)) (hl : TgLists S A dp ep ev pB m0)
    (h40 : ∀ i : Nat, i < S.ntasks → m0 (.itmp 40) (i : Int) = some (0 : Int))
    (s40 : sz (.itmp 40) = S.ntasks) (s46 : sz (.itmp 46) = S.ntasks) (s48 : sz (.itmp 48) = S.ntasks) (s47 : sz (.itmp 47) = tgLp S A dp ep S.ntasks)
    {t : Nat} (ht : t < S.T) {maxL : Int} (hmx : ∀ v, vb t ≤ v → v < vb (t + 1) → ((taskAdj S A dp ep v).length : Int) ≤ maxL)
    {vi ve start : Int} (hvi : vi = vb t) (hve : ve = vb (t + 1)) (hst : start = tgLp S A dp ep (vb t)) :
    (tgREnv S A dp ep ev sz vb m0).LB t (tgReduce S.T vi ve start maxL) m0 []
      (fun _ m1 L => L = (tgREnv S A dp ep ev sz vb m0).items t ∧ ∀ w, vb t ≤ w → w < vb (t + 1) → TgChAt S A dp ep ev (vb t) w m1) := by
  subst hvi hve hst
  have hE := tgREnv_ok (ev := ev) H hv s40 h40
  have hle := hv.le_n (show t + 1 ≤ S.T by omega)
  unfold tgReduce
  refine BkEnv.LB_tasks hE ht H.tiling H.team (hv.mono t ht) hle (fun _ => by simp [tgREnv, TgRdo])
    (fun v cnt m1 L => cnt = (tgKp S A dp ep ev v : Int) - tgKp S A dp ep ev (vb t) ∧ L = (List.range' (vb t) (v - vb t)).flatMap (tgPev S A dp ep ev) ∧
      (∀ a i, (tgREnv S A dp ep ev sz vb m0).Const a i → m1 a i = m0 a i) ∧ ∀ w, vb t ≤ w → w < v → TgChAt S A dp ep ev (vb t) w m1) ?_ ?_ ?_ ?_
  · rintro v cnt m1 L ⟨_, _, h, _⟩ u hu
    rw [h _ _ (by simp [tgREnv, TgRdo])]; exact hth u hu
  · exact ⟨by simp, by simp, fun _ _ _ => rfl, fun w h1 h2 => by omega⟩
  · rintro v cnt m1 L h1 h2 ⟨rfl, rfl, hcon, hdone⟩
    have hvn : v < S.ntasks := by omega
    have hat : (tgLp S A dp ep (vb t) : Int) + ((tgKp S A dp ep ev v : Int) - tgKp S A dp ep ev (vb t)) = tgCAt S A dp ep ev (vb t) v := rfl
    have o46 : (tgREnv S A dp ep ev sz vb m0).Own t (.itmp 46) (v : Int) := Or.inl ⟨Or.inl rfl, v, h1, h2, rfl⟩
    have o48 : (tgREnv S A dp ep ev sz vb m0).Own t (.itmp 48) (v : Int) := Or.inl ⟨Or.inr rfl, v, h1, h2, rfl⟩
    rw [hat]
    refine BkEnv.LB_wr hE ht o46 ⟨by omega, by show _ < sz _; rw [s46]; omega⟩ ?_
    generalize hm2 : m1.set (.itmp 46) (v : Int) (tgCAt S A dp ep ev (vb t) v) = m2
    have hcon2 : ∀ a i, (tgREnv S A dp ep ev sz vb m0).Const a i → m2 a i = m0 a i := by
      intro a i ha
      rw [← hm2, Mem.set_other _ _ _ _ _ ?_]
      · exact hcon a i ha
      · rintro rfl; simp [tgREnv, TgRdo, MatCell] at ha
    have hc34 : ∀ x, (tgREnv S A dp ep ev sz vb m0).Const (.itmp 34) x := fun _ => by simp [tgREnv]
    have hc35 : ∀ x, (tgREnv S A dp ep ev sz vb m0).Const (.itmp 35) x := fun _ => by simp [tgREnv]
    have hc39 : ∀ x, (tgREnv S A dp ep ev sz vb m0).Const (.itmp 39) x := fun _ => by simp [tgREnv]
    refine BkEnv.LB_rd hE ht _ (Or.inr (hc34 _)) ((hcon2 _ _ (hc34 _)).trans (hl.adjp v hvn)) ?_
    refine BkEnv.LB_rd hE ht _ (Or.inr (hc39 _)) ((hcon2 _ _ (hc39 _)).trans (hl.adjn v hvn)) ?_
    have hlen : (((taskAdj S A dp ep v).length : Int)).toNat = ((taskAdj S A dp ep v).map (Nat.cast : Nat → Int)).length := by simp
    show (tgREnv S A dp ep ev sz vb m0).LB t (readList 35 (pB v : Int) (((taskAdj S A dp ep v).length : Int)).toNat >>= _) m2 _ _
    rw [hlen]
    refine BkEnv.LB_seq hE ht (wp_readList _ _ ?_ ?_)
    · intro q hq
      exact ⟨Or.inr (hc35 _), (hcon2 _ _ (hc35 _)).trans ((hl.adj v hvn).get q hq)⟩
    have htmp : tgTmp ((S.threadB (threadOf S v + 1) : Int)).toNat ((v : Int)).toNat (((taskAdj S A dp ep v).map (Nat.cast : Nat → Int)).map Int.toNat) =
        tempAdj S (threadOf S v) v (taskAdj S A dp ep v) := by
      rw [map_toNat_cast, Int.toNat_natCast, Int.toNat_natCast]; rfl
    show (tgREnv S A dp ep ev sz vb m0).LB t (Prog.assert (((tgTmp ((S.threadB (threadOf S v + 1) : Int)).toNat ((v : Int)).toNat
      (((taskAdj S A dp ep v).map (Nat.cast : Nat → Int)).map Int.toNat)).length : Int) ≤ maxL + 1) >>= _) m2 _ _
    rw [htmp]
    have htl := tempAdj_length S (threadOf S v) v (taskAdj S A dp ep v)
    have hml := hmx v h1 h2
    refine BkEnv.LB_assert hE ht (by omega) ?_
    refine BkEnv.LB_bind ?_
    obtain ⟨a1, a2⟩ := tgCAt_range (S := S) (A := A) (dp := dp) (ep := ep) (ev := ev) h1 h2
    have hLn : tgLp S A dp ep (vb (t + 1)) ≤ tgLp S A dp ep S.ntasks := cumul_mono _ hle
    refine LB_tgKeep (j := v) (cb := tgCAt S A dp ep ev (vb t) v) hE ht hl (tempAdj S (threadOf S v) v (taskAdj S A dp ep v)) (taskAdj S A dp ep v) 0 m2 _
      (fun i hi => adj_lt H hvn hi) ?_ hcon2 ?_ ?_
    · have hpre : (List.range' (vb t) (v - vb t)).flatMap (tgPev S A dp ep ev) ++ tgPev S A dp ep ev v <+:
          (List.range' (vb t) (vb (t + 1) - vb t)).flatMap (tgPev S A dp ep ev) := by
        have e : List.range' (vb t) (vb (t + 1) - vb t) = List.range' (vb t) (v - vb t) ++ v :: List.range' (v + 1) (vb (t + 1) - (v + 1)) := by
          have e2 : v :: List.range' (v + 1) (vb (t + 1) - (v + 1)) = List.range' v (vb (t + 1) - v) := by
            rw [show vb (t + 1) - v = (vb (t + 1) - (v + 1)) + 1 by omega, List.range'_succ]
          have := List.range'_append_1 (s := vb t) (m := v - vb t) (n := vb (t + 1) - v)
          rw [e2, show vb (t + 1) - vb t = (v - vb t) + (vb (t + 1) - v) by omega, ← this, show vb t + (v - vb t) = v by omega]
        rw [e, List.flatMap_append, List.flatMap_cons, ← List.append_assoc]
        exact List.prefix_append _ _
      exact hpre
    · intro k hk
      have hk : k < (reducedChildren S A dp ep ev v).length := hk
      have hR : (tgLp S A dp ep (vb t) : Int) ≤ tgCAt S A dp ep ev (vb t) v + ((0 : Nat) : Int) + (k : Int) ∧
          tgCAt S A dp ep ev (vb t) v + ((0 : Nat) : Int) + (k : Int) < (tgLp S A dp ep (vb (t + 1)) : Int) := by
        constructor
        · omega
        · omega
      refine ⟨Or.inr ⟨rfl, hR.1, hR.2⟩, by omega, ?_⟩
      rw [s47]; omega
    · intro m3 hq hf
      have hq : HoldsQ m3 47 (tgCAt S A dp ep ev (vb t) v + ((0 : Nat) : Int)) (reducedChildren S A dp ep ev v) := hq
      have hf : ∀ a i, ¬ (a = .itmp 47 ∧ tgCAt S A dp ep ev (vb t) v + ((0 : Nat) : Int) ≤ i ∧ i < tgCAt S A dp ep ev (vb t) v + ((0 : Nat) : Int) + (reducedChildren S A dp ep ev v).length) →
          m3 a i = m2 a i := hf
      show (tgREnv S A dp ep ev sz vb m0).LB t (Prog.write (ty := CTy R) (.itmp 48) (v : Int) (((0 : Nat) : Int) + ((reducedChildren S A dp ep ev v).length : Int)) >>= fun _ => _) m3 _ _
      refine BkEnv.LB_wr hE ht o48 ⟨by omega, by show _ < sz _; rw [s48]; omega⟩ ?_
      refine BkEnv.LB_pure hE ht ⟨?_, ?_, ?_, ?_⟩
      · show (tgKp S A dp ep ev v : Int) - tgKp S A dp ep ev (vb t) + (((0 : Nat) : Int) + ((reducedChildren S A dp ep ev v).length : Int)) =
          ((tgKp S A dp ep ev v + (reducedChildren S A dp ep ev v).length : Nat) : Int) - tgKp S A dp ep ev (vb t)
        push_cast; omega
      · show (List.range' (vb t) (v - vb t)).flatMap (tgPev S A dp ep ev) ++ tgPev S A dp ep ev v = _
        rw [show v + 1 - vb t = (v - vb t) + 1 by omega, List.range'_concat, List.flatMap_append, List.flatMap_singleton,
          show vb t + 1 * (v - vb t) = v by omega]
      · intro a i ha
        rw [Mem.set_other _ _ _ _ _ (by rintro rfl; simp [tgREnv, TgRdo, MatCell] at ha), hf a i (by rintro ⟨rfl, _⟩; simp [tgREnv, TgRdo, MatCell] at ha)]
        exact hcon2 a i ha
      · intro w g1 g2
        by_cases hwv : w = v
        · subst hwv
          refine ⟨?_, ?_, ?_⟩
          · rw [Mem.set_other _ _ _ _ _ (by simp), hf _ _ (by simp), ← hm2, Mem.get_same]
          · rw [Mem.get_same]
            show some (((0 : Nat) : Int) + ((reducedChildren S A dp ep ev w).length : Int) : Int) = _
            rw [Int.ofNat_zero, Int.zero_add]
          · intro x s hx
            rw [Mem.set_other _ _ _ _ _ (by simp)]
            have := hq x s hx
            rwa [show tgCAt S A dp ep ev (vb t) w + ((0 : Nat) : Int) + (x : Int) = tgCAt S A dp ep ev (vb t) w + x by omega] at this
        · have hd := hdone w g1 (by omega)
          refine ⟨?_, ?_, ?_⟩
          · rw [Mem.set_other _ _ _ _ _ (by simp), hf _ _ (by simp), ← hm2, Mem.get_ne _ _ _ _ _ (by omega)]; exact hd.ptr
          · rw [Mem.get_ne _ _ _ _ _ (by omega), hf _ _ (by simp), ← hm2, Mem.set_other _ _ _ _ _ (by simp)]; exact hd.len
          · intro x s hx
            obtain ⟨hxl, _⟩ := List.getElem?_eq_some_iff.1 hx
            have hmono : tgKp S A dp ep ev (w + 1) ≤ tgKp S A dp ep ev v := cumul_mono _ (by omega)
            rw [tgKp_succ] at hmono
            rw [Mem.set_other _ _ _ _ _ (by simp), hf _ _ ?_, ← hm2, Mem.set_other _ _ _ _ _ (by simp)]
            · exact hd.ch x s hx
            · rintro ⟨_, q, _⟩
              unfold tgCAt at q
              omega
  · rintro a m1 L ⟨_, rfl, _, hdone⟩
    exact ⟨rfl, hdone⟩

/-- The team. -/
theorem tg_reduce (H : TgHyp S A dp ep tr) {vb : Nat → Nat} (hv : TgCuts S.T S.ntasks vb) {m0 : Mem (CTy R)} {ev : List (Nat × Nat)} {pB : Nat → Nat}
    (hth : ∀ u : Nat, u ≤ S.T → m0 (.itmp 31) (u : Int) = some (S.threadB u : Int)) (hl : TgLists S A dp ep ev pB m0)
    (h40 : ∀ i : Nat, i < S.ntasks → m0 (.itmp 40) (i : Int) = some (0 : Int))
    (s40 : sz (.itmp 40) = S.ntasks) (s46 : sz (.itmp 46) = S.ntasks) (s48 : sz (.itmp 48) = S.ntasks) (s47 : sz (.itmp 47) = tgLp S A dp ep S.ntasks)
    {vi sR : Nat → Int} {q : Nat → Int × Int} (hvi : ∀ t, t ≤ S.T → vi t = vb t) (hsR : ∀ t, t < S.T → sR t = tgLp S A dp ep (vb t))
    (hq : ∀ t, t < S.T → ∀ v, vb t ≤ v → v < vb (t + 1) → ((taskAdj S A dp ep v).length : Int) ≤ (q t).2)
    {Q : (Nat → Int) → Mem (CTy R) → Prop}
    (hQ : ∀ r m, (∀ t w : Nat, t < S.T → vb t ≤ w → w < vb (t + 1) → TgChAt S A dp ep ev (vb t) w m) →
      (∀ c : Nat, c < S.ntasks → m (.itmp 40) (c : Int) = some ((appended (parentEvents S.ntasks (reducedChildren S A dp ep ev)) c).length : Int)) →
      (∀ a i, a ≠ .itmp 40 → a ≠ .itmp 46 → a ≠ .itmp 47 → a ≠ .itmp 48 → m a i = m0 a i) → Q r m) :
    ParOk sz S.T Q (fun tid => tgReduce S.T (vi tid) (vi (tid + 1)) (sR tid) (q tid).2) m0 := by
  have hE := tgREnv_ok (ev := ev) H hv s40 h40
  refine ParOk.mono (BkEnv.team (E := tgREnv S A dp ep ev sz vb m0) hE
    (Q := fun t _ m1 => ∀ w, vb t ≤ w → w < vb (t + 1) → TgChAt S A dp ep ev (vb t) w m1) ?_) ?_
  · intro t ht
    exact LB_tgReduce H hv hth hl h40 s40 s46 s48 s47 ht (hq t ht) (hvi t (Nat.le_of_lt ht)) (hvi (t + 1) ht) (hsR t ht)
  · rintro r m ⟨hd, ha⟩
    have hitems : (List.range S.T).flatMap (tgREnv S A dp ep ev sz vb m0).items = parentEvents S.ntasks (reducedChildren S A dp ep ev) := tgREnv_items hv
    have hmask : ∀ a i, a ≠ .itmp 46 → a ≠ .itmp 47 → a ≠ .itmp 48 → (tgREnv S A dp ep ev sz vb m0).mask m a i = m a i := by
      intro a i g1 g2 g3
      refine BkEnv.mask_eq ?_
      rintro ⟨t, _, ⟨h | h, _⟩ | ⟨h, _⟩⟩ <;> contradiction
    refine hQ r m ?_ ?_ ?_
    · intro t w ht h1 h2
      obtain ⟨m1, hag, h⟩ := ha t ht
      have hw := h w h1 h2
      refine ⟨?_, ?_, ?_⟩
      · rw [hag _ _ (Or.inl (Or.inl ⟨Or.inl rfl, w, h1, h2, rfl⟩))]; exact hw.ptr
      · rw [hag _ _ (Or.inl (Or.inl ⟨Or.inr rfl, w, h1, h2, rfl⟩))]; exact hw.len
      · intro x s hx
        obtain ⟨hxl, _⟩ := List.getElem?_eq_some_iff.1 hx
        obtain ⟨a1, a2⟩ := tgCAt_range (S := S) (A := A) (dp := dp) (ep := ep) (ev := ev) h1 h2
        rw [hag _ _ (Or.inl (Or.inr ⟨rfl, by omega, by omega⟩))]; exact hw.ch x s hx
    · intro c hc
      have hctr := hd.ctr c hc
      have hn : bkN (tgREnv S A dp ep ev sz vb m0).T (tgREnv S A dp ep ev sz vb m0).items c =
          (appended (parentEvents S.ntasks (reducedChildren S A dp ep ev)) c).length := by
        rw [bkN_eq]
        show (appended ((List.range S.T).flatMap (tgREnv S A dp ep ev sz vb m0).items) c).length = _
        rw [hitems]
      rw [hn] at hctr
      have hctr : (tgREnv S A dp ep ev sz vb m0).mask m (.itmp 40) ((c : Int) + (0 : Nat)) =
        some (((0 : Nat) : Int) + ((appended (parentEvents S.ntasks (reducedChildren S A dp ep ev)) c).length : Nat) : Int) := hctr
      rw [hmask _ _ (by simp) (by simp) (by simp), Int.ofNat_zero, Int.add_zero, Int.zero_add] at hctr
      exact hctr
    · intro a i g1 g2 g3 g4
      have := hd.frame a i (by rintro ⟨h, _⟩; exact g1 h) (by rintro ⟨h, _⟩; simp [tgREnv] at h)
      rw [hmask _ _ g2 g3 g4] at this
      exact this

end

end SpMP
