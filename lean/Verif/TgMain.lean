import Verif.TgPar
import Verif.BinFile
/-
constructTaskGraph_: the whole function.
-/

namespace SpMP
open Spec

variable {R : Type}

section
variable {S : Schedule} {A : Csr R} {dp ep : Nat → Nat} {base : Nat} {hasExt tr : Bool} {sz : CArr → Int}

/-- The parents that the function leaves: those of some order of the concurrent appends. -/
def TgResult (S : Schedule) (A : Csr R) (dp ep : Nat → Nat) (m : Mem (CTy R)) : Bool → Prop
  | true => ∃ ev pev : List (Nat × Nat), ev.Perm (allInvEvents S A dp ep true) ∧ pev.Perm (parentEvents S.ntasks (reducedChildren S A dp ep ev)) ∧
      ParentsIn S.ntasks (graphReduced S A dp ep ev pev).parF (graphReduced S A dp ep ev pev).parB m
  | false => ∃ ev : List (Nat × Nat), ev.Perm (allInvEvents S A dp ep false) ∧
      ParentsIn S.ntasks (graphPlain S A dp ep ev).parF (graphPlain S A dp ep ev).parB m

/-- Arrays the function does not write. -/
def TgKeep (a : CArr) : Prop := ∀ j, 33 ≤ j → j ≤ 49 → a ≠ .itmp j

theorem tgPlain_ok {nnz : Int} {m : Mem (CTy R)} {ev : List (Nat × Nat)} {pB : Nat → Nat} (hl : TgLists S A dp ep ev pB m) {Q : Unit → Mem (CTy R) → Prop}
    (hQ : ∀ m', ParentsIn S.ntasks (taskInv ev) (taskAdj S A dp ep) m' → (∀ a i, TgKeep a → m' a i = m a i) → Q () m') :
    (tgPlain (tgSize sz S.T S.m S.ntasks nnz) S.ntasks).Ok m Q := by
  refine seq_rule ?_
  refine wp_tgPlainLen (F := taskInv ev) (B := taskAdj S A dp ep) (fun _ _ => trivial) (fun _ _ => trivial) rfl rfl hl.invn hl.adjn ?_
  intro m1 h1 hf1
  refine seq_rule ?_
  have hl1 : TgLists S A dp ep ev pB m1 := hl.congr fun a i ha => hf1 a i (by rcases ha with rfl | rfl | rfl | rfl | rfl | rfl <;> simp)
    (by rcases ha with rfl | rfl | rfl | rfl | rfl | rfl <;> simp)
  refine wp_tgPlainCopy (F := taskInv ev) (B := taskAdj S A dp ep) (pF := tgWW S A dp) (pB := pB) (fun _ _ => trivial) (fun _ _ => trivial) rfl rfl rfl rfl
    (fun i hi => (h1 i hi).1) (fun i hi => (h1 i hi).2) hl1.invp hl1.adjp hl1.inv hl1.adj ?_
  intro r m2 hp hf2
  refine Script.ok_done_of (hQ m2 hp ?_)
  intro a i ha
  rw [hf2 a i (ha _ (by omega) (by omega)) (ha _ (by omega) (by omega)) (ha _ (by omega) (by omega)) (ha _ (by omega) (by omega)),
    hf1 a i (ha _ (by omega) (by omega)) (ha _ (by omega) (by omega))]

theorem tgReduced_ok (H : TgHyp S A dp ep tr) {nnz : Int} {m : Mem (CTy R)} {ev : List (Nat × Nat)} {pB vb : Nat → Nat}
    (hth : ∀ u : Nat, u ≤ S.T → m (.itmp 31) (u : Int) = some (S.threadB u : Int)) (hl : TgLists S A dp ep ev pB m)
    (h40 : ∀ i : Nat, i < S.ntasks → m (.itmp 40) (i : Int) = some (0 : Int)) (hv : TgCuts S.T S.ntasks vb)
    {vi : Nat → Int} (hvi : ∀ t, t ≤ S.T → vi t = vb t) {q : Nat → Int × Int}
    (hq : ∀ t, t < S.T → (q t).1 = (tgLp S A dp ep (vb (t + 1)) : Int) - tgLp S A dp ep (vb t) ∧
      ∀ v, vb t ≤ v → v < vb (t + 1) → ((taskAdj S A dp ep v).length : Int) ≤ (q t).2)
    {Q : Unit → Mem (CTy R) → Prop}
    (hQ : ∀ m' pev, pev.Perm (parentEvents S.ntasks (reducedChildren S A dp ep ev)) →
      ParentsIn S.ntasks (appended pev) (reducedChildren S A dp ep ev) m' → (∀ a i, TgKeep a → m' a i = m a i) → Q () m') :
    (tgReduced (tgSize sz S.T S.m S.ntasks nnz) S.T S.ntasks vi q).Ok m Q := by
  have hps : ∀ t, t ≤ S.T → psum (onTeam S.T fun t => (q t).1) t = tgLp S A dp ep (vb t) := fun t ht =>
    psum_cuts (F := tgLp S A dp ep) hv tgLp_zero (fun u hu => (hq u hu).1) ht
  unfold tgReduced
  dsimp only
  have hch : ∀ i c, i < S.ntasks → c ∈ reducedChildren S A dp ep ev i → c < S.ntasks := fun i c hi hc => child_lt H hi hc
  refine tg_fill (j := 48) (Int.le_refl _) ?_
  intro _ m1 _ hf1
  have hl1 : TgLists S A dp ep ev pB m1 := hl.congr fun a i ha => hf1 a i (by rcases ha with rfl | rfl | rfl | rfl | rfl | rfl <;> simp)
  refine tg_reduce H hv (ev := ev) (pB := pB) (fun u hu => by rw [hf1 _ _ (by simp)]; exact hth u hu) hl1
    (fun i hi => by rw [hf1 _ _ (by simp)]; exact h40 i hi) rfl rfl rfl ?_ hvi (fun t ht => hps t (Nat.le_of_lt ht)) (fun t ht => (hq t ht).2) ?_
  · show psum (onTeam S.T fun t => (q t).1) S.T = _
    rw [hps S.T (Nat.le_refl _), hv.last]
  intro _ m2 hc2 h2 hf2
  have hchat : ∀ c : Nat, c < S.ntasks → ∃ p : Int, m2 (.itmp 46) (c : Int) = some p ∧
      m2 (.itmp 48) (c : Int) = some ((reducedChildren S A dp ep ev c).length : Int) ∧ HoldsQ m2 47 p (reducedChildren S A dp ep ev c) := by
    intro c hc
    obtain ⟨t, ht, g1, g2⟩ := hv.find hc
    have := hc2 t c ht g1 g2
    exact ⟨_, this.ptr, this.len, this.ch⟩
  choose! pC hpC using hchat
  refine seq_rule ?_
  refine wp_tgStarts (f := tgNF S.ntasks (reducedChildren S A dp ep ev)) (g := fun i => (reducedChildren S A dp ep ev i).length)
    (fun _ _ => trivial) (fun _ _ => trivial) rfl rfl rfl h2 (fun i hi => (hpC i hi).2.1) ?_
  intro m3 h3 hf3
  refine tg_fill (j := 49) (Int.le_refl _) ?_
  intro _ m4 h4 hf4
  have back4 : ∀ a i, a ≠ .itmp 41 → a ≠ .itmp 43 → a ≠ .itmp 44 → a ≠ .itmp 49 → m4 a i = m2 a i := by
    intro a i g1 g2 g3 g4
    rw [hf4 a i g4, hf3 a i g1 g2 g3]
  refine tg_parents (ch := reducedChildren S A dp ep ev) (pC := pC) rfl rfl rfl hch h4 ?_ ?_ ?_ ?_ ?_ ?_ ?_ ?_
  · intro i hi; rw [hf4 _ _ (by simp)]; exact (h3 i hi).1
  · intro i hi; rw [hf4 _ _ (by simp)]; exact (h3 i hi).2.1
  · intro i hi; rw [back4 _ _ (by simp) (by simp) (by simp) (by simp)]; exact (hpC i hi).1
  · intro i hi; rw [back4 _ _ (by simp) (by simp) (by simp) (by simp)]; exact (hpC i hi).2.1
  · intro i hi; exact (hpC i hi).2.2.congr fun x _ _ => back4 _ _ (by simp) (by simp) (by simp) (by simp)
  · intro i hi; rw [back4 _ _ (by simp) (by simp) (by simp) (by simp)]; exact h2 i hi
  · intro i hi; rw [hf4 _ _ (by simp)]; exact (h3 i hi).2.2
  · intro _ m5 pev hpev hpar hf5
    refine Script.ok_done_of (hQ m5 pev hpev hpar ?_)
    intro a i ha
    have k : ∀ j, 33 ≤ j → j ≤ 49 → a ≠ .itmp j := ha
    rw [hf5 a i (k _ (by omega) (by omega)) (k _ (by omega) (by omega)) (k _ (by omega) (by omega)),
      back4 a i (k _ (by omega) (by omega)) (k _ (by omega) (by omega)) (k _ (by omega) (by omega)) (k _ (by omega) (by omega)),
      hf2 a i (k _ (by omega) (by omega)) (k _ (by omega) (by omega)) (k _ (by omega) (by omega)) (k _ (by omega) (by omega)),
      hf1 a i (k _ (by omega) (by omega))]

theorem tgRdo_keep {a : CArr} (h : TgRdo a) : TgKeep a := by
  intro j h1 h2 e
  subst e
  rcases h with h | h | h | h
  · simp [MatCell] at h
  all_goals injection h; omega

/-- The whole function. -/
theorem taskGraph_ok (H : TgHyp S A dp ep tr) {m0 : Mem (CTy R)} (hm : TgIn S A dp ep base hasExt m0) :
    (taskGraph sz hasExt tr base S.T S.m S.ntasks).Ok m0
      (fun _ m => TgResult S A dp ep m tr ∧ ∀ a i, TgKeep a → m a i = m0 a i) := by
  refine seq_rule ?_
  rw [H.rows]
  have hrp := hm.mat.pat.rowptr A.m (Nat.le_refl _)
  refine wp_read.2 ⟨trivial, _, hrp, ?_⟩
  have hnn : (A.ptr A.m : Int) + (base : Int) - (base : Int) = (A.nnz : Int) := by
    show _ = ((A.ptr A.m : Nat) : Int)
    omega
  dsimp only
  rw [hnn, ← H.rows]
  generalize hnnz : (A.nnz : Int) = nnz
  have hmn : (S.m : Int) ≤ nnz := by
    have := tgUU_total H
    rw [← hnnz, H.rows]; omega
  -- rows to tasks
  refine tg_orig H hm ?_
  intro _ m1 h33 hf1
  refine tg_zero ?_
  intro _ m2 h2 hf2
  have hm2 : TgIn S A dp ep base hasExt m2 := hm.congr fun a i ha => by
    have k := tgRdo_keep ha
    rw [hf2 a i (k _ (by omega) (by omega)) (k _ (by omega) (by omega)) (k _ (by omega) (by omega)), hf1 a i (k _ (by omega) (by omega))]
  refine tg_count H hm2 ?_
  intro c m3 hc h3 hf3
  have hcut := rowCut_cuts H.team S.ntasks
  have hO : ∀ t, t < S.T → psum (onTeam S.T fun t => (c t).1) t = tgUU S dp ep (rowCut S.T S.ntasks t) := fun t ht =>
    psum_cuts (F := tgUU S dp ep) hcut (tgUU_zero H) (fun u hu => by rw [hc u hu]) (Nat.le_of_lt ht)
  have hI : ∀ t, t < S.T → psum (onTeam S.T fun t => (c t).2) t = tgWW S A dp (rowCut S.T S.ntasks t) := fun t ht =>
    psum_cuts (F := tgWW S A dp) hcut (tgWW_zero H) (fun u hu => by rw [hc u hu]) (Nat.le_of_lt ht)
  refine tg_shift H hmn hO hI (fun t v ht g1 g2 => ⟨(h3 t v ht g1 g2).1, (h3 t v ht g1 g2).2.1⟩) ?_
  intro b m4 vb hv hvb h36 hf4
  refine tg_sum (F := tgUU S dp ep) hv hvb ?_ ?_
  · intro v hvn
    obtain ⟨t, ht, g1, g2⟩ := hcut.find hvn
    rw [hf4 _ _ (by simp)]
    exact (h3 t v ht g1 g2).2.2
  intro q hq
  have hO2 : ∀ t, t ≤ S.T → psum (onTeam S.T fun t => (q t).1) t = tgUU S dp ep (vb t) := fun t ht =>
    psum_cuts (F := tgUU S dp ep) hv (tgUU_zero H) (fun u hu => (hq u hu).1) ht
  have back4 : ∀ a i, a ≠ .itmp 34 → a ≠ .itmp 36 → a ≠ .itmp 39 → m4 a i = m2 a i := by
    intro a i g1 g2 g3; rw [hf4 a i g2, hf3 a i g1 g2 g3]
  have hm4 : TgIn S A dp ep base hasExt m4 := hm2.congr fun a i ha => by
    have k := tgRdo_keep ha
    exact back4 a i (k _ (by omega) (by omega)) (k _ (by omega) (by omega)) (k _ (by omega) (by omega))
  refine tg_build H hv hnnz.symm hm4 ?_ h36 ?_ hvb (fun t ht => hO2 t (Nat.le_of_lt ht)) (fun t ht => (hq t ht).2.2) ?_
  · intro i hi
    rw [back4 _ _ (by simp) (by simp) (by simp), hf2 _ _ (by simp) (by simp) (by simp)]; exact h33 i hi
  · intro i hi
    rw [back4 _ _ (by simp) (by simp) (by simp)]; exact (h2 i hi).1
  intro l m5 ev hl hbuilt hev hinv hf5
  have hR : ∀ t, t ≤ S.T → psum (onTeam S.T l) t = tgLp S A dp ep (vb t) := fun t ht =>
    psum_cuts (F := tgLp S A dp ep) hv tgLp_zero hl ht
  refine seq_rule ?_
  refine wp_wr1 trivial ⟨by omega, by show (S.ntasks : Int) < (S.ntasks : Int) + 1; omega⟩ ?_
  generalize hm6 : m5.set (.itmp 34) (S.ntasks : Int) (psum (onTeam S.T fun t => (q t).1) S.T) = m6
  have hf6 : ∀ a i, a ≠ .itmp 34 → m6 a i = m5 a i := fun a i h => by rw [← hm6, Mem.set_other _ _ _ _ _ h]
  have hf6' : ∀ v : Nat, v < S.ntasks → m6 (.itmp 34) (v : Int) = m5 (.itmp 34) (v : Int) := fun v h => by rw [← hm6, Mem.get_ne _ _ _ _ _ (by omega)]
  have h36' : ∀ c : Nat, c < S.ntasks → m6 (.itmp 36) (c : Int) = some (tgWW S A dp c : Int) := by
    intro c hc
    rw [hf6 _ _ (by simp), hf5 _ _ (by simp) (by simp) (by simp) (by simp) (by simp)]; exact h36 c hc
  refine tg_sort H hv hnnz.symm h36' hev (fun c hc => ⟨?_, ?_⟩) hvb ?_
  · rw [hf6 _ _ (by simp)]; exact (hinv c hc).1
  · exact (hinv c hc).2.congr fun i _ _ => hf6 _ _ (by simp)
  intro _ m7 hs7 hf7
  -- the lists
  have hadj : ∀ c : Nat, c < S.ntasks → ∃ p : Nat, m7 (.itmp 34) (c : Int) = some (p : Int) ∧
      m7 (.itmp 39) (c : Int) = some ((taskAdj S A dp ep c).length : Int) ∧ HoldsQ m7 35 (p : Int) (taskAdj S A dp ep c) := by
    intro c hc
    obtain ⟨t, ht, g1, g2⟩ := hv.find hc
    have hb := hbuilt.adj t c ht g1 g2
    obtain ⟨a1, _⟩ := tgAt_range H g1 g2 (hv.le_n (show t + 1 ≤ S.T by omega))
    refine ⟨(tgAt S A dp ep (vb t) c).toNat, ?_, ?_, ?_⟩
    · rw [hf7 _ _ (by simp), hf6' c hc, hb.ptr, Int.toNat_of_nonneg (by omega)]
    · rw [hf7 _ _ (by simp), hf6 _ _ (by simp), hb.len]
    · rw [Int.toNat_of_nonneg (by omega)]
      exact hb.adj.congr fun i _ _ => by rw [hf7 _ _ (by simp), hf6 _ _ (by simp)]
  choose! pB hpB using hadj
  have hlists : TgLists S A dp ep ev pB m7 := {
    invp := fun c hc => by rw [hf7 _ _ (by simp)]; exact h36' c hc
    invn := fun c hc => by rw [hf7 _ _ (by simp), hf6 _ _ (by simp), (hinv c hc).1, taskInv_length]
    inv := hs7
    adjp := fun c hc => (hpB c hc).1
    adjn := fun c hc => (hpB c hc).2.1
    adj := fun c hc => (hpB c hc).2.2 }
  refine tg_cut2 (F := tgLp S A dp ep) H.team hv (fun a b h _ => cumul_mono _ h) tgLp_zero ?_ (fun t ht => hR t (Nat.le_of_lt ht)) hvb ?_ ?_
  · refine Int.ediv_nonneg ?_ (by omega)
    rw [hR S.T (Nat.le_refl _)]
    have := H.team
    omega
  · intro t v ht g1 g2
    have hvn : v < S.ntasks := by have := hv.le_n (show t + 1 ≤ S.T by omega); omega
    rw [hf7 _ _ (by simp), hf6' v hvn, (hbuilt.adj t v ht g1 g2).ptr, hO2 t (Nat.le_of_lt ht), hR t (Nat.le_of_lt ht)]
    unfold tgAt
    congr 1
    show (_ : Int) = _
    omega
  intro b2 vb2 hv2 hvb2
  refine tg_sum (F := tgLp S A dp ep) hv2 hvb2 ?_ ?_
  · intro v hvn
    rw [hlists.adjn v hvn, tgLp_succ]
    congr 1
    show (_ : Int) = _
    push_cast; omega
  intro q2 hq2
  have back7 : ∀ a i, a ≠ .itmp 33 → a ≠ .itmp 34 → a ≠ .itmp 35 → a ≠ .itmp 36 → a ≠ .itmp 37 → a ≠ .itmp 38 → a ≠ .itmp 39 → m7 a i = m2 a i := by
    intro a i g0 g1 g2 g3 g4 g5 g6
    rw [hf7 a i g4, hf6 a i g1, hf5 a i g1 g2 g4 g5 g6, back4 a i g1 g3 g6]
  have keep7 : ∀ a i, TgKeep a → m7 a i = m0 a i := by
    intro a i k
    rw [back7 a i (k _ (by omega) (by omega)) (k _ (by omega) (by omega)) (k _ (by omega) (by omega)) (k _ (by omega) (by omega)) (k _ (by omega) (by omega))
      (k _ (by omega) (by omega)) (k _ (by omega) (by omega)), hf2 a i (k _ (by omega) (by omega)) (k _ (by omega) (by omega)) (k _ (by omega) (by omega)),
      hf1 a i (k _ (by omega) (by omega))]
  cases tr with
  | true =>
    dsimp only
    rw [if_pos rfl]
    refine tgReduced_ok H ?_ hlists ?_ hv2 hvb2 ?_ ?_
    · intro u hu
      rw [back7 _ _ (by simp) (by simp) (by simp) (by simp) (by simp) (by simp) (by simp)]; exact hm2.thread u hu
    · intro i hi
      rw [back7 _ _ (by simp) (by simp) (by simp) (by simp) (by simp) (by simp) (by simp)]; exact (h2 i hi).2
    · intro t ht
      refine ⟨(hq2 t ht).1, fun v g1 g2 => ?_⟩
      have := (hq2 t ht).2.2 v g1 g2
      rw [tgLp_succ] at this
      push_cast at this
      omega
    · intro m8 pev hpev hpar hk
      exact ⟨⟨ev, pev, hev, hpev, hpar⟩, fun a i ha => (hk a i ha).trans (keep7 a i ha)⟩
  | false =>
    dsimp only
    rw [if_neg (by simp)]
    refine tgPlain_ok hlists ?_
    intro m8 hpar hk
    exact ⟨⟨ev, hev, hpar⟩, fun a i ha => (hk a i ha).trans (keep7 a i ha)⟩

end

end SpMP
