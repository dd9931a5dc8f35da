import Verif.TgBuild
import Verif.PermuteRows
/-
constructTaskGraph_ after the lists are built: sorting the inverse lists, the second load balance, and the lists without reduction.
-/

namespace SpMP
open Spec

variable {R : Type}

section
variable {S : Schedule} {A : Csr R} {dp ep : Nat → Nat} {base : Nat} {hasExt tr : Bool} {sz : CArr → Int}

theorem HoldsQ.get {m : Mem (CTy R)} {j : Nat} {off : Int} {q : List Nat} (h : HoldsQ m j off q) (x : Nat) (hx : x < (q.map (Nat.cast : Nat → Int)).length) :
    m (.itmp j) (off + (x : Nat)) = some ((q.map (Nat.cast : Nat → Int))[x] : Int) := by
  rw [List.length_map] at hx
  rw [h x q[x] (List.getElem?_eq_getElem hx), List.getElem_map]

theorem HoldsQ.of {m : Mem (CTy R)} {j : Nat} {off : Int} {q : List Nat}
    (h : ∀ (x : Nat) (hx : x < (q.map (Nat.cast : Nat → Int)).length), m (.itmp j) (off + (x : Nat)) = some ((q.map (Nat.cast : Nat → Int))[x] : Int)) : HoldsQ m j off q := by
  intro x s hx
  obtain ⟨h1, h2⟩ := List.getElem?_eq_some_iff.1 hx
  have := h x (by rw [List.length_map]; exact h1)
  rw [List.getElem_map, h2] at this
  exact this

theorem taskInv_length (ev : List (Nat × Nat)) (c : Nat) : (taskInv ev c).length = (appended ev c).length := by
  unfold taskInv; rw [List.length_insertionSort]

theorem appended_perm {ev all : List (Nat × Nat)} (h : ev.Perm all) (c : Nat) : (appended ev c).Perm (appended all c) := (h.filter _).map _

/-- Room of the lists after a permutation of the appends. -/
theorem tg_room' (H : TgHyp S A dp ep tr) {ev : List (Nat × Nat)} (hev : ev.Perm (allInvEvents S A dp ep tr)) {c : Nat} (hc : c < S.ntasks) :
    (appended ev c).length + tgWW S A dp c ≤ tgWW S A dp (c + 1) := by
  rw [(appended_perm hev c).length_eq]; exact tg_room H hc

theorem tg_sort (H : TgHyp S A dp ep tr) {vb : Nat → Nat} (hv : TgCuts S.T S.ntasks vb) {m0 : Mem (CTy R)} {nnz cR cF cB : Int} (hnnz : nnz = A.nnz)
    (h36 : ∀ c : Nat, c < S.ntasks → m0 (.itmp 36) (c : Int) = some (tgWW S A dp c : Int)) {ev : List (Nat × Nat)} (hev : ev.Perm (allInvEvents S A dp ep tr))
    (hm : ∀ c : Nat, c < S.ntasks → m0 (.itmp 38) (c : Int) = some ((appended ev c).length : Int) ∧ HoldsQ m0 37 (tgWW S A dp c) (appended ev c))
    {vi : Nat → Int} (hvi : ∀ t, t ≤ S.T → vi t = vb t) {Q : (Nat → Unit) → Mem (CTy R) → Prop}
    (hQ : ∀ r m, (∀ c : Nat, c < S.ntasks → HoldsQ m 37 (tgWW S A dp c) (taskInv ev c)) → (∀ a i, a ≠ .itmp 37 → m a i = m0 a i) → Q r m) :
    ParOk (tgSize sz S.T S.m S.ntasks nnz cR cF cB) S.T Q (fun tid => tgSort (vi tid) (vi (tid + 1))) m0 := by
  have hdis : ∀ (c c' : Nat) (i : Int), c < S.ntasks → c' < S.ntasks → (tgWW S A dp c : Int) ≤ i → i < tgWW S A dp c + (appended ev c).length →
      (tgWW S A dp c' : Int) ≤ i → i < tgWW S A dp c' + (appended ev c').length → c = c' := by
    intro c c' i hc hc' h1 h2 h3 h4
    have r1 := tg_room' H hev hc
    have r2 := tg_room' H hev hc'
    by_contra hne
    rcases Nat.lt_or_gt_of_ne hne with g | g
    · have := tgWW_mono H (show c + 1 ≤ c' by omega) (Nat.le_of_lt hc'); omega
    · have := tgWW_mono H (show c' + 1 ≤ c by omega) (Nat.le_of_lt hc); omega
  let W : Nat → CArr → Int → Prop := fun t a i => a = .itmp 37 ∧ ∃ c : Nat, vb t ≤ c ∧ c < vb (t + 1) ∧ (tgWW S A dp c : Int) ≤ i ∧ i < tgWW S A dp c + (appended ev c).length
  refine par_rule (W := W) (R := fun t a i => W t a i ∨ a = .itmp 36 ∨ a = .itmp 38)
    (Q := fun t _ m => ∀ c : Nat, vb t ≤ c → c < vb (t + 1) → HoldsQ m 37 (tgWW S A dp c) (taskInv ev c)) ?_ ?_ ?_
  · rintro t u a i ht hu hne ⟨rfl, c, h1, h2, h3, h4⟩ h5
    rcases h5 with ⟨_, c', g1, g2, g3, g4⟩ | h5
    · have n1 := hv.le_n (show t + 1 ≤ S.T by omega)
      have n2 := hv.le_n (show u + 1 ≤ S.T by omega)
      have := hdis c c' i (by omega) (by omega) h3 h4 g3 g4
      subst this
      exact hv.disj ht hu hne ⟨h1, h2⟩ ⟨g1, g2⟩
    · simp at h5
  · intro t ht
    unfold tgSort
    rw [hvi t (by omega), hvi (t + 1) (by omega)]
    have hle := hv.le_n (show t + 1 ≤ S.T by omega)
    refine wp_forN (b := 0) (lo := vb t) (hi := vb (t + 1))
      (fun k _ m => (∀ a i, a ≠ .itmp 37 → m a i = m0 a i) ∧ (∀ c, k ≤ c → c < vb (t + 1) → HoldsQ m 37 (tgWW S A dp c) (appended ev c)) ∧
        ∀ c, vb t ≤ c → c < k → HoldsQ m 37 (tgWW S A dp c) (taskInv ev c))
      (hv.mono t ht) ⟨fun _ _ _ => rfl, fun c _ h => (hm c (by omega)).2, fun c h1 h2 => by omega⟩ ?_ ?_ (by omega) (by omega)
    · rintro k _ m h1 h2 ⟨hfr, htodo, hdone⟩
      rw [Int.add_zero]
      refine wp_rd _ (Or.inr (Or.inl rfl)) ((hfr _ _ (by simp)).trans (h36 k (by omega))) ?_
      refine wp_rd _ (Or.inr (Or.inr rfl)) ((hfr _ _ (by simp)).trans (hm k (by omega)).1) ?_
      have hroom := tg_room' H hev (show k < S.ntasks by omega)
      have hW := tgWW_mono H (show k + 1 ≤ S.ntasks by omega) (Nat.le_refl _)
      have hWt := tgWW_total H
      have hrows := H.rows
      refine wp_stdSort (l := (appended ev k).map Nat.cast) (by omega) ?_ ?_ ?_ ?_
      · show (tgWW S A dp k : Int) + ((appended ev k).length : Int) = _
        rw [List.length_map]
      · intro _
        show (tgWW S A dp k : Int) + ((appended ev k).length : Int) ≤ (nnz - (S.m : Int)) / 2 + S.m + S.ntasks
        omega
      · intro q hq
        have hq' : q < (appended ev k).length := by rw [List.length_map] at hq; exact hq
        have hw : W t (.itmp 37) ((tgWW S A dp k : Int) + (q : Nat)) := ⟨rfl, k, h1, h2, by omega, by omega⟩
        exact ⟨Or.inl hw, hw, (htodo k (Nat.le_refl _) h2).get q hq⟩
      · intro s m' hs1 hs2 hs3 hs4
        have hse : s = (taskInv ev k).map Nat.cast := by
          have p1 : s.Perm ((taskInv ev k).map Nat.cast) := hs1.trans ((List.perm_insertionSort _ _).symm.map _)
          refine p1.eq_of_pairwise (fun a b _ _ h1 h2 => Int.le_antisymm h1 h2) hs2 ?_
          rw [List.pairwise_map]
          exact (taskInv_sorted ev k).imp (fun h => by omega)
        subst hse
        have hfr2 : ∀ a i, ¬ (a = .itmp 37 ∧ (tgWW S A dp k : Int) ≤ i ∧ i < (tgWW S A dp k : Int) + ((appended ev k).length : Int)) → m' a i = m a i := hs4
        have hkeep : ∀ (c : Nat) (l : List Nat), c < S.ntasks → c ≠ k → l.length = (appended ev c).length → HoldsQ m 37 (tgWW S A dp c) l → HoldsQ m' 37 (tgWW S A dp c) l := by
          intro c l hc hne hl hh
          refine hh.congr ?_
          intro i g1 g2
          refine hfr2 _ _ ?_
          rintro ⟨_, g3, g4⟩
          exact hne (hdis c k i hc (by omega) g1 (by omega) g3 g4)
        refine ⟨?_, ?_, ?_⟩
        · intro a i ha
          rw [hfr2 a i (by rintro ⟨h, _⟩; exact ha h)]; exact hfr a i ha
        · intro c g1 g2
          exact hkeep c _ (by omega) (by omega) rfl (htodo c (by omega) g2)
        · intro c g1 g2
          by_cases hck : c = k
          · subst hck
            exact HoldsQ.of hs3
          · exact hkeep c _ (by omega) hck (taskInv_length ev c) (hdone c g1 (by omega))
    · rintro _ m ⟨_, _, h⟩ c g1 g2
      exact h c g1 g2
  · intro r m h1 h2
    refine hQ r m ?_ ?_
    · intro c hc
      obtain ⟨t, ht, g1, g2⟩ := hv.find hc
      obtain ⟨mt, h3, h4⟩ := h1 t ht
      refine (h3 c g1 g2).congr ?_
      intro i k1 k2
      rw [taskInv_length] at k2
      exact h4 _ _ (Or.inl ⟨rfl, c, g1, g2, k1, k2⟩)
    · intro a i ha
      exact h2 a i (fun t _ hw => ha hw.1)

/-- The second load balance. -/
theorem tg_cut2 {T n : Nat} (hT : 0 < T) {m : Mem (CTy R)} {vb F : Nat → Nat} (hv : TgCuts T n vb) (hF : ∀ a b, a ≤ b → b ≤ n → F a ≤ F b) (hF0 : F 0 = 0)
    {s vi off : Nat → Int} {per : Int} (hper : 0 ≤ per) (hs : ∀ t, t < T → s t = F (vb t)) (hvi : ∀ t, t ≤ T → vi t = vb t)
    (hm : ∀ t v : Nat, t < T → vb t ≤ v → v < vb (t + 1) → m (.itmp 34) (v : Int) = some ((F v : Int) + off t : Int))
    {Q : (Nat → Int) → Mem (CTy R) → Prop} (hQ : ∀ r vb2, TgCuts T n vb2 → (∀ t, t ≤ T → tgBounds r t = vb2 t) → Q r m) :
    ParOk sz T Q (tgCut T n s vi off per) m := by
  refine par_rule (W := fun _ _ _ => False) (R := fun _ _ _ => True)
    (Q := fun t r m' => m' = m ∧ (t + 1 = T → r = n) ∧ (t + 1 < T → ∃ p : Nat, TgPos T vb F (per * ((t : Int) + 1)) p ∧ r = ((p - 1 : Nat) : Int))) ?_ ?_ ?_
  · rintro t u a i _ _ _ h; exact h.elim
  · intro t ht
    refine wp_tgCut hv hF hF0 hs hvi hper (fun u v hu g1 g2 => ⟨trivial, hm u v hu g1 g2⟩) ht ?_ ?_
    · intro hl; exact ⟨rfl, fun _ => rfl, fun h => by omega⟩
    · intro hl p hp; exact ⟨rfl, fun h => by omega, fun _ => ⟨p, hp, rfl⟩⟩
  · intro r m' h1 h2
    have : m' = m := by funext a i; exact h2 a i (fun t _ h => h)
    subst this
    obtain ⟨vb2, hv1, hv2⟩ := tgBounds_cuts (r := r) (per := per) (F := F) hv hT hper
      (by obtain ⟨mt, h3, _⟩ := h1 (T - 1) (by omega); exact h3.2.1 (by omega))
      (by intro t ht; obtain ⟨mt, h3, _⟩ := h1 t (by omega); exact h3.2.2 ht)
    exact hQ r vb2 hv1 hv2

/-! ### Without reduction -/

/-- The parents of every task, as the executors read them: counts in `40` and `43`, starts in `41` and `44`, lists in `42` and `45`. -/
structure ParentsIn (n : Nat) (F B : Nat → List Nat) (m : Mem (CTy R)) : Prop where
  nf : ∀ i : Nat, i < n → m (.itmp 40) (i : Int) = some ((F i).length : Int)
  nb : ∀ i : Nat, i < n → m (.itmp 43) (i : Int) = some ((B i).length : Int)
  fwd : ∀ i : Nat, i < n → ∃ s : Int, m (.itmp 41) (i : Int) = some s ∧ HoldsQ m 42 s (F i)
  bwd : ∀ i : Nat, i < n → ∃ s : Int, m (.itmp 44) (i : Int) = some s ∧ HoldsQ m 45 s (B i)

theorem wp_tgPlainLen {W Rd : CArr → Int → Prop} (hW : ∀ a i, W a i) (hR : ∀ a i, Rd a i) {n : Nat} {F B : Nat → List Nat} {m0 : Mem (CTy R)}
    (s40 : sz (.itmp 40) = n) (s43 : sz (.itmp 43) = n)
    (h38 : ∀ i : Nat, i < n → m0 (.itmp 38) (i : Int) = some ((F i).length : Int)) (h39 : ∀ i : Nat, i < n → m0 (.itmp 39) (i : Int) = some ((B i).length : Int))
    {Q : Int × Int → Mem (CTy R) → Prop}
    (hQ : ∀ m, (∀ i : Nat, i < n → m (.itmp 40) (i : Int) = some ((F i).length : Int) ∧ m (.itmp 43) (i : Int) = some ((B i).length : Int)) →
      (∀ a i, a ≠ .itmp 40 → a ≠ .itmp 43 → m a i = m0 a i) →
      Q ((cumul (fun i => (F i).length) n : Int), (cumul (fun i => (B i).length) n : Int)) m) : wp sz W Rd (tgPlainLen n) m0 Q := by
  unfold tgPlainLen
  refine wp_forN (b := 0) (lo := 0) (hi := n)
    (fun k s m => s = ((cumul (fun i => (F i).length) k : Int), (cumul (fun i => (B i).length) k : Int)) ∧ (∀ a i, a ≠ .itmp 40 → a ≠ .itmp 43 → m a i = m0 a i) ∧
      ∀ i : Nat, i < k → m (.itmp 40) (i : Int) = some ((F i).length : Int) ∧ m (.itmp 43) (i : Int) = some ((B i).length : Int))
    (by omega) ⟨rfl, fun _ _ _ _ => rfl, fun i h => by omega⟩ ?_ ?_ (by omega) (by omega)
  · rintro k s m _ hk ⟨rfl, hfr, hd⟩
    rw [Int.add_zero]
    refine wp_rd _ (hR _ _) ((hfr _ _ (by simp) (by simp)).trans (h38 k hk)) ?_
    refine wp_wr (hW _ _) ⟨by omega, by omega⟩ ?_
    refine wp_rd _ (hR _ _) (by rw [Mem.set_other _ _ _ _ _ (by simp)]; exact (hfr _ _ (by simp) (by simp)).trans (h39 k hk)) ?_
    refine wp_wr (hW _ _) ⟨by omega, by omega⟩ ?_
    rw [wp_pure]
    refine ⟨?_, ?_, ?_⟩
    · refine Prod.ext ?_ ?_
      · show (cumul (fun i => (F i).length) k : Int) + ((F k).length : Int) = ((cumul (fun i => (F i).length) k + (F k).length : Nat) : Int)
        push_cast; rfl
      · show (cumul (fun i => (B i).length) k : Int) + ((B k).length : Int) = ((cumul (fun i => (B i).length) k + (B k).length : Nat) : Int)
        push_cast; rfl
    · intro a i g1 g2
      rw [Mem.set_other _ _ _ _ _ g2, Mem.set_other _ _ _ _ _ g1]; exact hfr a i g1 g2
    · intro i hi
      by_cases hik : i = k
      · subst hik
        refine ⟨?_, ?_⟩
        · rw [Mem.set_other _ _ _ _ _ (by simp), Mem.get_same]
        · rw [Mem.get_same]
      · obtain ⟨g1, g2⟩ := hd i (by omega)
        refine ⟨?_, ?_⟩
        · rw [Mem.set_other _ _ _ _ _ (by simp), Mem.get_ne _ _ _ _ _ (by omega)]; exact g1
        · rw [Mem.get_ne _ _ _ _ _ (by omega), Mem.set_other _ _ _ _ _ (by simp)]; exact g2
  · rintro s m ⟨rfl, hfr, hd⟩
    exact hQ m hd hfr

theorem cumul_range_lt {f : Nat → Nat} {a b x : Nat} (h : a < b) (hx : x < f a) : cumul f a + x < cumul f b := by
  have : cumul f (a + 1) ≤ cumul f b := cumul_mono f h
  have e : cumul f (a + 1) = cumul f a + f a := rfl
  omega

theorem wp_tgPlainCopy {W Rd : CArr → Int → Prop} (hW : ∀ a i, W a i) (hR : ∀ a i, Rd a i) {n : Nat} {F B : Nat → List Nat} {pF pB : Nat → Nat} {m0 : Mem (CTy R)}
    (s41 : sz (.itmp 41) = n) (s44 : sz (.itmp 44) = n) (s42 : sz (.itmp 42) = cumul (fun i => (F i).length) n) (s45 : sz (.itmp 45) = cumul (fun i => (B i).length) n)
    (h40 : ∀ i : Nat, i < n → m0 (.itmp 40) (i : Int) = some ((F i).length : Int)) (h43 : ∀ i : Nat, i < n → m0 (.itmp 43) (i : Int) = some ((B i).length : Int))
    (h36 : ∀ i : Nat, i < n → m0 (.itmp 36) (i : Int) = some (pF i : Int)) (h34 : ∀ i : Nat, i < n → m0 (.itmp 34) (i : Int) = some (pB i : Int))
    (h37 : ∀ i : Nat, i < n → HoldsQ m0 37 (pF i) (F i)) (h35 : ∀ i : Nat, i < n → HoldsQ m0 35 (pB i) (B i))
    {Q : Int × Int → Mem (CTy R) → Prop} (hQ : ∀ r m, ParentsIn n F B m → (∀ a i, a ≠ .itmp 41 → a ≠ .itmp 42 → a ≠ .itmp 44 → a ≠ .itmp 45 → m a i = m0 a i) → Q r m) :
    wp sz W Rd (tgPlainCopy n) m0 Q := by
  unfold tgPlainCopy
  refine wp_forN (b := 0) (lo := 0) (hi := n)
    (fun k s m => s = ((cumul (fun i => (F i).length) k : Int), (cumul (fun i => (B i).length) k : Int)) ∧
      (∀ a i, a ≠ .itmp 41 → a ≠ .itmp 42 → a ≠ .itmp 44 → a ≠ .itmp 45 → m a i = m0 a i) ∧
      ∀ i : Nat, i < k → m (.itmp 41) (i : Int) = some (cumul (fun i => (F i).length) i : Int) ∧ HoldsQ m 42 (cumul (fun i => (F i).length) i) (F i) ∧
        m (.itmp 44) (i : Int) = some (cumul (fun i => (B i).length) i : Int) ∧ HoldsQ m 45 (cumul (fun i => (B i).length) i) (B i))
    (by omega) ⟨rfl, fun _ _ _ _ _ _ => rfl, fun i h => by omega⟩ ?_ ?_ (by omega) (by omega)
  · rintro k s m _ hk ⟨rfl, hfr, hd⟩
    rw [Int.add_zero]
    have hlF : cumul (fun i => (F i).length) k + (F k).length ≤ cumul (fun i => (F i).length) n := cumul_mono (fun i => (F i).length) (show k + 1 ≤ n by omega)
    have hlB : cumul (fun i => (B i).length) k + (B k).length ≤ cumul (fun i => (B i).length) n := cumul_mono (fun i => (B i).length) (show k + 1 ≤ n by omega)
    refine wp_wr (hW _ _) ⟨by omega, by omega⟩ ?_
    have g0 : ∀ a i, a ≠ .itmp 41 → a ≠ .itmp 42 → a ≠ .itmp 44 → a ≠ .itmp 45 →
        (m.set (.itmp 41) (k : Int) (cumul (fun i => (F i).length) k : Int)) a i = m0 a i := by
      intro a i e1 e2 e3 e4; rw [Mem.set_other _ _ _ _ _ e1]; exact hfr a i e1 e2 e3 e4
    refine wp_rd _ (hR _ _) ((g0 _ _ (by simp) (by simp) (by simp) (by simp)).trans (h40 k hk)) ?_
    refine wp_wr (hW _ _) ⟨by omega, by omega⟩ ?_
    show wp sz W Rd _ ((m.set (.itmp 41) (k : Int) (cumul (fun i => (F i).length) k : Int)).set (.itmp 44) (k : Int) (cumul (fun i => (B i).length) k : Int)) _
    generalize hm1 : (m.set (.itmp 41) (k : Int) (cumul (fun i => (F i).length) k : Int)).set (.itmp 44) (k : Int) (cumul (fun i => (B i).length) k : Int) = m1
    have g1 : ∀ a i, a ≠ .itmp 41 → a ≠ .itmp 42 → a ≠ .itmp 44 → a ≠ .itmp 45 → m1 a i = m0 a i := by
      intro a i e1 e2 e3 e4; rw [← hm1, Mem.set_other _ _ _ _ _ e3]; exact g0 a i e1 e2 e3 e4
    refine wp_rd _ (hR _ _) ((g1 _ _ (by simp) (by simp) (by simp) (by simp)).trans (h43 k hk)) ?_
    refine wp_rd _ (hR _ _) ((g1 _ _ (by simp) (by simp) (by simp) (by simp)).trans (h36 k hk)) ?_
    rw [wp_bind]
    refine wp_copySeg (s := cumul (fun i => (F i).length) k) (f := pF k) (n := (F k).length) (by simp) (fun x => (((F k).getD x 0 : Nat) : Int)) ?_
      (fun _ _ => hR _ _) (fun _ _ => hW _ _) (by rw [s42]; omega) rfl rfl rfl ?_
    · intro x hx
      rw [g1 _ _ (by simp) (by simp) (by simp) (by simp)]
      refine h37 k hk x _ ?_
      rw [List.getD_eq_getElem?_getD, List.getElem?_eq_getElem hx]; rfl
    intro m2 hc2 hf2
    have g2 : ∀ a i, a ≠ .itmp 41 → a ≠ .itmp 42 → a ≠ .itmp 44 → a ≠ .itmp 45 → m2 a i = m0 a i := by
      intro a i e1 e2 e3 e4; rw [hf2 a i (by rintro ⟨h, _⟩; exact e2 h)]; exact g1 a i e1 e2 e3 e4
    refine wp_rd _ (hR _ _) ((g2 _ _ (by simp) (by simp) (by simp) (by simp)).trans (h34 k hk)) ?_
    rw [wp_bind]
    refine wp_copySeg (s := cumul (fun i => (B i).length) k) (f := pB k) (n := (B k).length) (by simp) (fun x => (((B k).getD x 0 : Nat) : Int)) ?_
      (fun _ _ => hR _ _) (fun _ _ => hW _ _) (by rw [s45]; omega) rfl rfl rfl ?_
    · intro x hx
      rw [g2 _ _ (by simp) (by simp) (by simp) (by simp)]
      refine h35 k hk x _ ?_
      rw [List.getD_eq_getElem?_getD, List.getElem?_eq_getElem hx]; rfl
    intro m3 hc3 hf3
    rw [wp_pure]
    refine ⟨?_, ?_, ?_⟩
    · refine Prod.ext ?_ ?_
      · show (cumul (fun i => (F i).length) k : Int) + ((F k).length : Int) = ((cumul (fun i => (F i).length) k + (F k).length : Nat) : Int)
        push_cast; rfl
      · show (cumul (fun i => (B i).length) k : Int) + ((B k).length : Int) = ((cumul (fun i => (B i).length) k + (B k).length : Nat) : Int)
        push_cast; rfl
    · intro a i e1 e2 e3 e4
      rw [hf3 a i (by rintro ⟨h, _⟩; exact e4 h)]; exact g2 a i e1 e2 e3 e4
    · intro i hi
      have e41 : ∀ j, m3 (.itmp 41) j = m1 (.itmp 41) j := fun j => by rw [hf3 _ _ (by simp), hf2 _ _ (by simp)]
      have e44 : ∀ j, m3 (.itmp 44) j = m1 (.itmp 44) j := fun j => by rw [hf3 _ _ (by simp), hf2 _ _ (by simp)]
      rw [e41, e44]
      by_cases hik : i = k
      · subst hik
        refine ⟨?_, ?_, ?_, ?_⟩
        · rw [← hm1, Mem.set_other _ _ _ _ _ (by simp), Mem.get_same]
        · intro x s hx
          obtain ⟨hx1, hx2⟩ := List.getElem?_eq_some_iff.1 hx
          rw [hf3 _ _ (by simp), hc2 x hx1, List.getD_eq_getElem?_getD, hx]; rfl
        · rw [← hm1, Mem.get_same]
        · intro x s hx
          obtain ⟨hx1, hx2⟩ := List.getElem?_eq_some_iff.1 hx
          rw [hc3 x hx1, List.getD_eq_getElem?_getD, hx]; rfl
      · have hik' : i < k := by omega
        obtain ⟨k1, k2, k3, k4⟩ := hd i hik'
        refine ⟨?_, ?_, ?_, ?_⟩
        · rw [← hm1, Mem.set_other _ _ _ _ _ (by simp), Mem.get_ne _ _ _ _ _ (by omega)]; exact k1
        · intro x s hx
          obtain ⟨hx1, hx2⟩ := List.getElem?_eq_some_iff.1 hx
          have := cumul_range_lt (f := fun i => (F i).length) hik' hx1
          rw [hf3 _ _ (by simp), hf2 _ _ (by rintro ⟨_, q, _⟩; omega), ← hm1, Mem.set_other _ _ _ _ _ (by simp), Mem.set_other _ _ _ _ _ (by simp)]
          exact k2 x s hx
        · rw [← hm1, Mem.get_ne _ _ _ _ _ (by omega), Mem.set_other _ _ _ _ _ (by simp)]; exact k3
        · intro x s hx
          obtain ⟨hx1, hx2⟩ := List.getElem?_eq_some_iff.1 hx
          have := cumul_range_lt (f := fun i => (B i).length) hik' hx1
          rw [hf3 _ _ (by rintro ⟨_, q, _⟩; omega), hf2 _ _ (by simp), ← hm1, Mem.set_other _ _ _ _ _ (by simp), Mem.set_other _ _ _ _ _ (by simp)]
          exact k4 x s hx
  · rintro s m ⟨rfl, hfr, hd⟩
    refine hQ _ m ⟨?_, ?_, ?_, ?_⟩ hfr
    · intro i hi; rw [hfr _ _ (by simp) (by simp) (by simp) (by simp)]; exact h40 i hi
    · intro i hi; rw [hfr _ _ (by simp) (by simp) (by simp) (by simp)]; exact h43 i hi
    · intro i hi; exact ⟨_, (hd i hi).1, (hd i hi).2.1⟩
    · intro i hi; exact ⟨_, (hd i hi).2.2.1, (hd i hi).2.2.2⟩

end

end SpMP
