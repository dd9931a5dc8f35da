import Verif.PartMemProof
/-
The phases of the memory-level task partition, and the partition as a whole.
-/

namespace SpMP
open Spec

set_option linter.unusedSectionVars false

variable {R : Type} [Races CArr]

theorem mapM_get {α β : Type} {f : α → Option β} {d : β} : ∀ {l : List α} {r : List β}, l.mapM f = some r →
    ∀ i x, l[i]? = some x → f x = some (r.getD i d) := by
  intro l
  induction l with
  | nil => intro r _ i x h; simp at h
  | cons y l ih =>
    intro r h i x hx
    rw [List.mapM_cons] at h
    cases hy : f y with
    | none => rw [hy] at h; cases h
    | some b =>
      rw [hy] at h
      cases hl : l.mapM f with
      | none => rw [hl] at h; cases h
      | some r' =>
        rw [hl] at h
        cases h
        cases i with
        | zero => simp at hx; subst hx; simpa using hy
        | succ i => simpa using ih hl i x (by simpa using hx)

theorem allTasks_get {agg : Bool} {T : Nat} {cost : Nat → Nat} {L : List (List Nat)} {tr : List (List (Nat × Nat))} (h : allTasks agg T cost L = some tr)
    {l : Nat} (hl : l < L.length) : levelTasks agg T cost (revOf (sortLevels L)) (levIdx L l) (levIdx L (l + 1)) = some (tr.getD l []) :=
  mapM_get h l l (List.getElem?_range hl)

theorem level_of {L : List (List Nat)} {p : Nat} : ∀ k, k ≤ L.length → p < levIdx L k → ∃ l, l < k ∧ levIdx L l ≤ p ∧ p < levIdx L (l + 1) := by
  intro k
  induction k with
  | zero => intro _ h; simp [levIdx] at h
  | succ k ih =>
    intro hk h
    by_cases hc : p < levIdx L k
    · obtain ⟨l, h1, h2⟩ := ih (by omega) hc
      exact ⟨l, by omega, h2⟩
    · exact ⟨k, by omega, by omega, h⟩

/-- What the loop over levels leaves in memory. -/
structure RowsIn (T : Nat) (L : List (List Nat)) (tr : List (List (Nat × Nat))) (m : Mem (CTy R)) : Prop where
  rev : ∀ p : Nat, p < L.flatten.length → m (.itmp 21) (p : Int) = some (revOf (sortLevels L) p : Int)
  cell : ∀ t l : Nat, t < T → l < L.length → Cell L.length l m t (taskAt tr t l)

theorem RowsIn.frame {T : Nat} {L : List (List Nat)} {tr : List (List (Nat × Nat))} {m m' : Mem (CTy R)} (h : RowsIn T L tr m)
    (h1 : ∀ a i, a = .itmp 21 ∨ a = .itmp 51 ∨ a = .itmp 52 → m' a i = m a i) : RowsIn T L tr m' where
  rev p hp := by rw [h1 _ _ (Or.inl rfl)]; exact h.rev p hp
  cell t l ht hl := by
    obtain ⟨c1, c2⟩ := h.cell t l ht hl
    exact ⟨by rw [h1 _ _ (by simp)]; exact c1, by rw [h1 _ _ (by simp)]; exact c2⟩

/-- Sizes used by the loop over levels. -/
structure LvSize (sz : CArr → Int) (T m nlev : Nat) : Prop where
  rev : (m : Int) ≤ sz (.itmp 21)
  buf : (m : Int) ≤ sz (.itmp 50)
  fst : sz (.itmp 51) = T * (nlev + 1) - 1
  snd : sz (.itmp 52) = T * (nlev + 1) - 1

theorem lvTasks_ok {sz : CArr → Int} {cf : Option (Int → Int)} {agg : Bool} {T n : Nat} {cost : Nat → Nat} {L : List (List Nat)} {tr : List (List (Nat × Nat))}
    {m0 : Mem (CTy R)} {lev : List Int} (hlev : ∀ k, k ≤ L.length → lev.getD k 0 = levIdx L k)
    (htr : allTasks agg T cost L = some tr) (hok : TaskRowsOk T L tr) (hc : CostIs cf n cost m0) (hL : L.flatten.Perm (List.range n))
    (hrev : ∀ x s : Nat, L.flatten[x]? = some s → m0 (.itmp 21) (x : Int) = some (s : Int)) (hsz : LvSize sz T n L.length) :
    ParOk sz L.length (fun _ m => RowsIn T L tr m ∧ ∀ a i, (a ≠ .itmp 21 ∧ a ≠ .itmp 50 ∧ a ≠ .itmp 51 ∧ a ≠ .itmp 52) → m a i = m0 a i)
      (lvTask cf agg T L.length lev) m0 := by
  have hn : L.flatten.length = n := by rw [hL.length_eq, List.length_range]
  refine par_rule (W := LvW T L) (R := LvR T L) (Q := fun l _ m' =>
      (∀ p : Nat, levIdx L l ≤ p → p < levIdx L (l + 1) → m' (.itmp 21) (p : Int) = some (revOf (sortLevels L) p : Int)) ∧
      ∀ t be, (tr.getD l [])[t]? = some be → Cell L.length l m' t be) ?_ ?_ ?_ ?_
  · rintro t u a i ht hu htu (⟨ha, h1, h2⟩ | ⟨ha, x, hx, rfl⟩) (h | h)
    · rcases h with ⟨_, g1, g2⟩ | ⟨hb, _⟩
      · rcases Nat.lt_or_gt_of_ne htu with h | h
        · have := levIdx_mono (L := L) (l := t + 1) (l' := u) h (by omega); omega
        · have := levIdx_mono (L := L) (l := u + 1) (l' := t) h (by omega); omega
      · rcases ha with rfl | rfl <;> simp at hb
    · rcases ha with rfl | rfl <;> simp at h
    · rcases h with ⟨hb, _⟩ | ⟨_, y, _, hy⟩
      · rcases ha with rfl | rfl <;> simp at hb
      · exact htu (idx_inj ht hu hy).2
    · rcases ha with rfl | rfl <;> simp at h
  · intro l hl
    exact wp_lvTask hlev hl (allTasks_get htr hl) (hok.team l hl) hc (fun i hi => List.mem_range.mp (hL.mem_iff.mp hi)) hrev
      (by rw [hn]; exact hsz.rev) (by rw [hn]; exact hsz.buf) hsz.fst hsz.snd
  · intro _ m hq hf
    refine ⟨⟨?_, ?_⟩, ?_⟩
    · intro p hp
      obtain ⟨l, h1, h2, h3⟩ := level_of (L := L) (p := p) L.length (Nat.le_refl _) (by rw [levIdx_all]; exact hp)
      obtain ⟨mt, g1, g2⟩ := hq l h1
      rw [g2 _ _ (Or.inl (Or.inl ⟨Or.inl rfl, by omega, by omega⟩))]
      exact g1.1 p h2 h3
    · intro t l ht hl
      obtain ⟨mt, g1, g2⟩ := hq l hl
      have hlt : t < (tr.getD l []).length := by rw [hok.team l hl]; exact ht
      have := g1.2 t (taskAt tr t l) (by
        unfold taskAt
        rw [List.getElem?_eq_getElem hlt, List.getD_eq_getElem?_getD (i := t), List.getElem?_eq_getElem hlt, Option.getD_some])
      constructor
      · rw [g2 _ _ (Or.inl (Or.inr ⟨Or.inl rfl, t, ht, rfl⟩))]; exact this.1
      · rw [g2 _ _ (Or.inl (Or.inr ⟨Or.inr rfl, t, ht, rfl⟩))]; exact this.2
    · rintro a i ⟨h1, h2, h3, h4⟩
      refine hf a i ?_
      rintro t _ (⟨h | h, _⟩ | ⟨h | h, _⟩) <;> contradiction
  · intro t a i _ h; exact Or.inl h

/-! ### Counts -/

theorem wp_ptCount {sz : CArr → Int} {W Rd : CArr → Int → Prop} {useBarrier : Bool} {T : Nat} {L : List (List Nat)} {tr : List (List (Nat × Nat))} {m : Mem (CTy R)}
    {tid : Nat} (ht : tid < T) (hok : TaskRowsOk T L tr) (hin : RowsIn T L tr m) (hs1 : sz (.itmp 53) = T + 1) (hs2 : sz (.itmp 31) = T + 1)
    (hW1 : W (.itmp 53) ((tid : Int) + 1)) (hW2 : W (.itmp 31) ((tid : Int) + 1)) (hR : ∀ a i, a = .itmp 51 ∨ a = .itmp 52 → Rd a i) :
    wp sz W Rd (ptCount useBarrier L.length tid) m (fun _ m' => m' (.itmp 53) ((tid : Int) + 1) = some (rowSum tr tid : Int) ∧
      m' (.itmp 31) ((tid : Int) + 1) = some (taskCnt useBarrier tr tid : Int)) := by
  unfold ptCount
  rw [wp_bind]
  have hle : ∀ l, l < L.length → (taskAt tr tid l).1 ≤ (taskAt tr tid l).2 := by
    intro l hl
    have hlt : tid < (tr.getD l []).length := by rw [hok.team l hl]; exact ht
    have := (cuts_get (hok.cuts l hl) hlt).2.1
    unfold taskAt
    rw [List.getD_eq_getElem?_getD (i := tid), List.getElem?_eq_getElem hlt, Option.getD_some]; exact this
  refine wp_forN (b := 0) (lo := 0) (hi := L.length) (fun x s m' => m' = m ∧
    s.1 = (((((List.range x).map (taskAt tr tid)).map fun be => be.2 - be.1).sum : Nat) : Int) ∧
    s.2 = (((((List.range x).map (taskAt tr tid)).map fun be => if useBarrier || be.2 - be.1 != 0 then 1 else 0).sum : Nat) : Int))
    (Nat.zero_le _) ⟨rfl, rfl, rfl⟩ ?_ ?_ (by simp) (by simp)
  · rintro l ⟨s1, s2⟩ m' - hl ⟨rfl, h1, h2⟩
    rw [Int.add_zero]
    obtain ⟨c1, c2⟩ := hin.cell tid l ht hl
    refine wp_rd _ (hR _ _ (by simp)) c2 (wp_rd _ (hR _ _ (by simp)) c1 ?_)
    rw [wp_pure]
    have hl2 := hle l hl
    refine ⟨rfl, ?_, ?_⟩
    · rw [List.range_succ, List.map_append, List.map_append, List.sum_append]
      simp only [List.map_cons, List.map_nil, List.sum_cons, List.sum_nil, Nat.add_zero]
      push_cast
      have h1 : s1 = _ := h1
      rw [h1]; push_cast; omega
    · rw [List.range_succ, List.map_append, List.map_append, List.sum_append]
      simp only [List.map_cons, List.map_nil, List.sum_cons, List.sum_nil, Nat.add_zero]
      have h2 : s2 = _ := h2
      have e : (useBarrier || decide (((taskAt tr tid l).2 : Int) - ((taskAt tr tid l).1 : Int) ≠ 0)) =
          (useBarrier || (taskAt tr tid l).2 - (taskAt tr tid l).1 != 0) := by
        congr 1
        by_cases hc : (taskAt tr tid l).2 - (taskAt tr tid l).1 = 0
        · simp [hc]; omega
        · have : ((taskAt tr tid l).2 : Int) - ((taskAt tr tid l).1 : Int) ≠ 0 := by omega
          simp [hc, this]
      show (if (useBarrier || decide (((taskAt tr tid l).2 : Int) - ((taskAt tr tid l).1 : Int) ≠ 0)) = true then s2 + 1 else s2) = _
      rw [e, h2]
      split <;> push_cast <;> omega
  · rintro ⟨s1, s2⟩ m' ⟨rfl, h1, h2⟩
    have h1 : s1 = _ := h1
    have h2 : s2 = _ := h2
    refine wp_wr hW1 ⟨by omega, by rw [hs1]; omega⟩ (wp_wr1 hW2 ⟨by omega, by rw [hs2]; omega⟩ ⟨?_, ?_⟩)
    · rw [Mem.set_other _ _ _ _ _ (by simp), Mem.get_same]
      show some s1 = _
      unfold rowSum
      rw [h1, threadRow_eq, hok.len]
    · rw [Mem.get_same]
      show some s2 = _
      unfold taskCnt
      rw [h2, threadRow_eq, hok.len]

theorem ptCount_ok {sz : CArr → Int} {useBarrier : Bool} {T : Nat} {L : List (List Nat)} {tr : List (List (Nat × Nat))} {m0 : Mem (CTy R)}
    (hok : TaskRowsOk T L tr) (hin : RowsIn T L tr m0) (hs1 : sz (.itmp 53) = T + 1) (hs2 : sz (.itmp 31) = T + 1)
    (h53 : m0 (.itmp 53) 0 = some (0 : Int)) (h31 : m0 (.itmp 31) 0 = some (0 : Int)) :
    ParOk sz T (fun _ m => m (.itmp 53) 0 = some (0 : Int) ∧ m (.itmp 31) 0 = some (0 : Int) ∧
      (∀ t : Nat, t < T → m (.itmp 53) ((t : Int) + 1) = some (rowSum tr t : Int) ∧ m (.itmp 31) ((t : Int) + 1) = some (taskCnt useBarrier tr t : Int)) ∧
      ∀ a i, a ≠ .itmp 53 → a ≠ .itmp 31 → m a i = m0 a i) (ptCount useBarrier L.length) m0 := by
  refine par_rule (W := fun t a i => (a = .itmp 53 ∨ a = .itmp 31) ∧ i = (t : Int) + 1)
    (R := fun t a i => ((a = .itmp 53 ∨ a = .itmp 31) ∧ i = (t : Int) + 1) ∨ a = .itmp 51 ∨ a = .itmp 52) (Q := fun tid _ m' =>
      m' (.itmp 53) ((tid : Int) + 1) = some (rowSum tr tid : Int) ∧ m' (.itmp 31) ((tid : Int) + 1) = some (taskCnt useBarrier tr tid : Int)) ?_ ?_ ?_
  · rintro t u a i ht hu htu ⟨ha, rfl⟩ (⟨_, h⟩ | h | h)
    · omega
    · rcases ha with rfl | rfl <;> simp at h
    · rcases ha with rfl | rfl <;> simp at h
  · intro t ht
    exact wp_ptCount ht hok hin hs1 hs2 ⟨Or.inl rfl, rfl⟩ ⟨Or.inr rfl, rfl⟩ (fun a i h => Or.inr h)
  · intro _ m hq hf
    refine ⟨?_, ?_, ?_, ?_⟩
    · rw [hf _ _ (by rintro t _ ⟨_, h⟩; omega)]; exact h53
    · rw [hf _ _ (by rintro t _ ⟨_, h⟩; omega)]; exact h31
    · intro t ht
      obtain ⟨mt, h1, h2⟩ := hq t ht
      exact ⟨by rw [h2 _ _ (Or.inl ⟨Or.inl rfl, rfl⟩)]; exact h1.1, by rw [h2 _ _ (Or.inl ⟨Or.inr rfl, rfl⟩)]; exact h1.2⟩
    · intro a i h1 h2
      exact hf a i (by rintro t _ ⟨h | h, _⟩ <;> contradiction)

theorem overThreads_succ (f : Nat → Nat) (t : Nat) : overThreads f (t + 1) = overThreads f t + f t := by
  unfold overThreads
  rw [List.range_succ, List.map_append, List.sum_append]; simp

theorem wp_ptSums {sz : CArr → Int} {W Rd : CArr → Int → Prop} {T : Nat} {f g : Nat → Nat} {m : Mem (CTy R)} {Q : Int → Mem (CTy R) → Prop}
    (hW : ∀ a i, W a i) (hR : ∀ a i, Rd a i) (hs1 : sz (.itmp 53) = T + 1) (hs2 : sz (.itmp 31) = T + 1)
    (h53 : m (.itmp 53) 0 = some (0 : Int)) (h31 : m (.itmp 31) 0 = some (0 : Int))
    (hm : ∀ t : Nat, t < T → m (.itmp 53) ((t : Int) + 1) = some (f t : Int) ∧ m (.itmp 31) ((t : Int) + 1) = some (g t : Int))
    (hQ : ∀ m', (∀ t : Nat, t ≤ T → m' (.itmp 53) (t : Int) = some (overThreads f t : Int) ∧ m' (.itmp 31) (t : Int) = some (overThreads g t : Int)) →
      (∀ a i, a ≠ .itmp 53 → a ≠ .itmp 31 → m' a i = m a i) → Q (overThreads g T : Int) m') :
    wp sz W Rd (ptSums T) m Q := by
  unfold ptSums
  rw [wp_bind]
  refine wp_forN (b := 0) (lo := 0) (hi := T) (fun x _ m' =>
    (∀ t : Nat, t ≤ x → m' (.itmp 53) (t : Int) = some (overThreads f t : Int) ∧ m' (.itmp 31) (t : Int) = some (overThreads g t : Int)) ∧
    (∀ t : Nat, x ≤ t → t < T → m' (.itmp 53) ((t : Int) + 1) = some (f t : Int) ∧ m' (.itmp 31) ((t : Int) + 1) = some (g t : Int)) ∧
    ∀ a i, a ≠ .itmp 53 → a ≠ .itmp 31 → m' a i = m a i) (Nat.zero_le _) ⟨?_, fun t _ h => hm t h, fun _ _ _ _ => rfl⟩ ?_ ?_ (by simp) (by simp)
  · intro t ht
    have : t = 0 := by omega
    subst this
    exact ⟨h53, h31⟩
  · rintro x _ m1 - hx ⟨h1, h2, h3⟩
    rw [Int.add_zero]
    obtain ⟨a1, a2⟩ := h1 x (Nat.le_refl _)
    obtain ⟨b1, b2⟩ := h2 x (Nat.le_refl _) hx
    refine wp_rd _ (hR _ _) b1 (wp_rd _ (hR _ _) a1 (wp_wr (hW _ _) ⟨by omega, by rw [hs1]; omega⟩ ?_))
    refine wp_rd (g x : Int) (hR _ _) (by rw [Mem.set_other _ _ _ _ _ (by simp)]; exact b2) ?_
    refine wp_rd (overThreads g x : Int) (hR _ _) (by rw [Mem.set_other _ _ _ _ _ (by simp)]; exact a2) ?_
    refine wp_wr1 (hW _ _) ⟨by omega, by rw [hs2]; omega⟩ ⟨?_, ?_, ?_⟩
    · intro t ht
      by_cases hte : t = x + 1
      · subst hte
        push_cast
        refine ⟨?_, ?_⟩
        · rw [Mem.set_other _ _ _ _ _ (by simp), Mem.get_same, overThreads_succ]; push_cast; rw [Int.add_comm]
        · rw [Mem.get_same, overThreads_succ]; push_cast; rw [Int.add_comm]
      · obtain ⟨c1, c2⟩ := h1 t (by omega)
        refine ⟨?_, ?_⟩
        · rw [Mem.set_other _ _ _ _ _ (by simp), Mem.get_ne _ _ _ _ _ (by omega)]; exact c1
        · rw [Mem.get_ne _ _ _ _ _ (by omega), Mem.set_other _ _ _ _ _ (by simp)]; exact c2
    · intro t ht htT
      obtain ⟨c1, c2⟩ := h2 t (by omega) htT
      refine ⟨?_, ?_⟩
      · rw [Mem.set_other _ _ _ _ _ (by simp), Mem.get_ne _ _ _ _ _ (by omega)]; exact c1
      · rw [Mem.get_ne _ _ _ _ _ (by omega), Mem.set_other _ _ _ _ _ (by simp)]; exact c2
    · intro a i e1 e2
      rw [Mem.set_other _ _ _ _ _ e2, Mem.set_other _ _ _ _ _ e1]; exact h3 a i e1 e2
  · rintro _ m1 ⟨h1, _, h3⟩
    rw [wp_read]
    exact ⟨hR _ _, _, (h1 T (Nat.le_refl _)).2, hQ m1 h1 h3⟩

/-! ### Laying out the tasks -/

/-- From position `o` on, the two permutations hold the rows of `Y`. -/
def PermsIn (o : Nat) (Y : List Nat) (m : Mem (CTy R)) : Prop :=
  ∀ p x : Nat, o ≤ p → Y[p]? = some x → m (.itmp 32) (p : Int) = some (x : Int) ∧ m (.itmp 54) (x : Int) = some (p : Int)

theorem PermsIn.push {o : Nat} {Y : List Nat} {m : Mem (CTy R)} (h : PermsIn o Y m) {x : Nat} (hx : x ∉ Y) :
    PermsIn o (Y ++ [x]) ((m.set (.itmp 54) (x : Int) (Y.length : Int)).set (.itmp 32) (Y.length : Int) (x : Int)) := by
  intro p y hp hy
  by_cases hpl : p < Y.length
  · rw [List.getElem?_append_left hpl] at hy
    obtain ⟨h1, h2⟩ := h p y hp hy
    have hyx : y ≠ x := by rintro rfl; exact hx (List.mem_of_getElem? hy)
    constructor
    · rw [Mem.get_ne _ _ _ _ _ (by omega), Mem.set_other _ _ _ _ _ (by simp)]; exact h1
    · rw [Mem.set_other _ _ _ _ _ (by simp), Mem.get_ne _ _ _ _ _ (by omega)]; exact h2
  · have hpe : p = Y.length := by
      have := (List.getElem?_eq_some_iff.mp hy).1
      simp at this; omega
    subst hpe
    rw [List.getElem?_append_right (Nat.le_refl _)] at hy
    simp at hy
    subst hy
    constructor
    · exact Mem.get_same _ _ _ _
    · rw [Mem.set_other _ _ _ _ _ (by simp)]; exact Mem.get_same _ _ _ _

theorem sliceOf_succ (rev : Nat → Nat) {b j : Nat} (h : b ≤ j) : sliceOf rev (b, j + 1) = sliceOf rev (b, j) ++ [rev j] := by
  unfold sliceOf
  simp only
  rw [show j + 1 - b = (j - b) + 1 by omega, List.range'_concat, List.map_append]
  simp only [Nat.one_mul, List.map_cons, List.map_nil]
  rw [show b + (j - b) = j by omega]

/-- `F` is the list of all rows in the order of the tasks; positions `o ..` belong to this thread. -/
theorem wp_ptRows {sz : CArr → Int} {W Rd : CArr → Int → Prop} {useBarrier : Bool} {rev : Nat → Nat} {F Y : List Nat} {b e n o : Nat} {m : Mem (CTy R)}
    {Q : Int → Mem (CTy R) → Prop} (hbe : b ≤ e) (hF : F.Nodup) (hFn : ∀ x ∈ F, x < n) (hFl : F.length = n) (hpre : Y ++ sliceOf rev (b, e) <+: F)
    (hrev : ∀ j : Nat, b ≤ j → j < e → Rd (.itmp 21) (j : Int) ∧ m (.itmp 21) (j : Int) = some (rev j : Int))
    (hs1 : (n : Int) ≤ sz (.itmp 54)) (hs2 : (n : Int) ≤ sz (.itmp 32))
    (hW : ∀ p x : Nat, Y.length ≤ p → p < Y.length + (e - b) → F[p]? = some x → W (.itmp 54) (x : Int) ∧ W (.itmp 32) (p : Int))
    (hY : PermsIn o Y m)
    (hQ : ∀ m', PermsIn o (Y ++ sliceOf rev (b, e)) m' → (∀ a i, a ≠ .itmp 54 → a ≠ .itmp 32 → m' a i = m a i) →
      Q ((Y ++ sliceOf rev (b, e)).length : Int) m') :
    wp sz W Rd (ptRows useBarrier (b : Int) (e : Int) (Y.length : Int)) m Q := by
  unfold ptRows
  refine wp_forN (b := 0) (lo := b) (hi := e) (fun j ro m' => ro = ((Y ++ sliceOf rev (b, j)).length : Int) ∧ PermsIn o (Y ++ sliceOf rev (b, j)) m' ∧
    ∀ a i, a ≠ .itmp 54 → a ≠ .itmp 32 → m' a i = m a i) hbe ⟨?_, ?_, fun _ _ _ _ => rfl⟩ ?_ ?_ (by simp) (by simp)
  · simp [sliceOf]
  · simpa [sliceOf] using hY
  · rintro j ro m1 h1 h2 ⟨rfl, h3, h4⟩
    rw [Int.add_zero]
    obtain ⟨r1, r2⟩ := hrev j h1 h2
    have hlen : (Y ++ sliceOf rev (b, j)).length = Y.length + (j - b) := by simp [sliceOf]
    have hpj : (Y ++ sliceOf rev (b, j)) ++ [rev j] <+: F := by
      refine List.IsPrefix.trans ?_ hpre
      rw [List.append_assoc, ← sliceOf_succ rev h1]
      refine (List.prefix_append_right_inj Y).mpr ?_
      rw [← sliceOf_append rev (a := b) (b := j + 1) (c := e) (by omega) (by omega)]
      exact List.prefix_append _ _
    have hFj : F[(Y ++ sliceOf rev (b, j)).length]? = some (rev j) := by
      obtain ⟨t, rfl⟩ := hpj
      rw [List.append_assoc, List.getElem?_append_right (Nat.le_refl _)]; simp
    have hnot : rev j ∉ Y ++ sliceOf rev (b, j) := by
      have := (List.IsPrefix.sublist hpj).nodup hF
      intro hc
      exact (List.nodup_append.mp this).2.2 _ hc _ (by simp) rfl
    have hxn : rev j < n := hFn _ (List.mem_of_getElem? hFj)
    have hpn : (Y ++ sliceOf rev (b, j)).length < n := by
      rw [← hFl]; exact (List.getElem?_eq_some_iff.mp hFj).1
    obtain ⟨w1, w2⟩ := hW _ _ (by omega) (by omega) hFj
    refine wp_rd (rev j : Int) r1 (by rw [h4 _ _ (by simp) (by simp)]; exact r2) ?_
    refine wp_wr w1 ⟨by omega, by omega⟩ ?_
    rw [wp_bind, wp_assert]
    refine ⟨Or.inr (by omega), wp_wr w2 ⟨by omega, by omega⟩ ?_⟩
    rw [wp_pure, sliceOf_succ rev h1, ← List.append_assoc]
    refine ⟨by simp only [List.length_append, List.length_cons, List.length_nil]; omega, h3.push hnot, ?_⟩
    intro a i e1 e2
    rw [Mem.set_other _ _ _ _ _ e2, Mem.set_other _ _ _ _ _ e1]; exact h4 a i e1 e2
  · rintro ro m1 ⟨rfl, h3, h4⟩
    exact hQ m1 h3 h4

/-- The tasks `P` are laid out from task `ko` and position `o` on. -/
structure TasksIn (rev : Nat → Nat) (ko o : Nat) (P : List (Nat × Nat)) (m : Mem (CTy R)) : Prop where
  rows : PermsIn o (taskRowsOf rev P) m
  tasks : ∀ k : Nat, ko ≤ k → k < P.length → m (.itmp 30) (k : Int) = some ((taskRowsOf rev (P.take k)).length : Int)

theorem wp_ptFill {sz : CArr → Int} {W Rd : CArr → Int → Prop} {useBarrier : Bool} {T n : Nat} {L : List (List Nat)} {tr : List (List (Nat × Nat))} {m : Mem (CTy R)}
    {tid : Nat} {rev : Nat → Nat} (hrv : rev = revOf (sortLevels L)) (ht : tid < T) (hok : TaskRowsOk T L tr) (hin : RowsIn T L tr m)
    (hn : L.flatten.length = n)
    {F : List (Nat × Nat)} (hFd : F = tasksBefore useBarrier tr T) (hF : (taskRowsOf rev F).Nodup) (hFn : ∀ x ∈ taskRowsOf rev F, x < n) (hFl : (taskRowsOf rev F).length = n)
    (h53 : m (.itmp 53) (tid : Int) = some ((taskRowsOf rev (tasksBefore useBarrier tr tid)).length : Int))
    (h31 : m (.itmp 31) (tid : Int) = some ((tasksBefore useBarrier tr tid).length : Int))
    (hs1 : (n : Int) ≤ sz (.itmp 54)) (hs2 : (n : Int) ≤ sz (.itmp 32)) (hs3 : (F.length : Int) ≤ sz (.itmp 30))
    (hR : ∀ a i, (a = .itmp 21 ∨ a = .itmp 51 ∨ a = .itmp 52 ∨ a = .itmp 53 ∨ a = .itmp 31) → Rd a i)
    (hW : ∀ p x : Nat, (taskRowsOf rev (tasksBefore useBarrier tr tid)).length ≤ p → p < (taskRowsOf rev (tasksBefore useBarrier tr (tid + 1))).length →
      (taskRowsOf rev F)[p]? = some x → W (.itmp 54) (x : Int) ∧ W (.itmp 32) (p : Int))
    (hW3 : ∀ k : Nat, (tasksBefore useBarrier tr tid).length ≤ k → k < (tasksBefore useBarrier tr (tid + 1)).length → W (.itmp 30) (k : Int)) :
    wp sz W Rd (ptFill useBarrier L.length tid) m (fun _ m' =>
      TasksIn rev (tasksBefore useBarrier tr tid).length (taskRowsOf rev (tasksBefore useBarrier tr tid)).length (tasksBefore useBarrier tr (tid + 1)) m') := by
  unfold ptFill
  obtain ⟨P0, hP0⟩ : ∃ P0, P0 = tasksBefore useBarrier tr tid := ⟨_, rfl⟩
  have hP1 : tasksBefore useBarrier tr (tid + 1) = P0 ++ kept useBarrier (threadRow tr tid) := by rw [hP0]; exact tasksBefore_succ _ _ _
  rw [hP1] at hW hW3 ⊢
  rw [← hP0] at hW hW3 h53 h31 ⊢
  have hPF : P0 ++ kept useBarrier (threadRow tr tid) <+: F := by
    rw [← hP1, hFd]
    unfold tasksBefore
    obtain ⟨d, rfl⟩ : ∃ d, T = tid + 1 + d := ⟨T - (tid + 1), by omega⟩
    rw [show List.range (tid + 1 + d) = _ from List.range_add, List.flatMap_append (xs := List.range (tid + 1))]
    exact List.prefix_append _ _
  have htr : threadRow tr tid = (List.range L.length).map (taskAt tr tid) := by rw [threadRow_eq, hok.len]
  rw [htr] at hW hW3 hPF ⊢
  refine wp_rd _ (hR _ _ (by simp)) h53 (wp_rd _ (hR _ _ (by simp)) h31 ?_)
  have hle : ∀ l, l < L.length → (taskAt tr tid l).1 ≤ (taskAt tr tid l).2 ∧ (taskAt tr tid l).2 ≤ n := by
    intro l hl
    have hlt : tid < (tr.getD l []).length := by rw [hok.team l hl]; exact ht
    have h1 := cuts_get (hok.cuts l hl) hlt
    have h2 := levIdx_mono (L := L) (l := l + 1) (l' := L.length) hl (Nat.le_refl _)
    rw [levIdx_all] at h2
    unfold taskAt
    rw [List.getD_eq_getElem?_getD (i := tid), List.getElem?_eq_getElem hlt, Option.getD_some]
    exact ⟨h1.2.1, by omega⟩
  obtain ⟨pre, hpre⟩ : ∃ pre : Nat → List (Nat × Nat), pre = fun x => P0 ++ kept useBarrier ((List.range x).map (taskAt tr tid)) := ⟨_, rfl⟩
  have hpre0 : pre 0 = P0 := by rw [hpre]; simp [kept]
  have hpreN : P0 ++ kept useBarrier ((List.range L.length).map (taskAt tr tid)) = pre L.length := by rw [hpre]
  rw [hpreN] at hW hW3 hPF ⊢
  have hpres : ∀ x, pre (x + 1) = if useBarrier || decide ((taskAt tr tid x).1 < (taskAt tr tid x).2) then pre x ++ [taskAt tr tid x] else pre x := by
    intro x
    rw [hpre]
    simp only [List.range_succ, List.map_append, List.map_cons, List.map_nil, kept, List.filter_append, List.filter_cons, List.filter_nil]
    split <;> simp
  have hprex : ∀ x y, x ≤ y → pre x <+: pre y := by
    intro x y hxy
    induction y, hxy using Nat.le_induction with
    | base => exact List.prefix_refl _
    | succ y _ ih =>
      rw [hpres y]
      split
      · exact ih.trans (List.prefix_append _ _)
      · exact ih
  have hrows : ∀ {P P' : List (Nat × Nat)}, P <+: P' → taskRowsOf rev P <+: taskRowsOf rev P' := by
    rintro P _ ⟨t, rfl⟩
    rw [taskRowsOf_append]; exact List.prefix_append _ _
  rw [wp_bind]
  refine wp_forN (b := 0) (lo := 0) (hi := L.length) (fun x s m' => s = (((taskRowsOf rev (pre x)).length : Int), ((pre x).length : Int)) ∧
    TasksIn rev P0.length (taskRowsOf rev P0).length (pre x) m' ∧ ∀ a i, a ≠ .itmp 54 → a ≠ .itmp 32 → a ≠ .itmp 30 → m' a i = m a i)
    (Nat.zero_le _) ⟨by rw [hpre0], ⟨?_, ?_⟩, fun _ _ _ _ _ => rfl⟩ ?_ ?_ (by simp) (by simp)
  · intro p x hp hx
    rw [hpre0] at hx
    have := (List.getElem?_eq_some_iff.mp hx).1
    omega
  · intro k h1 h2; rw [hpre0] at h2; omega
  · rintro x s m1 - hx ⟨rfl, h2, h3⟩
    rw [Int.add_zero]
    obtain ⟨c1, c2⟩ := hin.cell tid x ht hx
    obtain ⟨hbe, hen⟩ := hle x hx
    refine wp_rd (((taskAt tr tid x).1 : Nat) : Int) (hR _ _ (by simp)) (by rw [h3 _ _ (by simp) (by simp) (by simp)]; exact c1) ?_
    refine wp_rd (((taskAt tr tid x).2 : Nat) : Int) (hR _ _ (by simp)) (by rw [h3 _ _ (by simp) (by simp) (by simp)]; exact c2) ?_
    have hcond : (useBarrier || decide (((taskAt tr tid x).1 : Int) < ((taskAt tr tid x).2 : Int))) = (useBarrier || decide ((taskAt tr tid x).1 < (taskAt tr tid x).2)) := by
      congr 1; rw [decide_eq_decide]; omega
    have hs := hpres x
    show wp sz W Rd (if (useBarrier || decide (((taskAt tr tid x).1 : Int) < ((taskAt tr tid x).2 : Int))) = true then _ else _) m1 _
    rw [hcond]
    by_cases hk : (useBarrier || decide ((taskAt tr tid x).1 < (taskAt tr tid x).2)) = true
    · rw [if_pos hk] at hs ⊢
      have hpl := (hprex (x + 1) L.length hx)
      have hlen : (pre x).length < (pre L.length).length := by
        have := hpl.length_le; rw [hs] at this; simp at this; omega
      have hP0l : P0.length ≤ (pre x).length := by have := (hprex 0 x (Nat.zero_le _)).length_le; rwa [hpre0] at this
      have hFl2 := hPF.length_le
      refine wp_wr (hW3 _ hP0l hlen) ⟨by show (0 : Int) ≤ ((pre x).length : Int); omega, by show ((pre x).length : Int) < _; omega⟩ ?_
      rw [wp_bind]
      have e1 : taskRowsOf rev (pre (x + 1)) = taskRowsOf rev (pre x) ++ sliceOf rev ((taskAt tr tid x).1, (taskAt tr tid x).2) := by
        rw [hs, taskRowsOf_append]; simp [taskRowsOf]
      have hq0 : (taskRowsOf rev P0).length ≤ (taskRowsOf rev (pre x)).length := by
        have := (hrows (hprex 0 x (Nat.zero_le _))).length_le; rwa [hpre0] at this
      have hq1 := (hrows hpl).length_le
      have hsl : (sliceOf rev ((taskAt tr tid x).1, (taskAt tr tid x).2)).length = (taskAt tr tid x).2 - (taskAt tr tid x).1 := by simp [sliceOf]
      rw [e1, List.length_append, hsl] at hq1
      refine wp_ptRows (rev := rev) (F := taskRowsOf rev F) (Y := taskRowsOf rev (pre x)) (n := n) (o := (taskRowsOf rev P0).length) hbe hF hFn hFl ?_ ?_ hs1 hs2 ?_ ?_ ?_
      · rw [← e1]; exact hrows (hpl.trans hPF)
      · intro j j1 j2
        refine ⟨hR _ _ (by simp), ?_⟩
        rw [Mem.set_other _ _ _ _ _ (by simp), h3 _ _ (by simp) (by simp) (by simp), hrv]
        exact hin.rev j (by omega)
      · intro p y p1 p2 hy
        exact hW p y (by omega) (by omega) hy
      · intro p y p1 hy
        obtain ⟨g1, g2⟩ := h2.rows p y p1 hy
        exact ⟨by rw [Mem.set_other _ _ _ _ _ (by simp)]; exact g1, by rw [Mem.set_other _ _ _ _ _ (by simp)]; exact g2⟩
      · intro m2 g1 g2
        rw [wp_pure, ← e1]
        rw [← e1] at g1
        refine ⟨?_, ⟨g1, ?_⟩, ?_⟩
        · rw [hs]; simp
        · intro k k1 k2
          rw [g2 _ _ (by simp) (by simp)]
          by_cases hke : k = (pre x).length
          · subst hke
            rw [hs, List.take_append_of_le_length (Nat.le_refl _), List.take_length]
            exact Mem.get_same _ _ _ _
          · rw [hs, List.length_append, List.length_singleton] at k2
            rw [Mem.get_ne _ _ _ _ _ (by show ((k : Nat) : Int) ≠ ((pre x).length : Int); omega), hs, List.take_append_of_le_length (by omega)]
            exact h2.tasks k k1 (by omega)
        · intro a i e1 e2 e3
          rw [g2 a i e1 e2, Mem.set_other _ _ _ _ _ e3]; exact h3 a i e1 e2 e3
    · rw [if_neg hk] at hs ⊢
      rw [wp_pure, hs]
      exact ⟨rfl, h2, h3⟩
  · rintro s m1 ⟨rfl, h2, h3⟩
    rw [wp_pure]
    exact h2

theorem range_of {f : Nat → Nat} {p : Nat} (h0 : f 0 = 0) : ∀ k, p < f k → ∃ t, t < k ∧ f t ≤ p ∧ p < f (t + 1) := by
  intro k
  induction k with
  | zero => intro h; omega
  | succ k ih =>
    intro h
    by_cases hc : p < f k
    · obtain ⟨t, h1, h2⟩ := ih hc
      exact ⟨t, by omega, h2⟩
    · exact ⟨k, by omega, by omega, h⟩

theorem tasksBefore_prefix (useBarrier : Bool) (tr : List (List (Nat × Nat))) {t u : Nat} (h : t ≤ u) :
    tasksBefore useBarrier tr t <+: tasksBefore useBarrier tr u := by
  induction u, h using Nat.le_induction with
  | base => exact List.prefix_refl _
  | succ u _ ih => rw [tasksBefore_succ]; exact ih.trans (List.prefix_append _ _)

theorem taskRowsOf_prefix (rev : Nat → Nat) {P P' : List (Nat × Nat)} (h : P <+: P') : taskRowsOf rev P <+: taskRowsOf rev P' := by
  obtain ⟨t, rfl⟩ := h
  rw [taskRowsOf_append]; exact List.prefix_append _ _

theorem prefix_get {α : Type} {l l' : List α} (h : l <+: l') {i : Nat} (hi : i < l.length) : l'[i]? = l[i]? := by
  obtain ⟨t, rfl⟩ := h
  exact List.getElem?_append_left hi

theorem ptFill_ok {sz : CArr → Int} {useBarrier : Bool} {T n : Nat} {L : List (List Nat)} {tr : List (List (Nat × Nat))} {m0 : Mem (CTy R)}
    {rev : Nat → Nat} (hrv : rev = revOf (sortLevels L)) (hok : TaskRowsOk T L tr) (hin : RowsIn T L tr m0) (hn : L.flatten.length = n)
    {F : List (Nat × Nat)} (hFd : F = tasksBefore useBarrier tr T) (hF : (taskRowsOf rev F).Nodup) (hFn : ∀ x ∈ taskRowsOf rev F, x < n) (hFl : (taskRowsOf rev F).length = n)
    (h53 : ∀ t : Nat, t ≤ T → m0 (.itmp 53) (t : Int) = some ((taskRowsOf rev (tasksBefore useBarrier tr t)).length : Int))
    (h31 : ∀ t : Nat, t ≤ T → m0 (.itmp 31) (t : Int) = some ((tasksBefore useBarrier tr t).length : Int))
    (hs1 : (n : Int) ≤ sz (.itmp 54)) (hs2 : (n : Int) ≤ sz (.itmp 32)) (hs3 : (F.length : Int) ≤ sz (.itmp 30)) :
    ParOk sz T (fun _ m => TasksIn rev 0 0 F m ∧ ∀ a i, a ≠ .itmp 54 → a ≠ .itmp 32 → a ≠ .itmp 30 → m a i = m0 a i) (ptFill useBarrier L.length) m0 := by
  obtain ⟨kf, hkf⟩ : ∃ kf : Nat → Nat, kf = fun t => (tasksBefore useBarrier tr t).length := ⟨_, rfl⟩
  obtain ⟨qf, hqf⟩ : ∃ qf : Nat → Nat, qf = fun t => (taskRowsOf rev (tasksBefore useBarrier tr t)).length := ⟨_, rfl⟩
  have hkm : ∀ t u, t ≤ u → kf t ≤ kf u := by
    intro t u h; rw [hkf]; exact (tasksBefore_prefix useBarrier tr h).length_le
  have hqm : ∀ t u, t ≤ u → qf t ≤ qf u := by
    intro t u h; rw [hqf]; exact (taskRowsOf_prefix rev (tasksBefore_prefix useBarrier tr h)).length_le
  have hkT : kf T = F.length := by rw [hkf, hFd]
  have hqT : qf T = n := by rw [← hFl, hqf, hFd]
  have hk0 : kf 0 = 0 := by rw [hkf]; rfl
  have hq0 : qf 0 = 0 := by rw [hqf]; rfl
  let W : Nat → CArr → Int → Prop := fun t a i =>
    (a = .itmp 30 ∧ ∃ k : Nat, i = (k : Int) ∧ kf t ≤ k ∧ k < kf (t + 1)) ∨ (a = .itmp 32 ∧ ∃ p : Nat, i = (p : Int) ∧ qf t ≤ p ∧ p < qf (t + 1)) ∨
    (a = .itmp 54 ∧ ∃ p x : Nat, i = (x : Int) ∧ qf t ≤ p ∧ p < qf (t + 1) ∧ (taskRowsOf rev F)[p]? = some x)
  have sep : ∀ {f : Nat → Nat}, (∀ t u, t ≤ u → f t ≤ f u) → ∀ {t u x : Nat}, f t ≤ x → x < f (t + 1) → f u ≤ x → x < f (u + 1) → t = u := by
    intro f hm t u x h1 h2 h3 h4
    rcases Nat.lt_trichotomy t u with h | h | h
    · have := hm (t + 1) u h; omega
    · exact h
    · have := hm (u + 1) t h; omega
  refine par_rule (W := W) (R := fun t a i => W t a i ∨ a = .itmp 21 ∨ a = .itmp 51 ∨ a = .itmp 52 ∨ a = .itmp 53 ∨ a = .itmp 31) (Q := fun t _ m' =>
    TasksIn rev (kf t) (qf t) (tasksBefore useBarrier tr (t + 1)) m') ?_ ?_ ?_ ?_
  · rintro t u a i ht hu htu (⟨rfl, k, rfl, h1, h2⟩ | ⟨rfl, p, rfl, h1, h2⟩ | ⟨rfl, p, x, rfl, h1, h2, h3⟩) (h | h)
    · rcases h with ⟨_, k', e, h3, h4⟩ | ⟨h, _⟩ | ⟨h, _⟩
      · have : k = k' := by omega
        subst this
        exact htu (sep hkm h1 h2 h3 h4)
      · simp at h
      · simp at h
    · simp at h
    · rcases h with ⟨h, _⟩ | ⟨_, p', e, h3, h4⟩ | ⟨h, _⟩
      · simp at h
      · have : p = p' := by omega
        subst this
        exact htu (sep hqm h1 h2 h3 h4)
      · simp at h
    · simp at h
    · rcases h with ⟨h, _⟩ | ⟨h, _⟩ | ⟨_, p', x', e, g1, g2, g3⟩
      · simp at h
      · simp at h
      · have e : x = x' := by omega
        subst e
        obtain ⟨l1, l2⟩ := List.getElem?_eq_some_iff.mp h3
        obtain ⟨l3, l4⟩ := List.getElem?_eq_some_iff.mp g3
        have : p = p' := (List.Nodup.getElem_inj_iff hF).mp (l2.trans l4.symm)
        subst this
        exact htu (sep hqm h1 h2 g1 g2)
    · simp at h
  · intro t ht
    have := wp_ptFill (sz := sz) (W := W t) (Rd := fun a i => W t a i ∨ a = .itmp 21 ∨ a = .itmp 51 ∨ a = .itmp 52 ∨ a = .itmp 53 ∨ a = .itmp 31)
      hrv ht hok hin hn hFd hF hFn hFl (h53 t (by omega)) (h31 t (by omega)) hs1 hs2 hs3 (fun a i h => Or.inr h) ?_ ?_
    · rw [hkf, hqf]; exact this
    · intro p x h1 h2 hx
      have h1 : qf t ≤ p := by rw [hqf]; exact h1
      have h2 : p < qf (t + 1) := by rw [hqf]; exact h2
      exact ⟨Or.inr (Or.inr ⟨rfl, p, x, rfl, h1, h2, hx⟩), Or.inr (Or.inl ⟨rfl, p, rfl, h1, h2⟩)⟩
    · intro k h1 h2
      have h1 : kf t ≤ k := by rw [hkf]; exact h1
      have h2 : k < kf (t + 1) := by rw [hkf]; exact h2
      exact Or.inl ⟨rfl, k, rfl, h1, h2⟩
  · intro _ m hq hf
    refine ⟨⟨?_, ?_⟩, ?_⟩
    · intro p x _ hx
      have hp : p < qf T := by rw [hqT, ← hFl]; exact (List.getElem?_eq_some_iff.mp hx).1
      obtain ⟨t, ht, h1, h2⟩ := range_of hq0 T hp
      obtain ⟨mt, g1, g2⟩ := hq t ht
      have hpl : p < (taskRowsOf rev (tasksBefore useBarrier tr (t + 1))).length := by rw [hqf] at h2; exact h2
      have hpre : taskRowsOf rev (tasksBefore useBarrier tr (t + 1)) <+: taskRowsOf rev F := by
        rw [hFd]; exact taskRowsOf_prefix rev (tasksBefore_prefix useBarrier tr ht)
      obtain ⟨k1, k2⟩ := g1.rows p x h1 (by rw [← prefix_get hpre hpl]; exact hx)
      exact ⟨by rw [g2 _ _ (Or.inl (Or.inr (Or.inl ⟨rfl, p, rfl, h1, h2⟩)))]; exact k1,
        by rw [g2 _ _ (Or.inl (Or.inr (Or.inr ⟨rfl, p, x, rfl, h1, h2, hx⟩)))]; exact k2⟩
    · intro k _ hk
      obtain ⟨t, ht, h1, h2⟩ := range_of hk0 T (show k < kf T by rw [hkT]; exact hk)
      obtain ⟨mt, g1, g2⟩ := hq t ht
      have hpre : tasksBefore useBarrier tr (t + 1) <+: F := by rw [hFd]; exact tasksBefore_prefix useBarrier tr ht
      have hkl : k < (tasksBefore useBarrier tr (t + 1)).length := by rw [hkf] at h2; exact h2
      rw [g2 _ _ (Or.inl (Or.inl ⟨rfl, k, rfl, h1, h2⟩)), g1.tasks k h1 hkl]
      obtain ⟨r, rfl⟩ := hpre
      rw [List.take_append_of_le_length (by omega)]
    · intro a i e1 e2 e3
      refine hf a i ?_
      rintro t _ (⟨h, _⟩ | ⟨h, _⟩ | ⟨h, _⟩) <;> contradiction
  · intro t a i _ h; exact Or.inl h

theorem wp_ptEnd {sz : CArr → Int} {W Rd : CArr → Int → Prop} {T n nt : Nat} {Q : List Nat} {m : Mem (CTy R)} {Post : Int → Mem (CTy R) → Prop}
    (hW : ∀ a i, W a i) (hR : ∀ a i, Rd a i) (h31 : m (.itmp 31) (T : Int) = some (nt : Int)) (hs : (nt : Int) < sz (.itmp 30))
    (hp : PermsIn 0 Q m) (hQ : Q.Perm (List.range n))
    (hpost : Post (nt : Int) (m.set (.itmp 30) (nt : Int) (n : Int))) : wp sz W Rd (ptEnd T n) m Post := by
  unfold ptEnd
  have hl : Q.length = n := by rw [hQ.length_eq, List.length_range]
  have hnd : Q.Nodup := hQ.nodup_iff.mpr List.nodup_range
  refine wp_rd _ (hR _ _) h31 (wp_wr (hW _ _) ⟨by omega, hs⟩ ?_)
  have hinv : ∀ x, x < n → ∃ p : Nat, Q[p]? = some x := by
    intro x hx
    obtain ⟨p, h1, h2⟩ := List.getElem_of_mem (hQ.mem_iff.mpr (List.mem_range.mpr hx))
    exact ⟨p, by rw [List.getElem?_eq_getElem h1, h2]⟩
  obtain ⟨l1, hl1⟩ : ∃ l1 : List Int, l1 = (List.range n).map fun x => ((Q.idxOf x : Nat) : Int) := ⟨_, rfl⟩
  have hl1n : l1.length = n := by rw [hl1]; simp
  have hidx : ∀ x, x < n → Q[Q.idxOf x]? = some x := by
    intro x hx
    have hm : x ∈ Q := hQ.mem_iff.mpr (List.mem_range.mpr hx)
    rw [List.getElem?_eq_getElem (List.idxOf_lt_length_of_mem hm), List.getElem_idxOf]
  rw [wp_bind]
  conv in readList 54 0 n => rw [← hl1n]
  refine wp_readList l1 0 ?_ ?_
  · intro q hq
    refine ⟨hR _ _, ?_⟩
    rw [Int.zero_add, Mem.set_other _ _ _ _ _ (by simp)]
    rw [hl1n] at hq
    rw [(hp _ _ (Nat.zero_le _) (hidx q hq)).2]
    simp [hl1]
  · rw [wp_bind, wp_assert]
    refine ⟨?_, ?_⟩
    · rw [isPerm_iff_nodup, hl1]
      refine (List.nodup_map_iff_inj_on List.nodup_range).mpr ?_
      intro x hx y hy hxy
      have h1 := hidx x (List.mem_range.mp hx)
      have h2 := hidx y (List.mem_range.mp hy)
      have e : Q.idxOf x = Q.idxOf y := by omega
      rw [e] at h1
      rw [h1] at h2
      simpa using h2
    · obtain ⟨l2, hl2⟩ : ∃ l2 : List Int, l2 = Q.map fun x => ((x : Nat) : Int) := ⟨_, rfl⟩
      have hl2n : l2.length = n := by rw [hl2]; simp [hl]
      rw [wp_bind]
      conv in readList 32 0 n => rw [← hl2n]
      refine wp_readList l2 0 ?_ ?_
      · intro q hq
        refine ⟨hR _ _, ?_⟩
        rw [Int.zero_add, Mem.set_other _ _ _ _ _ (by simp)]
        have hq' : q < Q.length := by omega
        rw [(hp q Q[q] (Nat.zero_le _) (List.getElem?_eq_getElem hq')).1]
        simp [hl2]
      · rw [wp_bind, wp_assert]
        refine ⟨?_, ?_⟩
        · rw [isPerm_iff_nodup, hl2]
          exact hnd.map (fun a b h => by simpa using h)
        · rw [wp_pure]; exact hpost

/-- The partition is in memory. -/
structure PartIn (P : TaskPartition) (m : Mem (CTy R)) : Prop where
  task : ∀ k : Nat, k ≤ P.sched.ntasks → m (.itmp 30) (k : Int) = some (P.sched.taskB k : Int)
  thread : ∀ t : Nat, t ≤ P.sched.T → m (.itmp 31) (t : Int) = some (P.sched.threadB t : Int)
  perm : ∀ p : Nat, p < P.sched.m → m (.itmp 32) (p : Int) = some (P.sched.perm p : Int)
  inv : ∀ x : Nat, x < P.sched.m → m (.itmp 54) (x : Int) = some (P.o2t x : Int)

/-- The arrays that the partition may change. -/
def PartArr (a : CArr) : Prop := a = .itmp 21 ∨ a = .itmp 30 ∨ a = .itmp 31 ∨ a = .itmp 32 ∨ ∃ j, 50 ≤ j ∧ j ≤ 54 ∧ a = .itmp j

theorem taskPart_ok {sz : CArr → Int} {cf : Option (Int → Int)} {useBarrier agg : Bool} {T n : Nat} {cost : Nat → Nat} {L : List (List Nat)} {m0 : Mem (CTy R)}
    {lev : List Int} (hlev : lev = (List.range (L.length + 1)).map (fun k => ((L.take k).flatten.length : Int)))
    (hT : 1 ≤ T) (hcp : ∀ i, i < n → 0 < cost i) (hc : CostIs cf n cost m0) (hL : L.flatten.Perm (List.range n))
    (hrev : ∀ x s : Nat, L.flatten[x]? = some s → m0 (.itmp 21) (x : Int) = some (s : Int)) (a0 : TaskArrays) :
    ∃ P, taskPartition useBarrier agg T n cost L a0 = some P ∧
      (taskPart sz cf useBarrier agg T n lev).Ok m0 (fun nt m => nt = (P.sched.ntasks : Int) ∧ PartIn P m ∧ ∀ a i, ¬ PartArr a → m a i = m0 a i) := by
  obtain ⟨tr, htr, hok⟩ := allTasks_ok (agg := agg) (cost := cost) (L := L) hT
    (fun i hi => hcp i (List.mem_range.mp (hL.mem_iff.mp hi)))
  have hn : L.flatten.length = n := by rw [hL.length_eq, List.length_range]
  obtain ⟨rev, hrv⟩ : ∃ rev, rev = revOf (sortLevels L) := ⟨_, rfl⟩
  obtain ⟨F, hFd⟩ : ∃ F, F = tasksBefore useBarrier tr T := ⟨_, rfl⟩
  have hQ : (taskRowsOf rev F).Perm (List.range n) := by
    have h1 : (taskRowsOf rev F).Perm (sliceOf rev (0, levIdx L L.length)) := by rw [hFd]; exact rows_perm hok
    have h2 : sliceOf rev (0, levIdx L L.length) = (sortLevels L).flatten := by
      rw [levIdx_all, ← (sortLevels_flatten_perm L).length_eq, hrv]
      exact sliceOf_revOf _
    rw [h2] at h1
    exact (h1.trans (sortLevels_flatten_perm L)).trans hL
  have hQn : (taskRowsOf rev F).Nodup := hQ.nodup_iff.mpr List.nodup_range
  have hQl : (taskRowsOf rev F).length = n := by rw [hQ.length_eq, List.length_range]
  have hQm : ∀ x ∈ taskRowsOf rev F, x < n := fun x hx => List.mem_range.mp (hQ.mem_iff.mp hx)
  have hfill : Filled rev F (fillAll useBarrier rev tr T a0) := by rw [hFd]; exact filled_fillAll T (by rw [← hFd]; exact hQn)
  have hnt : overThreads (taskCnt useBarrier tr) T = F.length := by rw [hFd]; exact overThreads_taskCnt _ _ _
  obtain ⟨a, ha⟩ : ∃ a, a = fillAll useBarrier rev tr T a0 := ⟨_, rfl⟩
  rw [← ha] at hfill
  obtain ⟨P, hP⟩ : ∃ P : TaskPartition, P =
      ⟨⟨T, F.length, n, overThreads (taskCnt useBarrier tr), setAt a.taskB F.length n, a.t2o, fun _ => [], fun _ => []⟩, a.o2t⟩ := ⟨_, rfl⟩
  refine ⟨P, ?_, ?_⟩
  · unfold taskPartition
    rw [htr, hP, ha, hrv, ← hnt]
  have hlen : lev.length - 1 = L.length := by rw [hlev]; simp
  have hlv : ∀ k, k ≤ L.length → lev.getD k 0 = levIdx L k := by
    intro k hk
    rw [hlev, List.getD_eq_getElem?_getD, List.getElem?_map, List.getElem?_range (by omega)]; rfl
  unfold taskPart
  dsimp only
  rw [hlen]
  obtain ⟨z, hz⟩ : ∃ z : CArr → Int, z = partSize sz T n L.length 0 := ⟨_, rfl⟩
  rw [← hz]
  have hsz : LvSize z T n L.length := by
    subst hz
    refine ⟨?_, ?_, rfl, rfl⟩
    · show (n : Int) ≤ (n + 15) / 16 * 16 + 128; omega
    · show (n : Int) ≤ n + T; omega
  have hz53 : z (.itmp 53) = T + 1 := by rw [hz]; rfl
  have hz31 : z (.itmp 31) = T + 1 := by rw [hz]; rfl
  refine ParOk.mono (lvTasks_ok hlv htr hok hc hL hrev hsz) ?_
  rintro _ m1 ⟨hin, f1⟩
  refine seq_rule ?_
  refine wp_wr trivial ⟨by omega, by rw [hz53]; omega⟩ (wp_wr1 trivial ⟨by omega, by rw [hz31]; omega⟩ ?_)
  obtain ⟨m2, hm2⟩ : ∃ m2 : Mem (CTy R), m2 = (m1.set (.itmp 53) 0 (0 : Int)).set (.itmp 31) 0 (0 : Int) := ⟨_, rfl⟩
  rw [← hm2]
  have f2 : ∀ a i, a ≠ .itmp 53 → a ≠ .itmp 31 → m2 a i = m1 a i := by
    intro a i e1 e2; rw [hm2, Mem.set_other _ _ _ _ _ e2, Mem.set_other _ _ _ _ _ e1]
  have hin2 : RowsIn T L tr m2 := hin.frame (by rintro a i (rfl | rfl | rfl) <;> exact f2 _ _ (by simp) (by simp))
  refine ParOk.mono (ptCount_ok (useBarrier := useBarrier) hok hin2 hz53 hz31 (by rw [hm2, Mem.set_other _ _ _ _ _ (by simp)]; exact Mem.get_same _ _ _ _)
    (by rw [hm2]; exact Mem.get_same _ _ _ _)) ?_
  rintro _ m3 ⟨c1, c2, c3, f3⟩
  refine seq_rule ?_
  refine wp_ptSums (fun _ _ => trivial) (fun _ _ => trivial) hz53 hz31 c1 c2 c3 ?_
  intro m4 c4 f4
  rw [hnt]
  obtain ⟨z', hz'⟩ : ∃ z' : CArr → Int, z' = partSize sz T n L.length (F.length : Int) := ⟨_, rfl⟩
  rw [← hz']
  have hin4 : RowsIn T L tr m4 := hin2.frame (by
    rintro a i (rfl | rfl | rfl) <;> rw [f4 _ _ (by simp) (by simp), f3 _ _ (by simp) (by simp)])
  have s1 : (n : Int) ≤ z' (.itmp 54) := by rw [hz']; show (n : Int) ≤ n + 64; omega
  have s2 : (n : Int) ≤ z' (.itmp 32) := by rw [hz']; show (n : Int) ≤ n + 64; omega
  have s3 : z' (.itmp 30) = F.length + 1 := by rw [hz']; rfl
  refine ParOk.mono (ptFill_ok (useBarrier := useBarrier) hrv hok hin4 hn hFd hQn hQm hQl ?_ ?_ s1 s2 (by rw [s3]; omega)) ?_
  · intro t ht
    rw [(c4 t ht).1, overThreads_rowSum useBarrier rev]
  · intro t ht
    rw [(c4 t ht).2, overThreads_taskCnt]
  rintro _ m5 ⟨hti, f5⟩
  refine seq_rule ?_
  have h31 : ∀ t : Nat, t ≤ T → m5 (.itmp 31) (t : Int) = some (overThreads (taskCnt useBarrier tr) t : Int) := by
    intro t ht; rw [f5 _ _ (by simp) (by simp) (by simp)]; exact (c4 t ht).2
  refine wp_ptEnd (nt := F.length) (Q := taskRowsOf rev F) (fun _ _ => trivial) (fun _ _ => trivial) (by rw [h31 T (Nat.le_refl _), hnt]) (by rw [s3]; omega) hti.rows hQ ?_
  show (Script.done (F.length : Int) : Script (CTy R) Int).Ok _ _
  simp only [Script.Ok]
  have hget : ∀ p, p < n → (taskRowsOf rev F)[p]? = some (a.t2o p) := by
    intro p hp
    have hpl : p < (taskRowsOf rev F).length := by omega
    rw [List.getElem?_eq_getElem hpl, (hfill.rows p _ (List.getElem?_eq_getElem hpl)).1]
  subst hP
  refine ⟨rfl, ⟨?_, ?_, ?_, ?_⟩, ?_⟩
  · intro k hk
    have hk : k ≤ F.length := hk
    show _ = some ((setAt a.taskB F.length n k : Nat) : Int)
    unfold setAt
    by_cases hke : k = F.length
    · subst hke; rw [if_pos rfl]; exact Mem.get_same _ _ _ _
    · rw [if_neg hke, Mem.get_ne _ _ _ _ _ (by omega), hti.tasks k (Nat.zero_le _) (by omega), hfill.tasks k (by omega)]
  · intro t ht
    rw [Mem.set_other _ _ _ _ _ (by simp)]; exact h31 t ht
  · intro p hp
    rw [Mem.set_other _ _ _ _ _ (by simp)]; exact (hti.rows p _ (Nat.zero_le _) (hget p hp)).1
  · intro x hx
    have hx : x < n := hx
    obtain ⟨p, h1, h2⟩ := List.getElem_of_mem (hQ.mem_iff.mpr (List.mem_range.mpr hx))
    have hpx : (taskRowsOf rev F)[p]? = some x := by rw [List.getElem?_eq_getElem h1, h2]
    rw [Mem.set_other _ _ _ _ _ (by simp), (hti.rows p x (Nat.zero_le _) hpx).2]
    show _ = some ((a.o2t x : Nat) : Int)
    rw [(hfill.rows p x hpx).2]
  · intro b i hb
    have n21 : b ≠ .itmp 21 := fun h => hb (Or.inl h)
    have n30 : b ≠ .itmp 30 := fun h => hb (Or.inr (Or.inl h))
    have n31 : b ≠ .itmp 31 := fun h => hb (Or.inr (Or.inr (Or.inl h)))
    have n32 : b ≠ .itmp 32 := fun h => hb (Or.inr (Or.inr (Or.inr (Or.inl h))))
    have n5 : ∀ j, 50 ≤ j → j ≤ 54 → b ≠ .itmp j := fun j h1 h2 h => hb (Or.inr (Or.inr (Or.inr (Or.inr ⟨j, h1, h2, h⟩))))
    rw [Mem.set_other _ _ _ _ _ n30, f5 b i (n5 54 (by omega) (by omega)) n32 n30, f4 b i (n5 53 (by omega) (by omega)) n31,
      f3 b i (n5 53 (by omega) (by omega)) n31, f2 b i (n5 53 (by omega) (by omega)) n31,
      f1 b i ⟨n21, n5 50 (by omega) (by omega), n5 51 (by omega) (by omega), n5 52 (by omega) (by omega)⟩]

end SpMP
