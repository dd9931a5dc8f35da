import Verif.Permute
/-
Insertion sort of a row segment and the search for the diagonal (/repo/Permute.cpp:140-145, 149-203, 319-343).
-/

namespace SpMP
open Spec

variable {R : Type}

/-- From position `s` on, object `k` holds the columns of `l` (with base `base`) and, if `vals`, its values. -/
def RowAtV (m : Mem (CTy R)) (k base : Nat) (vals : Bool) (s : Nat) (l : List (Nat × R)) : Prop :=
  ∀ (x : Nat) (y : Nat × R), l[x]? = some y → m (.colidx k) ((s : Int) + x) = some ((y.1 : Int) + base) ∧
    (vals = true → m (.values k) ((s : Int) + x) = some y.2)

theorem RowAtV.congr {m m' : Mem (CTy R)} {k base s : Nat} {vals : Bool} {l : List (Nat × R)} (h : RowAtV m k base vals s l)
    (h1 : ∀ i : Int, (s : Int) ≤ i → i < (s : Int) + l.length → m' (.colidx k) i = m (.colidx k) i)
    (h2 : ∀ i : Int, (s : Int) ≤ i → i < (s : Int) + l.length → m' (.values k) i = m (.values k) i) :
    RowAtV m' k base vals s l := by
  intro x y hxy
  have hx : x < l.length := by
    by_contra hc; rw [List.getElem?_eq_none (by omega)] at hxy; cases hxy
  rw [h1 _ (by omega) (by omega), h2 _ (by omega) (by omega)]
  exact h x y hxy

/-- Cells of positions `s ..< s + n`. -/
def SegCell (k s n : Nat) (a : CArr) (i : Int) : Prop :=
  (a = .colidx k ∨ a = .values k) ∧ (s : Int) ≤ i ∧ i < (s : Int) + n

/-- Overwriting entry `x`. -/
theorem RowAtV.set {m m' : Mem (CTy R)} {k base s : Nat} {vals : Bool} {l : List (Nat × R)} (h : RowAtV m k base vals s l)
    {x : Nat} {y : Nat × R}
    (hc : m' (.colidx k) ((s : Int) + x) = some ((y.1 : Int) + base))
    (hv : vals = true → m' (.values k) ((s : Int) + x) = some y.2)
    (hf : ∀ a i, i ≠ (s : Int) + x → m' a i = m a i) : RowAtV m' k base vals s (l.set x y) := by
  intro z w hz
  by_cases hzx : z = x
  · subst hzx
    rw [List.getElem?_set] at hz
    simp only [if_true] at hz
    split at hz
    · cases hz; exact ⟨hc, hv⟩
    · cases hz
  · rw [List.getElem?_set_ne (fun h => hzx h.symm)] at hz
    rw [hf _ _ (by omega), hf _ _ (by omega)]
    exact h z w hz

section
variable {sz : CArr → Int} {W Rd : CArr → Int → Prop} {k base s : Nat} {vals : Bool}

/-- The entry `n` of `l` after taking out entries … : moving entry `n` one place to the right. -/
theorem set_shift {l pre rest : List (Nat × R)} {h : Nat × R} {n : Nat} (hn : n < pre.length)
    (hl : l = pre.take (n + 1) ++ h :: pre.drop (n + 1) ++ rest) :
    l.set (n + 1) pre[n] = pre.take n ++ pre[n] :: pre.drop n ++ rest := by
  subst hl
  have h1 : (pre.take (n + 1)).length = n + 1 := by rw [List.length_take]; omega
  rw [List.append_assoc, List.set_append_right _ _ (by omega), h1, Nat.sub_self, List.cons_append, List.set_cons_zero,
    List.take_succ_eq_append_getElem hn, List.drop_eq_getElem_cons hn]
  simp only [List.append_assoc, List.cons_append, List.nil_append]

theorem wp_insShift {pre rest : List (Nat × R)} {c : Nat} {m0 : Mem (CTy R)} {N : Nat}
    (hN : pre.length + 1 + rest.length ≤ N)
    (hW : ∀ a i, SegCell k s N a i → W a i) (hR : ∀ a i, SegCell k s N a i → Rd a i)
    (hz : (s : Int) + N ≤ sz (.colidx k)) (hz2 : vals = true → (s : Int) + N ≤ sz (.values k))
    {Q : Nat → Mem (CTy R) → Prop}
    (hQ : ∀ (n : Nat) (m' : Mem (CTy R)) (h : Nat × R), n ≤ pre.length →
      RowAtV m' k base vals s (pre.take n ++ h :: pre.drop n ++ rest) →
      (∀ y ∈ pre.drop n, c < y.1) → (∀ x : Nat, x + 1 = n → ∀ y, pre[x]? = some y → y.1 ≤ c) →
      (∀ a i, ¬ SegCell k s N a i → m' a i = m0 a i) → Q n m') :
    ∀ (n : Nat) (m : Mem (CTy R)) (h : Nat × R), n ≤ pre.length →
      RowAtV m k base vals s (pre.take n ++ h :: pre.drop n ++ rest) →
      (∀ y ∈ pre.drop n, c < y.1) → (∀ a i, ¬ SegCell k s N a i → m a i = m0 a i) →
      wp sz W Rd (insShift k vals (s : Int) ((c : Int) + base) n) m Q := by
  intro n
  induction n with
  | zero =>
    intro m h h1 h2 h3 h4
    unfold insShift
    rw [wp_pure]
    exact hQ 0 m h (by omega) h2 h3 (fun x hx => by omega) h4
  | succ n ih =>
    intro m h h1 h2 h3 h4
    unfold insShift
    have hn : n < pre.length := by omega
    have hlen : (pre.take (n + 1)).length = n + 1 := by rw [List.length_take]; omega
    have hat := h2 n pre[n] (by
      rw [List.append_assoc, List.getElem?_append_left (by omega), List.getElem?_take, if_pos (by omega), List.getElem?_eq_getElem hn])
    refine wp_rd _ (hR _ _ ⟨Or.inl rfl, by omega, by omega⟩) hat.1 ?_
    by_cases hc : c < pre[n].1
    · have hc' : (c : Int) + base < (pre[n].1 : Int) + base := by omega
      rw [if_pos hc']
      have e1 : (s : Int) + n + 1 = (s : Int) + ((n + 1 : Nat) : Int) := by omega
      refine wp_wr (hW _ _ ⟨Or.inl rfl, by omega, by omega⟩) ⟨by omega, by omega⟩ ?_
      have hdrop : ∀ y ∈ pre.drop n, c < y.1 := by
        rw [List.drop_eq_getElem_cons hn]
        intro y hy
        rcases List.mem_cons.1 hy with rfl | hy
        · exact hc
        · exact h3 y hy
      have hset := set_shift hn rfl (h := h) (rest := rest)
      rw [wp_bind]
      cases vals with
      | true =>
        rw [if_pos rfl]
        refine wp_rd _ (hR _ _ ⟨Or.inr rfl, by omega, by omega⟩) (by rw [Mem.set_other _ _ _ _ _ (by simp)]; exact hat.2 rfl) ?_
        refine wp_wr1 (hW _ _ ⟨Or.inr rfl, by omega, by omega⟩) ⟨by omega, by have := hz2 rfl; omega⟩ ?_
        refine ih _ pre[n] (by omega) ?_ hdrop ?_
        · rw [← hset]
          refine RowAtV.set h2 ?_ ?_ ?_
          · rw [Mem.set_other _ _ _ _ _ (by simp), e1, Mem.get_same]
          · intro _; rw [e1, Mem.get_same]
          · intro a i hi
            rcases Mem.set_cases (m.set (.colidx k) ((s : Int) + n + 1) ((pre[n].1 : Int) + base)) (.values k) ((s : Int) + n + 1) pre[n].2 a i with ⟨rfl, rfl⟩ | h
            · exact absurd e1 hi
            · rw [h]
              rcases Mem.set_cases m (.colidx k) ((s : Int) + n + 1) ((pre[n].1 : Int) + base) a i with ⟨rfl, rfl⟩ | h
              · exact absurd e1 hi
              · exact h
        · intro a i hai
          rcases Mem.set_cases (m.set (.colidx k) ((s : Int) + n + 1) ((pre[n].1 : Int) + base)) (.values k) ((s : Int) + n + 1) pre[n].2 a i with ⟨rfl, rfl⟩ | h
          · exact absurd ⟨Or.inr rfl, by omega, by omega⟩ hai
          · rw [h]
            rcases Mem.set_cases m (.colidx k) ((s : Int) + n + 1) ((pre[n].1 : Int) + base) a i with ⟨rfl, rfl⟩ | h
            · exact absurd ⟨Or.inl rfl, by omega, by omega⟩ hai
            · rw [h]; exact h4 a i hai
      | false =>
        rw [if_neg (by simp), wp_pure]
        refine ih _ pre[n] (by omega) ?_ hdrop ?_
        · rw [← hset]
          refine RowAtV.set h2 ?_ (by simp) ?_
          · rw [e1, Mem.get_same]
          · intro a i hi
            rcases Mem.set_cases m (.colidx k) ((s : Int) + n + 1) ((pre[n].1 : Int) + base) a i with ⟨rfl, rfl⟩ | h
            · exact absurd e1 hi
            · exact h
        · intro a i hai
          rcases Mem.set_cases m (.colidx k) ((s : Int) + n + 1) ((pre[n].1 : Int) + base) a i with ⟨rfl, rfl⟩ | h
          · exact absurd ⟨Or.inl rfl, by omega, by omega⟩ hai
          · rw [h]; exact h4 a i hai
    · have hc' : ¬ ((c : Int) + base < (pre[n].1 : Int) + base) := by omega
      rw [if_neg hc', wp_pure]
      refine hQ (n + 1) m h h1 h2 h3 ?_ h4
      intro x hx y hy
      obtain rfl : x = n := by omega
      rw [List.getElem?_eq_getElem hn] at hy
      cases hy; omega

/-- Sorted by column (equal columns allowed). -/
def ColSorted (l : List (Nat × R)) : Prop := l.Pairwise fun a b => a.1 ≤ b.1

theorem colSorted_insert {pre : List (Nat × R)} {y : Nat × R} {n : Nat} (hs : ColSorted pre) (h1 : ∀ z ∈ pre.drop n, y.1 < z.1)
    (h2 : ∀ x : Nat, x + 1 = n → ∀ z, pre[x]? = some z → z.1 ≤ y.1) (hn : n ≤ pre.length) :
    ColSorted (pre.take n ++ y :: pre.drop n) := by
  have hsp : ColSorted (pre.take n ++ pre.drop n) := by rw [List.take_append_drop]; exact hs
  unfold ColSorted at *
  rw [List.pairwise_append] at hsp ⊢
  have htake : ∀ a ∈ pre.take n, a.1 ≤ y.1 := by
    intro a ha
    cases n with
    | zero => simp at ha
    | succ n =>
      have hn' : n < pre.length := by omega
      have hl := h2 n rfl pre[n] (List.getElem?_eq_getElem hn')
      rw [List.take_succ_eq_append_getElem hn', List.mem_append] at ha
      rcases ha with ha | ha
      · have h3 := hsp.1
        rw [List.take_succ_eq_append_getElem hn', List.pairwise_append] at h3
        exact Nat.le_trans (h3.2.2 a ha _ (by simp)) hl
      · simp at ha; subst ha; exact hl
  refine ⟨hsp.1, List.pairwise_cons.2 ⟨fun z hz => Nat.le_of_lt (h1 z hz), hsp.2.1⟩, ?_⟩
  intro a ha b hb
  rcases List.mem_cons.1 hb with rfl | hb
  · exact htake a ha
  · exact hsp.2.2 a ha b hb

theorem perm_insert {pre : List (Nat × R)} {y : Nat × R} (n : Nat) : (pre.take n ++ y :: pre.drop n).Perm (pre ++ [y]) := by
  have h1 : (pre.take n ++ y :: pre.drop n).Perm (y :: (pre.take n ++ pre.drop n)) := List.perm_middle
  rw [List.take_append_drop] at h1
  exact h1.trans (List.perm_append_comm (l₁ := [y]) (l₂ := pre))

/-- Insertion sort sorts the segment. -/
theorem wp_insSort {l : List (Nat × R)} {m0 : Mem (CTy R)} (h0 : RowAtV m0 k base vals s l)
    (hW : ∀ a i, SegCell k s l.length a i → W a i) (hR : ∀ a i, SegCell k s l.length a i → Rd a i)
    (hz : (s : Int) + l.length ≤ sz (.colidx k)) (hz2 : vals = true → (s : Int) + l.length ≤ sz (.values k))
    {hi : Int} (ehi : hi = (s : Int) + l.length)
    {Q : Unit → Mem (CTy R) → Prop}
    (hQ : ∀ (m' : Mem (CTy R)) (l' : List (Nat × R)), l'.Perm l → ColSorted l' → RowAtV m' k base vals s l' →
      (∀ a i, ¬ SegCell k s l.length a i → m' a i = m0 a i) → Q () m') :
    wp sz W Rd (insSort k vals (s : Int) hi) m0 Q := by
  subst ehi
  unfold insSort
  by_cases hl : l.length = 0
  · have : l = [] := List.eq_nil_of_length_eq_zero hl
    subst this
    refine wp_forUp (fun _ _ m' => m' = m0) rfl (fun i _ _ h1 h2 => by simp at h2; omega) ?_
    rintro _ _ rfl
    exact hQ _ [] (List.Perm.refl _) List.Pairwise.nil h0 (fun _ _ _ => rfl)
  refine wp_forN (b := s) (lo := 1) (hi := l.length)
    (fun q _ m' => ∃ pre : List (Nat × R), pre.length = q ∧ pre.Perm (l.take q) ∧ ColSorted pre ∧
      RowAtV m' k base vals s (pre ++ l.drop q) ∧ ∀ a i, ¬ SegCell k s l.length a i → m' a i = m0 a i)
    (by omega) ?_ ?_ ?_ (by omega) (by omega)
  · refine ⟨l.take 1, by rw [List.length_take]; omega, List.Perm.refl _, ?_, by rw [List.take_append_drop]; exact h0, fun _ _ _ => rfl⟩
    cases l with
    | nil => exact absurd rfl hl
    | cons a l => simp [ColSorted]
  · rintro q _ m1 h1 h2 ⟨pre, p1, p2, p3, p4, p5⟩
    have hd : l.drop q = l[q] :: l.drop (q + 1) := List.drop_eq_getElem_cons h2
    have hat := p4 q l[q] (by rw [List.getElem?_append_right (by omega), p1, Nat.sub_self, hd]; rfl)
    rw [Int.add_comm (s : Int) q] at hat
    refine wp_rd _ (hR _ _ ⟨Or.inl rfl, by omega, by omega⟩) hat.1 ?_
    have hfuel : ((q : Int) + s - s).toNat = q := by omega
    rw [hfuel]
    have hstart : RowAtV m1 k base vals s (pre.take q ++ l[q] :: pre.drop q ++ l.drop (q + 1)) := by
      have : pre.take q ++ l[q] :: pre.drop q ++ l.drop (q + 1) = pre ++ l.drop q := by
        rw [List.take_of_length_le (by omega), List.drop_eq_nil_of_le (by omega), hd]; simp
      rw [this]; exact p4
    have hN : pre.length + 1 + (l.drop (q + 1)).length ≤ l.length := by rw [List.length_drop]; omega
    have htk : (pre ++ [l[q]]).Perm (l.take (q + 1)) := by
      rw [List.take_succ_eq_append_getElem h2]; exact p2.append_right _
    have hset : ∀ (n : Nat) (h : Nat × R), n ≤ pre.length → (pre.take n ++ h :: pre.drop n ++ l.drop (q + 1)).set n l[q] =
        (pre.take n ++ l[q] :: pre.drop n) ++ l.drop (q + 1) := by
      intro n h hn
      have hlen : (pre.take n).length = n := by rw [List.length_take]; omega
      rw [List.append_assoc, List.set_append_right _ _ (by omega), hlen, Nat.sub_self, List.cons_append, List.set_cons_zero]
      simp
    cases vals with
    | true =>
      rw [if_pos rfl]
      refine wp_rd _ (hR _ _ ⟨Or.inr rfl, by omega, by omega⟩) (hat.2 rfl) ?_
      rw [wp_bind]
      refine wp_insShift (c := l[q].1) (m0 := m0) hN hW hR hz hz2 ?_ q m1 l[q] (by omega) hstart
        (by rw [List.drop_eq_nil_of_le (by omega)]; simp) p5
      intro n m2 h n1 n2 n3 n4 n5
      refine wp_wr (hW _ _ ⟨Or.inl rfl, by omega, by omega⟩) ⟨by omega, by omega⟩ ?_
      refine wp_wr1 (hW _ _ ⟨Or.inr rfl, by omega, by omega⟩) ⟨by omega, by have := hz2 rfl; omega⟩ ?_
      refine ⟨pre.take n ++ l[q] :: pre.drop n, ?_, (perm_insert n).trans htk, colSorted_insert p3 n3 n4 n1, ?_, ?_⟩
      · simp; omega
      · rw [← hset n h n1]
        refine RowAtV.set n2 ?_ ?_ ?_
        · rw [Mem.set_other _ _ _ _ _ (by simp), Mem.get_same]
        · intro _; rw [Mem.get_same]
        · intro a i hi
          rcases Mem.set_cases (m2.set (.colidx k) ((s : Int) + n) ((l[q].1 : Int) + base)) (.values k) ((s : Int) + n) l[q].2 a i with ⟨rfl, rfl⟩ | h
          · exact absurd rfl hi
          · rw [h]
            rcases Mem.set_cases m2 (.colidx k) ((s : Int) + n) ((l[q].1 : Int) + base) a i with ⟨rfl, rfl⟩ | h
            · exact absurd rfl hi
            · exact h
      · intro a i hai
        rcases Mem.set_cases (m2.set (.colidx k) ((s : Int) + n) ((l[q].1 : Int) + base)) (.values k) ((s : Int) + n) l[q].2 a i with ⟨rfl, rfl⟩ | h
        · exact absurd ⟨Or.inr rfl, by omega, by omega⟩ hai
        · rw [h]
          rcases Mem.set_cases m2 (.colidx k) ((s : Int) + n) ((l[q].1 : Int) + base) a i with ⟨rfl, rfl⟩ | h
          · exact absurd ⟨Or.inl rfl, by omega, by omega⟩ hai
          · rw [h]; exact n5 a i hai
    | false =>
      rw [if_neg (by simp)]
      rw [wp_bind]
      refine wp_insShift (c := l[q].1) (m0 := m0) hN hW hR hz hz2 ?_ q m1 l[q] (by omega) hstart
        (by rw [List.drop_eq_nil_of_le (by omega)]; simp) p5
      intro n m2 h n1 n2 n3 n4 n5
      refine wp_wr1 (hW _ _ ⟨Or.inl rfl, by omega, by omega⟩) ⟨by omega, by omega⟩ ?_
      refine ⟨pre.take n ++ l[q] :: pre.drop n, ?_, (perm_insert n).trans htk, colSorted_insert p3 n3 n4 n1, ?_, ?_⟩
      · simp; omega
      · rw [← hset n h n1]
        refine RowAtV.set n2 (by rw [Mem.get_same]) (by simp) ?_
        intro a i hi
        rcases Mem.set_cases m2 (.colidx k) ((s : Int) + n) ((l[q].1 : Int) + base) a i with ⟨rfl, rfl⟩ | h
        · exact absurd rfl hi
        · exact h
      · intro a i hai
        rcases Mem.set_cases m2 (.colidx k) ((s : Int) + n) ((l[q].1 : Int) + base) a i with ⟨rfl, rfl⟩ | h
        · exact absurd ⟨Or.inl rfl, by omega, by omega⟩ hai
        · rw [h]; exact n5 a i hai
  · rintro _ m1 ⟨pre, p1, p2, p3, p4, p5⟩
    rw [List.drop_length, List.append_nil] at p4
    rw [List.take_length] at p2
    exact hQ m1 pre p2 p3 p4 p5

/-- The search for the diagonal stores the first position with the wanted column. -/
theorem wp_storeDiag {m : Mem (CTy R)} {i d : Nat} (hz : (i : Int) < sz (.diagptr k))
    (hW : W (.diagptr k) i) {Q : Unit → Mem (CTy R) → Prop} :
    ∀ (l : List (Nat × R)) (s : Nat), RowAtV m k base vals s l → (∀ a x, SegCell k s l.length a x → Rd a x) →
      (∃ y ∈ l, y.1 = d) →
      (∀ x : Nat, (∃ y, l[x]? = some y ∧ y.1 = d) → (∀ z, z < x → ∀ y, l[z]? = some y → y.1 ≠ d) →
        Q () (m.set (.diagptr k) (i : Int) ((s : Int) + x + base))) →
      wp sz W Rd (storeDiag k base (i : Int) ((d : Int) + base) l.length (s : Int)) m Q := by
  intro l
  induction l with
  | nil => rintro s _ _ ⟨y, hy, _⟩; simp at hy
  | cons y l ih =>
    intro s h hR hex hQ
    rw [List.length_cons]
    unfold storeDiag
    have h00 := h 0 y rfl
    simp only [Int.add_zero, Nat.cast_zero] at h00
    refine wp_rd _ (hR _ _ ⟨Or.inl rfl, by omega, by rw [List.length_cons]; omega⟩) h00.1 ?_
    by_cases hc : y.1 = d
    · have hc' : (y.1 : Int) + base = (d : Int) + base := by omega
      rw [if_pos hc']
      refine wp_wr1 hW ⟨by omega, hz⟩ ?_
      have := hQ 0 ⟨y, rfl, hc⟩ (fun z hz => by omega)
      simpa using this
    · have hc' : ¬ ((y.1 : Int) + base = (d : Int) + base) := by omega
      rw [if_neg hc']
      have e : (s : Int) + 1 = ((s + 1 : Nat) : Int) := by omega
      rw [e]
      refine ih (s + 1) ?_ ?_ ?_ ?_
      · intro x z hx
        have := h (x + 1) z (by simpa using hx)
        rwa [show (s : Int) + ((x + 1 : Nat) : Int) = ((s + 1 : Nat) : Int) + x by omega] at this
      · rintro a x ⟨g1, g2, g3⟩
        exact hR a x ⟨g1, by omega, by rw [List.length_cons]; omega⟩
      · obtain ⟨z, hz, hzd⟩ := hex
        rcases List.mem_cons.1 hz with rfl | hz
        · exact absurd hzd hc
        · exact ⟨z, hz, hzd⟩
      · intro x hx hmin
        have := hQ (x + 1) (by simpa using hx) (by
          intro z hz w hw
          cases z with
          | zero => simp at hw; subst hw; exact hc
          | succ z => exact hmin z (by omega) w (by simpa using hw))
        rwa [show (s : Int) + ((x + 1 : Nat) : Int) = ((s + 1 : Nat) : Int) + x by omega] at this

end

end SpMP
