import Verif.LevelsPure
import Verif.LoopN
import Verif.RowTeam
/-
The single-thread parts of the level search: initial ready rows, copy of the queues, partition of a level, serial traversal.
-/

namespace SpMP
open Spec

variable {R : Type}

/-! ### Layout of the buffer -/

section
variable {T m : Nat}

theorem lvMx_ge (hT : 1 ≤ T) : m ≤ lvMx T m ∧ 1 ≤ lvMx T m := by unfold lvMx; omega

theorem lvCap_T (T m : Nat) : lvCap T m * T ≤ 2 * lvMx T m := by
  unfold lvCap
  have := Nat.div_mul_le_self (lvMx T m) T
  calc lvMx T m / T * 2 * T = 2 * (lvMx T m / T * T) := by ring
    _ ≤ 2 * lvMx T m := by omega

theorem lvCap_chunk (hT : 1 ≤ T) {c : Nat} (hc : c ≤ (m + T - 1) / T) : c + 1 ≤ lvCap T m := by
  unfold lvCap lvMx
  have h1 : 1 ≤ max T (m + T - 1) / T := by
    rw [Nat.le_div_iff_mul_le (by omega)]; omega
  have h2 : (m + T - 1) / T ≤ max T (m + T - 1) / T := Nat.div_le_div_right (by omega)
  omega

theorem qOff_step (t : Nat) : qOff T m (t + 1) = qOff T m t + lvCap T m := by unfold qOff; push_cast; ring

theorem qOff_mono {t u : Nat} (h : t < u) : qOff T m t + lvCap T m ≤ qOff T m u := by
  have : lvCap T m * (t + 1) ≤ lvCap T m * u := Nat.mul_le_mul_left _ h
  unfold qOff; rw [Nat.mul_add] at this; omega

theorem qOff_nonneg (t : Nat) : 0 ≤ qOff T m t := by unfold qOff; omega

theorem qOff_le {t : Nat} (h : t < T) : qOff T m t + lvCap T m ≤ 2 * lvMx T m := by
  have h1 : qOff T m t + lvCap T m ≤ qOff T m T := qOff_mono h
  have h2 : qOff T m T = ((lvCap T m * T : Nat) : Int) := rfl
  have := lvCap_T T m
  omega

theorem rOff_eq (t : Nat) : rOff T m t = 2 * lvMx T m + qOff T m t := by unfold rOff qOff; omega

theorem npOff_eq : npOff T m = 4 * lvMx T m := by unfold npOff; omega

theorem rOff_zero : rOff T m 0 = 2 * lvMx T m := by unfold rOff; omega

end

/-! ### The matrix -/

/-- The arrays of the matrix. -/
def MatCell (a : CArr) : Prop := a = .rowptr 0 ∨ a = .colidx 0 ∨ a = .diagptr 0 ∨ a = .extptr 0

/-- The matrix with its diagonal and external pointers is in memory. -/
structure LvMem (m : Mem (CTy R)) (base : Nat) (A : Csr R) (dp ep : Nat → Nat) (hasExt : Bool) : Prop where
  pat : HoldsPat m 0 base A
  diag : HoldsDiag m 0 base A dp
  ext : HoldsExt m 0 base A hasExt ep

theorem LvMem.congr {m m' : Mem (CTy R)} {base : Nat} {A : Csr R} {dp ep : Nat → Nat} {hasExt : Bool}
    (h : LvMem m base A dp ep hasExt) (hm : ∀ a i, MatCell a → m' a i = m a i) : LvMem m' base A dp ep hasExt := by
  refine ⟨⟨?_, ?_⟩, ?_, ?_, h.ext.2⟩
  · intro i hi; rw [hm _ _ (by simp [MatCell])]; exact h.pat.rowptr i hi
  · intro i hi; rw [hm _ _ (by simp [MatCell])]; exact h.pat.colidx i hi
  · intro i hi; rw [hm _ _ (by simp [MatCell])]; exact h.diag i hi
  · intro he i hi; rw [hm _ _ (by simp [MatCell])]; exact h.ext.1 he i hi

section
variable {sz : CArr → Int} {W Rd : CArr → Int → Prop} {m : Mem (CTy R)} {base : Nat} {A : Csr R} {dp ep : Nat → Nat} {hasExt : Bool}

theorem wp_extAt (h : LvMem m base A dp ep hasExt) (hR : ∀ a i, MatCell a → Rd a i) {r : Nat} (hr : r < A.m)
    {Q : Int → Mem (CTy R) → Prop} (hQ : Q ((ep r : Int) + base) m) : wp sz W Rd (extAt hasExt (r : Int)) m Q := by
  unfold extAt
  cases hasExt with
  | true =>
    rw [if_pos rfl, wp_read]
    exact ⟨hR _ _ (by simp [MatCell]), _, h.ext.1 rfl r hr, hQ⟩
  | false =>
    rw [if_neg (by simp), wp_read]
    refine ⟨hR _ _ (by simp [MatCell]), _, ?_, hQ⟩
    rw [h.ext.2.1 rfl r hr]
    exact h.pat.rowptr (r + 1) (by omega)

/-- Work of a row: entries right of its diagonal. -/
def rowWork (dp ep : Nat → Nat) (s : Nat) : Int := (ep s : Int) - dp s - 1

/-- Work of a list of rows. -/
def wS (dp ep : Nat → Nat) (q : List Nat) : Int := (q.map (rowWork dp ep)).sum

theorem wS_snoc (dp ep : Nat → Nat) (q : List Nat) (s : Nat) : wS dp ep (q ++ [s]) = wS dp ep q + rowWork dp ep s := by
  simp [wS]

/-- From cell `off` of array `a` on, memory holds the rows `q`. -/
def HoldsQ (m : Mem (CTy R)) (j : Nat) (off : Int) (q : List Nat) : Prop :=
  ∀ (x s : Nat), q[x]? = some s → m (.itmp j) (off + (x : Nat)) = some (s : Int)

/-- From cell `off` of the buffer on, memory holds the running sums of the work of the rows `q`. -/
def HoldsRP (m : Mem (CTy R)) (dp ep : Nat → Nat) (off : Int) (q : List Nat) : Prop :=
  ∀ x : Nat, x ≤ q.length → m bufA (off + (x : Nat)) = some (wS dp ep (q.take x))

theorem HoldsQ.congr {m m' : Mem (CTy R)} {j : Nat} {off : Int} {q : List Nat} (h : HoldsQ m j off q)
    (hm : ∀ i : Int, off ≤ i → i < off + q.length → m' (.itmp j) i = m (.itmp j) i) : HoldsQ m' j off q := by
  intro x s hx
  have := (List.getElem?_eq_some_iff.mp hx).1
  rw [hm _ (by omega) (by omega)]; exact h x s hx

theorem HoldsRP.congr {m m' : Mem (CTy R)} {off : Int} {q : List Nat} (h : HoldsRP m dp ep off q)
    (hm : ∀ i : Int, off ≤ i → i ≤ off + q.length → m' bufA i = m bufA i) : HoldsRP m' dp ep off q := by
  intro x hx
  rw [hm _ (by omega) (by omega)]; exact h x hx

theorem HoldsQ.snoc {m : Mem (CTy R)} {j : Nat} {off : Int} {q : List Nat} (h : HoldsQ m j off q) {s : Nat}
    (hm : m (.itmp j) (off + q.length) = some (s : Int)) : HoldsQ m j off (q ++ [s]) := by
  intro x y hx
  rcases Nat.lt_trichotomy x q.length with h1 | h1 | h1
  · rw [List.getElem?_append_left h1] at hx; exact h x y hx
  · subst h1
    simp at hx; subst hx; exact hm
  · rw [List.getElem?_eq_none (by simp; omega)] at hx; cases hx

theorem HoldsRP.snoc {m : Mem (CTy R)} {off : Int} {q : List Nat} (h : HoldsRP m dp ep off q) {s : Nat}
    (hm : m bufA (off + q.length + 1) = some (wS dp ep q + rowWork dp ep s)) : HoldsRP m dp ep off (q ++ [s]) := by
  intro x hx
  rcases Nat.lt_or_ge q.length x with h1 | h1
  · have : x = q.length + 1 := by simp at hx; omega
    subst this
    rw [List.take_of_length_le (by simp), wS_snoc, ← hm]
    congr 1; push_cast; omega
  · rw [List.take_append_of_le_length h1]; exact h x h1

theorem HoldsRP.last {m : Mem (CTy R)} {off : Int} {q : List Nat} (h : HoldsRP m dp ep off q) :
    m bufA (off + q.length) = some (wS dp ep q) := by
  have := h q.length (Nat.le_refl _); rwa [List.take_length] at this

/-- Appending a row to a queue. -/
theorem wp_pushRow (h : LvMem m base A dp ep hasExt) (hR : ∀ a i, MatCell a → Rd a i) {j : Nat} {qb rb : Int} {q : List Nat} {s : Nat}
    (hs : s < A.m) (hq : HoldsQ m j qb q) (hr : HoldsRP m dp ep rb q)
    (hdis : j = 20 → qb + q.length < rb ∨ rb + q.length < qb)
    (w1 : W (.itmp j) (qb + q.length)) (w2 : W bufA (rb + q.length + 1)) (r1 : Rd bufA (rb + q.length))
    (b1 : 0 ≤ qb + q.length ∧ qb + q.length < sz (.itmp j)) (b2 : 0 ≤ rb + q.length + 1 ∧ rb + q.length + 1 < sz bufA)
    (hdis2 : j = 20 → rb + q.length + 1 < qb ∨ qb + q.length < rb)
    {Q : Unit → Mem (CTy R) → Prop}
    (hQ : ∀ m', HoldsQ m' j qb (q ++ [s]) → HoldsRP m' dp ep rb (q ++ [s]) → LvMem m' base A dp ep hasExt →
      (∀ a i, ¬ (a = .itmp j ∧ i = qb + q.length) → ¬ (a = bufA ∧ i = rb + q.length + 1) → m' a i = m a i) → Q () m') :
    wp sz W Rd (pushRow hasExt j qb rb (q.length : Int) (s : Int)) m Q := by
  unfold pushRow
  refine wp_wr w1 b1 ?_
  have hm1 : LvMem (m.set (.itmp j) (qb + q.length) (s : Int)) base A dp ep hasExt := by
    refine h.congr ?_
    intro a i ha
    rw [Mem.set_other _ _ _ _ _ (by rintro rfl; simp [MatCell] at ha)]
  have hv : (m.set (.itmp j) (qb + q.length) (s : Int)) bufA (rb + q.length) = some (wS dp ep q) := by
    by_cases hj : j = 20
    · subst hj
      rw [Mem.get_ne _ _ _ _ _ (by rcases hdis rfl with h | h <;> omega)]; exact hr.last
    · rw [Mem.set_other _ _ _ _ _ (by intro h; exact hj (by injection h with h; exact h.symm))]; exact hr.last
  refine wp_rd (wS dp ep q) r1 hv ?_
  rw [wp_bind]
  refine wp_extAt hm1 hR hs ?_
  refine wp_rd ((dp s : Int) + base) (hR _ _ (by simp [MatCell])) (hm1.diag s hs).2.2 ?_
  refine wp_wr1 w2 b2 ?_
  have hw : (wS dp ep q + ((ep s : Int) + base) - ((dp s : Int) + base) - 1 : Int) = wS dp ep q + rowWork dp ep s := by
    unfold rowWork; omega
  rw [hw]
  generalize hm' : (m.set (.itmp j) (qb + q.length) (s : Int)).set bufA (rb + q.length + 1) (wS dp ep q + rowWork dp ep s) = m'
  have hfr : ∀ a i, ¬ (a = .itmp j ∧ i = qb + q.length) → ¬ (a = bufA ∧ i = rb + q.length + 1) → m' a i = m a i := by
    intro a i h1 h2
    rw [← hm']
    rcases Mem.set_cases (m.set (.itmp j) (qb + q.length) (s : Int)) bufA (rb + q.length + 1) (wS dp ep q + rowWork dp ep s) a i with ⟨rfl, rfl⟩ | h3
    · exact absurd ⟨rfl, rfl⟩ h2
    · rw [h3]
      rcases Mem.set_cases m (.itmp j) (qb + q.length) (s : Int) a i with ⟨rfl, rfl⟩ | h4
      · exact absurd ⟨rfl, rfl⟩ h1
      · exact h4
  refine hQ m' ?_ ?_ ?_ hfr
  · refine HoldsQ.snoc (hq.congr ?_) ?_
    · intro i h1 h2
      refine hfr _ _ (by rintro ⟨_, h⟩; omega) ?_
      rintro ⟨h3, h4⟩
      injection h3 with h3
      rcases hdis2 h3 with h5 | h5 <;> omega
    · rw [← hm']
      by_cases hj : j = 20
      · subst hj
        rw [Mem.get_ne _ _ _ _ _ (by rcases hdis2 rfl with h5 | h5 <;> omega), Mem.get_same]
      · rw [Mem.set_other _ _ _ _ _ (by intro h; exact hj (by injection h)), Mem.get_same]
  · refine HoldsRP.snoc (hr.congr ?_) ?_
    · intro i h1 h2
      refine hfr _ _ ?_ (by rintro ⟨_, h⟩; omega)
      rintro ⟨h3, h4⟩
      injection h3 with h3
      rcases hdis h3.symm with h5 | h5
      · omega
      · omega
    · rw [← hm', Mem.get_same]
  · refine h.congr ?_
    intro a i ha
    refine hfr a i ?_ ?_
    · rintro ⟨rfl, _⟩; simp [MatCell] at ha
    · rintro ⟨rfl, _⟩; simp [MatCell] at ha

/-- Own cells of a thread: its queue and its running sums. -/
def OwnQ (T m tid : Nat) (a : CArr) (i : Int) : Prop :=
  a = bufA ∧ ((qOff T m tid ≤ i ∧ i < qOff T m tid + lvCap T m) ∨ (rOff T m tid ≤ i ∧ i < rOff T m tid + lvCap T m))

/-- The rows without dependencies among `lo .. hi-1`. -/
def freeRows (A : Csr R) (dp : Nat → Nat) (lo hi : Nat) : List Nat :=
  (List.range' lo (hi - lo)).filter fun i => decide (dp i = A.ptr i)

theorem freeRows_snoc (A : Csr R) (dp : Nat → Nat) {lo i : Nat} (h : lo ≤ i) :
    freeRows A dp lo (i + 1) = freeRows A dp lo i ++ if dp i = A.ptr i then [i] else [] := by
  unfold freeRows
  rw [show i + 1 - lo = i - lo + 1 by omega, List.range'_1_concat, List.filter_append, show lo + (i - lo) = i by omega]
  congr 1
  by_cases h : dp i = A.ptr i <;> simp [h]

theorem wp_firstReady {T : Nat} (h : LvMem m base A dp ep hasExt) (hs : SplitRows A dp ep) (hR : ∀ a i, MatCell a → Rd a i) {tid lo hi : Nat}
    (htid : tid < T) (hlo : lo ≤ hi) (hhi : hi ≤ A.m) (hc : hi - lo + 1 ≤ lvCap T A.m) (hsz : 4 * (lvMx T A.m : Int) + A.m ≤ sz bufA)
    (hW : ∀ a i, OwnQ T A.m tid a i → W a i) (hR' : ∀ a i, OwnQ T A.m tid a i → Rd a i)
    (hW2 : ∀ i : Int, npOff T A.m + lo ≤ i → i < npOff T A.m + hi → W bufA i)
    {Q : Int × Int → Mem (CTy R) → Prop}
    (hQ : ∀ m', HoldsQ m' 20 (qOff T A.m tid) (freeRows A dp lo hi) → HoldsRP m' dp ep (rOff T A.m tid) (freeRows A dp lo hi) →
      (∀ i : Nat, lo ≤ i → i < hi → m' bufA (npOff T A.m + i) = some ((dp i : Int) - A.ptr i)) →
      Q (((freeRows A dp lo hi).length : Int), wS dp ep (freeRows A dp lo hi)) m') :
    wp sz W Rd (firstReady hasExt T A.m lo hi tid) m Q := by
  have g1 := qOff_nonneg (T := T) (m := A.m) tid
  have g2 := qOff_le (m := A.m) htid
  have g3 := rOff_eq (T := T) (m := A.m) tid
  have g4 := npOff_eq (T := T) (m := A.m)
  have hlen : ∀ i, (freeRows A dp lo i).length ≤ i - lo := by
    intro i
    refine Nat.le_trans (List.length_filter_le _ _) ?_
    rw [List.length_range']
  have g5 : sz bufA = sz (.itmp 20) := rfl
  unfold firstReady
  refine wp_wr (hW _ _ ⟨rfl, Or.inr ⟨by omega, by omega⟩⟩) ⟨by omega, by omega⟩ ?_
  rw [wp_bind]
  refine wp_forN (b := 0) (lo := lo) (hi := hi)
    (fun i k m' => k = ((freeRows A dp lo i).length : Int) ∧ LvMem m' base A dp ep hasExt ∧ HoldsQ m' 20 (qOff T A.m tid) (freeRows A dp lo i) ∧
      HoldsRP m' dp ep (rOff T A.m tid) (freeRows A dp lo i) ∧
      ∀ x : Nat, lo ≤ x → x < i → m' bufA (npOff T A.m + x) = some ((dp x : Int) - A.ptr x)) hlo ?_ ?_ ?_ (by omega) (by omega)
  · have he : freeRows A dp lo lo = [] := by unfold freeRows; simp
    rw [he]
    refine ⟨rfl, ?_, ?_, ?_, ?_⟩
    · refine h.congr ?_
      intro a i ha
      rw [Mem.set_other _ _ _ _ _ (by rintro rfl; simp [MatCell] at ha)]
    · intro x s hx; simp at hx
    · intro x hx
      have : x = 0 := by simpa using hx
      subst this
      rw [show rOff T A.m tid + ((0 : Nat) : Int) = rOff T A.m tid by omega, Mem.get_same]; rfl
    · intro x h1 h2; omega
  · rintro i k m' h1 h2 ⟨rfl, hm, hq, hr, hn⟩
    rw [Int.add_zero]
    have hi := hlen i
    refine wp_rd _ (hR _ _ (by simp [MatCell])) (hm.diag i (by omega)).2.2 ?_
    refine wp_rd _ (hR _ _ (by simp [MatCell])) (hm.pat.rowptr i (by omega)) ?_
    refine wp_wr (hW2 _ (by omega) (by omega)) ⟨by omega, by omega⟩ ?_
    have hv : ((dp i : Int) + base - ((A.ptr i : Int) + base) : Int) = (dp i : Int) - A.ptr i := by omega
    rw [hv]
    generalize hm2 : m'.set bufA (npOff T A.m + i) ((dp i : Int) - A.ptr i) = m2
    have hfr : ∀ a j, ¬ (a = bufA ∧ j = npOff T A.m + i) → m2 a j = m' a j := by
      intro a j hne
      rw [← hm2]
      rcases Mem.set_cases m' bufA (npOff T A.m + i) ((dp i : Int) - A.ptr i) a j with ⟨rfl, rfl⟩ | h3
      · exact absurd ⟨rfl, rfl⟩ hne
      · exact h3
    have hm' : LvMem m2 base A dp ep hasExt := hm.congr (fun a j ha => hfr a j (by rintro ⟨rfl, _⟩; simp [MatCell] at ha))
    have hq' : HoldsQ m2 20 (qOff T A.m tid) (freeRows A dp lo i) := hq.congr (fun j h3 h4 => hfr _ _ (by rintro ⟨_, h5⟩; omega))
    have hr' : HoldsRP m2 dp ep (rOff T A.m tid) (freeRows A dp lo i) := hr.congr (fun j h3 h4 => hfr _ _ (by rintro ⟨_, h5⟩; omega))
    have hn' : ∀ x : Nat, lo ≤ x → x < i + 1 → m2 bufA (npOff T A.m + x) = some ((dp x : Int) - A.ptr x) := by
      intro x h3 h4
      by_cases hx : x = i
      · subst hx; rw [← hm2, Mem.get_same]
      · rw [hfr _ _ (by rintro ⟨_, h5⟩; omega)]; exact hn x h3 (by omega)
    have hb := hs.bounds i (by omega)
    rw [freeRows_snoc A dp h1]
    by_cases h0 : dp i = A.ptr i
    · have hz : ((dp i : Int) - A.ptr i : Int) = 0 := by omega
      rw [if_pos h0, if_pos hz, wp_bind]
      refine wp_pushRow hm' hR (by omega) hq' hr' (fun _ => Or.inl (by omega)) (hW _ _ ⟨rfl, Or.inl ⟨by omega, by omega⟩⟩)
        (hW _ _ ⟨rfl, Or.inr ⟨by omega, by omega⟩⟩) (hR' _ _ ⟨rfl, Or.inr ⟨by omega, by omega⟩⟩) ⟨by omega, by omega⟩ ⟨by omega, by omega⟩
        (fun _ => Or.inr (by omega)) ?_
      intro m3 k1 k2 k3 k4
      rw [wp_pure]
      refine ⟨by simp, k3, k1, k2, ?_⟩
      intro x h3 h4
      rw [k4 _ _ (by rintro ⟨_, h5⟩; omega) (by rintro ⟨_, h5⟩; omega)]
      exact hn' x h3 h4
    · have hz : ¬ ((dp i : Int) - A.ptr i : Int) = 0 := by omega
      rw [if_neg h0, if_neg hz, wp_pure, List.append_nil]
      exact ⟨rfl, hm', hq', hr', hn'⟩
  · rintro k m' ⟨rfl, hm, hq, hr, hn⟩
    have hi := hlen hi
    refine wp_rd _ (hR' _ _ ⟨rfl, Or.inr ⟨by omega, by omega⟩⟩) hr.last ?_
    rw [wp_pure]
    exact hQ m' hq hr hn

/-! ### Copy of the queues -/

/-- upper_bound in a non-decreasing table. -/
theorem wp_upperBoundT {F : Nat → Int} {n : Nat} {x : Int} (hmono : ∀ a b, a ≤ b → b ≤ n → F a ≤ F b)
    {Q : Int → Mem (CTy R) → Prop}
    (hQ : ∀ p : Nat, p ≤ n + 1 → (∀ i, i < p → F i ≤ x) → (∀ i, p ≤ i → i ≤ n → x < F i) → Q (p : Int) m) :
    wp sz W Rd (upperBound (fun t => pure (F t.toNat)) 0 ((n : Int) + 1) x) m Q := by
  unfold upperBound
  refine wp_lowerBound (f := fun i => F i.toNat) (by omega) ?_ ?_ ?_
  · intro i _ _ Q hQ; rw [wp_pure]; exact hQ
  · intro i j h1 h2 h3; exact hmono _ _ (by omega) (by omega)
  · intro p h1 h2 h3 h4
    obtain ⟨p, rfl⟩ := Int.eq_ofNat_of_zero_le h1
    refine hQ p (by omega) ?_ ?_
    · intro i hi
      have := h3 (i : Int) (by omega) (by omega)
      simp only [Int.toNat_natCast] at this; omega
    · intro i hi hn
      have := h4 (i : Int) (by omega) (by omega)
      simp only [Int.toNat_natCast] at this; omega

theorem wp_copyQueues {T mm : Nat} (hT : 1 ≤ T) {Qs : Nat → List Nat} {qt : Nat → Int} (hqt : ∀ t, qt t = ((Qs t).length : Int))
    (hq : ∀ t, t < T → HoldsQ m 20 (qOff T mm t) (Qs t)) {begin_ : Int} (hb0 : 0 ≤ begin_)
    (hsz : begin_ + ((List.range T).flatMap Qs).length ≤ sz revA) {tid : Nat}
    (hR : ∀ i, Rd bufA i)
    (hW : ∀ i : Int, begin_ + simpleBegin T tid (psum qt T) ≤ i → i < begin_ + simpleEnd T tid (psum qt T) → W revA i)
    {Q : Unit → Mem (CTy R) → Prop}
    (hQ : ∀ m', (∀ a i, a ≠ revA → m' a i = m a i) →
      (∀ p s : Nat, ((List.range T).flatMap Qs)[p]? = some s → simpleBegin T tid (psum qt T) ≤ p → (p : Int) < simpleEnd T tid (psum qt T) →
        m' revA (begin_ + p) = some (s : Int)) → Q () m') :
    wp sz W Rd (copyQueues T mm qt (psum qt) begin_ tid) m Q := by
  have hfq : qt = fun t => ((Qs t).length : Int) := funext hqt
  have hnn : ∀ t, 0 ≤ qt t := fun t => by rw [hqt]; omega
  have hPm : ∀ a b, a ≤ b → psum qt a ≤ psum qt b := fun a b h => psum_mono hnn h
  have hP0 : psum qt 0 = 0 := rfl
  have htot : (((List.range T).flatMap Qs).length : Int) = psum qt T := by rw [flatMap_length_psum, hfq]
  unfold copyQueues
  dsimp only
  have hper : (psum qt T + T - 1) / T = perThread T (psum qt T) := rfl
  rw [hper]
  have hpn : 0 ≤ perThread T (psum qt T) := perThread_nonneg (by omega) (hPm 0 T (by omega))
  have hx1 : 0 ≤ perThread T (psum qt T) * tid := Int.mul_nonneg hpn (by omega)
  have hx2 : perThread T (psum qt T) * ((tid : Int) + 1) = perThread T (psum qt T) * tid + perThread T (psum qt T) := by ring
  unfold simpleEnd simpleBegin at hW hQ
  rw [hx2]
  generalize perThread T (psum qt T) = per at *
  generalize per * (tid : Int) = x1 at *
  rw [wp_bind]
  refine wp_upperBoundT (fun a b h _ => hPm a b h) ?_
  intro pB hB1 hB2 hB3
  rw [wp_bind]
  refine wp_upperBoundT (fun a b h _ => hPm a b h) ?_
  intro pE hE1 hE2 hE3
  have hpB : 1 ≤ pB := by
    by_contra hc
    have := hB3 0 (by omega) (by omega); omega
  have hpE : pB ≤ pE := by
    by_contra hc
    have h1 := hB2 pE (by omega)
    have h2 := hE3 pE (by omega) (by omega)
    omega
  have hhi : ∃ te : Nat, min ((pE : Int) - 1) ((T : Int) - 1) + 1 = (te : Int) + 0 ∧ te ≤ T ∧ te ≤ pE ∧ (te = T ∨ te = pE) := by
    refine ⟨min pE T, by omega, by omega, by omega, by omega⟩
  obtain ⟨te, hte, hteT, htepE, hteor⟩ := hhi
  refine wp_forN (b := 0) (lo := pB - 1) (hi := te)
    (fun t _ m' => (∀ a i, a ≠ revA → m' a i = m a i) ∧
      (∀ p s : Nat, ((List.range T).flatMap Qs)[p]? = some s → min x1 (psum qt T) ≤ p → (p : Int) < min (min x1 (psum qt T) + per) (psum qt T) →
        (p : Int) < psum qt t → m' revA (begin_ + p) = some (s : Int))) (by omega) ?_ ?_ ?_ (by omega) hte
  · refine ⟨fun _ _ _ => rfl, ?_⟩
    intro p s _ h1 h2 h3
    have := hB2 (pB - 1) (by omega)
    omega
  · rintro t _ m1 h1 h2 ⟨hfr, hdone⟩
    rw [Int.add_zero]
    simp only [Int.toNat_natCast]
    have hPt : psum qt (t + 1) = psum qt t + qt t := rfl
    have k1 : x1 < psum qt (t + 1) := hB3 (t + 1) (by omega) (by omega)
    have k2 : psum qt t ≤ x1 + per := hE2 t (by omega)
    have k3 : psum qt t ≤ psum qt T := hPm _ _ (by omega)
    have k4 : psum qt (t + 1) ≤ psum qt T := hPm _ _ (by omega)
    have k5 : 0 ≤ psum qt t := hPm 0 t (by omega)
    have k6 := hnn t
    have hbe : ∃ b e : Nat, max 0 (min (begin_ + x1) (begin_ + psum qt T) - begin_ - psum qt t) = (b : Int) + 0 ∧
        min (qt t) (min (min (begin_ + x1) (begin_ + psum qt T) + per) (begin_ + psum qt T) - begin_ - psum qt t) = (e : Int) + 0 ∧ b ≤ e ∧
        (e : Int) ≤ qt t ∧ min x1 (psum qt T) ≤ psum qt t + b ∧ (b = 0 ∨ psum qt t + b = min x1 (psum qt T)) ∧
        psum qt t + e ≤ min (min x1 (psum qt T) + per) (psum qt T) ∧ ((e : Int) = qt t ∨ psum qt t + e = min (min x1 (psum qt T) + per) (psum qt T)) := by
      refine ⟨(max 0 (min (begin_ + x1) (begin_ + psum qt T) - begin_ - psum qt t)).toNat,
        (min (qt t) (min (min (begin_ + x1) (begin_ + psum qt T) + per) (begin_ + psum qt T) - begin_ - psum qt t)).toNat, ?_⟩
      omega
    obtain ⟨b, e, hb, he, hle, e1, b1, b2, e2, e3⟩ := hbe
    rw [if_neg (by omega)]
    refine wp_forN (b := 0) (lo := b) (hi := e)
      (fun x _ m' => (∀ a i, a ≠ revA → m' a i = m a i) ∧
        (∀ p s : Nat, ((List.range T).flatMap Qs)[p]? = some s → min x1 (psum qt T) ≤ p → (p : Int) < min (min x1 (psum qt T) + per) (psum qt T) →
          (p : Int) < psum qt t + x → m' revA (begin_ + p) = some (s : Int))) hle ?_ ?_ ?_ hb he
    · refine ⟨hfr, ?_⟩
      intro p s h3 h4 h5 h6
      exact hdone p s h3 h4 h5 (by omega)
    · rintro x _ m2 h3 h4 ⟨hfr2, hd2⟩
      rw [Int.add_zero]
      have hxl : x < (Qs t).length := by have := hqt t; omega
      obtain ⟨p, hp⟩ := Int.eq_ofNat_of_zero_le (show 0 ≤ psum qt t + x by omega)
      have hval : m2 bufA (qOff T mm t + x) = some (((Qs t)[x] : Nat) : Int) := by
        rw [hfr2 _ _ (by simp)]
        exact hq t (by omega) x _ (List.getElem?_eq_getElem hxl)
      refine wp_rd _ (hR _) hval ?_
      refine wp_wr1 (hW _ (by omega) (by omega)) ⟨by omega, by omega⟩ ?_
      refine ⟨?_, ?_⟩
      · intro a i ha
        rw [Mem.set_other _ _ _ _ _ ha]; exact hfr2 a i ha
      · intro p' s hs h5 h6 h7
        by_cases h8 : p' = p
        · subst h8
          rw [show begin_ + (p' : Int) = begin_ + psum qt t + x by omega, Mem.get_same]
          rw [flatMap_getElem_psum Qs (t := t) (x := x) (by omega) hxl (by rw [← hfq]; omega), List.getElem?_eq_getElem hxl] at hs
          exact congrArg (fun z : Nat => some (z : Int)) (Option.some.inj hs)
        · rw [Mem.get_ne _ _ _ _ _ (by omega)]
          exact hd2 p' s hs h5 h6 (by push_cast at h7; omega)
    · rintro _ m2 ⟨hfr2, hd2⟩
      refine ⟨hfr2, ?_⟩
      intro p s h3 h4 h5 h6
      refine hd2 p s h3 h4 h5 ?_
      rcases e3 with e3 | e3 <;> omega
  · rintro _ m1 ⟨hfr, hdone⟩
    refine hQ m1 hfr ?_
    intro p s h1 h2 h3
    refine hdone p s h1 h2 h3 ?_
    rcases hteor with h | h
    · rw [h]; omega
    · by_cases hT' : te = T
      · rw [hT']; omega
      · have := hE3 te (by omega) (by omega)
        omega

/-! ### Partition of a level -/

/-- `c` is where the work exceeds `x`: in the queue of the thread `t` whose work contains `x`, behind the rows whose work starts at
or before `x`, minus one. -/
def CutRel (T : Nat) (qt P N : Nat → Int) (rp : Nat → Nat → Int) (x c : Int) : Prop :=
  (N T ≤ x ∧ c = P T) ∨ ∃ t k : Nat, t < T ∧ N t ≤ x ∧ x < N (t + 1) ∧ (k : Int) < qt t ∧ c = P t + k ∧ rp t k ≤ x - N t ∧
    ∀ k' : Nat, k < k' → (k' : Int) < qt t → x - N t < rp t k'

/-- What the partition relies on. -/
structure CutOk (T : Nat) (qt P N : Nat → Int) (rp : Nat → Nat → Int) : Prop where
  N0 : N 0 = 0
  P0 : P 0 = 0
  Nmono : ∀ a b, a ≤ b → b ≤ T → N a ≤ N b
  Pmono : ∀ a b, a ≤ b → b ≤ T → P a ≤ P b
  pos : ∀ t, t < T → N t < N (t + 1) → 0 < qt t ∧ P (t + 1) = P t + qt t
  rp0 : ∀ t, rp t 0 = 0
  rpmono : ∀ t k k' : Nat, t < T → N t < N (t + 1) → k ≤ k' → (k' : Int) < qt t → rp t k ≤ rp t k'

theorem wp_cutAt {T mm : Nat} {qt P N : Nat → Int} {rp : Nat → Nat → Int} (hc : CutOk T qt P N rp)
    (hm : ∀ t k : Nat, t < T → N t < N (t + 1) → (k : Int) < qt t → m bufA (rOff T mm t + k) = some (rp t k)) (hR : ∀ i, Rd bufA i)
    {per : Int} (hper : 0 ≤ per) {u : Nat} {Q : Int → Mem (CTy R) → Prop} (hQ : ∀ c, CutRel T qt P N rp (per * u) c → Q c m) :
    wp sz W Rd (cutAt T mm qt P N per u) m Q := by
  unfold cutAt
  have hx : 0 ≤ per * (u : Int) := Int.mul_nonneg hper (by omega)
  generalize per * (u : Int) = x at *
  rw [wp_bind]
  refine wp_upperBoundT hc.Nmono ?_
  intro p h1 h2 h3
  dsimp only
  have hp : 1 ≤ p := by
    by_contra hcc
    have := h3 0 (by omega) (by omega)
    have := hc.N0; omega
  by_cases hT : (p : Int) - 1 = T
  · rw [if_pos hT, wp_pure]
    exact hQ _ (Or.inl ⟨h2 T (by omega), rfl⟩)
  · rw [if_neg hT, wp_bind]
    obtain ⟨t, rfl⟩ : ∃ t, p = t + 1 := ⟨p - 1, by omega⟩
    rw [show (((t + 1 : Nat) : Int) - 1).toNat = t by omega]
    have k1 := h2 t (by omega)
    have k2 := h3 (t + 1) (by omega) (by omega)
    have k3 := hc.pos t (by omega) (by omega)
    unfold upperBound
    refine wp_lowerBound (f := fun i => rp t (i - rOff T mm t).toNat) (by omega) ?_ ?_ ?_
    · intro i h4 h5 Q hQ
      rw [wp_read]
      refine ⟨hR _, _, ?_, hQ⟩
      have := hm t (i - rOff T mm t).toNat (by omega) (by omega) (by omega)
      rwa [show rOff T mm t + ((i - rOff T mm t).toNat : Int) = i by omega] at this
    · intro i j h4 h5 h6
      exact hc.rpmono t _ _ (by omega) (by omega) (by omega) (by omega)
    · intro q h4 h5 h6 h7
      have hq : rOff T mm t < q := by
        by_contra hcc
        have := h7 (rOff T mm t) (by omega) (by omega)
        simp only [Int.sub_self, Int.toNat_zero, hc.rp0] at this
        omega
      rw [wp_pure]
      refine hQ _ (Or.inr ⟨t, (q - rOff T mm t - 1).toNat, by omega, k1, k2, by omega, by omega, ?_, ?_⟩)
      · have := h6 (q - 1) (by omega) (by omega)
        rw [show q - 1 - rOff T mm t = q - rOff T mm t - 1 by omega] at this
        omega
      · intro k' h8 h9
        have := h7 (rOff T mm t + k') (by omega) (by omega)
        rw [show rOff T mm t + (k' : Int) - rOff T mm t = k' by omega] at this
        simp only [Int.toNat_natCast] at this
        omega

theorem CutRel.bounds {T : Nat} {qt P N : Nat → Int} {rp : Nat → Nat → Int} (hc : CutOk T qt P N rp) {x c : Int} (h : CutRel T qt P N rp x c) :
    0 ≤ c ∧ c ≤ P T := by
  have h0 := hc.P0
  rcases h with ⟨_, rfl⟩ | ⟨t, k, h1, h2, h3, h4, rfl, _⟩
  · have := hc.Pmono 0 T (by omega) (by omega); omega
  · have := hc.Pmono 0 t (by omega) (by omega)
    have := hc.Pmono (t + 1) T (by omega) (by omega)
    have := (hc.pos t h1 (by omega)).2
    omega

theorem CutRel.mono {T : Nat} {qt P N : Nat → Int} {rp : Nat → Nat → Int} (hc : CutOk T qt P N rp) {x x' c c' : Int}
    (h : CutRel T qt P N rp x c) (h' : CutRel T qt P N rp x' c') (hx : x ≤ x') : c ≤ c' := by
  have hb := h.bounds hc
  rcases h' with ⟨_, rfl⟩ | ⟨t', k', g1, g2, g3, g4, rfl, g5, g6⟩
  · exact hb.2
  · have m2 := hc.Nmono (t' + 1) T (by omega) (by omega)
    rcases h with ⟨h1, _⟩ | ⟨t, k, h1, h2, h3, h4, rfl, h5, h6⟩
    · omega
    · rcases Nat.lt_trichotomy t t' with h | h | h
      · have := hc.Pmono (t + 1) t' (by omega) (by omega)
        have := (hc.pos t h1 (by omega)).2
        omega
      · subst h
        by_cases hk : k ≤ k'
        · omega
        · have := g6 k (by omega) h4
          omega
      · have := hc.Nmono (t' + 1) t (by omega) (by omega)
        omega

theorem CutRel.unique {T : Nat} {qt P N : Nat → Int} {rp : Nat → Nat → Int} (hc : CutOk T qt P N rp) {x c c' : Int}
    (h : CutRel T qt P N rp x c) (h' : CutRel T qt P N rp x c') : c = c' :=
  Int.le_antisymm (h.mono hc h' (Int.le_refl _)) (h'.mono hc h (Int.le_refl _))

end

end SpMP
