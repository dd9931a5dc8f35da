import Verif.Kernels
/-
Teams in which every thread computes a range of rows (getSimpleThreadPartition or getLoadBalancedPartition,
/repo/Utils.cpp) and then processes its rows one after the other, the rows being independent of each other.
-/

namespace SpMP

section
variable {A : Type} [DecidableEq A] {ty : A → Type} {α β : Type} {sz : A → Int}

/-- Running a program from a memory that agrees on the cells it may read. -/
theorem wp_frame {W R : A → Int → Prop} {p : Prog ty α} {Q : α → Mem ty → Prop} :
    ∀ {m m' : Mem ty}, wp sz W R p m Q → (∀ a i, R a i → m' a i = m a i) →
      wp sz W R p m' (fun r m2 => ∃ mt, Q r mt ∧ (∀ a i, R a i → m2 a i = mt a i) ∧
        ∀ a i, ¬ W a i → m2 a i = m' a i) := by
  induction p with
  | ret a => intro m m' h hag; rw [wp_ret] at h ⊢; exact ⟨m, h, hag, fun _ _ _ => rfl⟩
  | rd a i k ih =>
    intro m m' h hag
    unfold wp at h ⊢
    obtain ⟨h1, v, h2, h3⟩ := h
    exact ⟨h1, v, by rw [hag _ _ h1]; exact h2, ih v h3 hag⟩
  | wr a i v k ih =>
    intro m m' h hag
    unfold wp at h ⊢
    obtain ⟨h1, h2, h3, h4⟩ := h
    refine ⟨h1, h2, h3, wp_mono (ih h4 (m' := m'.set a i v) ?_) ?_⟩
    · intro b j hb
      unfold Mem.set
      split
      · split
        · rfl
        · exact hag _ _ hb
      · exact hag _ _ hb
    · rintro r m2 ⟨mt, q1, q2, q3⟩
      refine ⟨mt, q1, q2, ?_⟩
      intro b j hb
      rw [q3 b j hb]
      rcases Mem.set_cases m' a i v b j with ⟨rfl, rfl⟩ | h
      · exact absurd h1 hb
      · exact h
  | rmw a i f k ih =>
    intro m m' h hag
    unfold wp at h ⊢
    obtain ⟨h1, h2, h3, h4, v, h5, h6⟩ := h
    refine ⟨h1, h2, h3, h4, v, by rw [hag _ _ h4]; exact h5, wp_mono (ih v h6 (m' := m'.set a i (f v)) ?_) ?_⟩
    · intro b j hb
      unfold Mem.set
      split
      · split
        · rfl
        · exact hag _ _ hb
      · exact hag _ _ hb
    · rintro r m2 ⟨mt, q1, q2, q3⟩
      refine ⟨mt, q1, q2, ?_⟩
      intro b j hb
      rw [q3 b j hb]
      rcases Mem.set_cases m' a i (f v) b j with ⟨rfl, rfl⟩ | h
      · exact absurd h1 hb
      · exact h
  | fail => intro m m' h _; exact (wp_fail.1 h).elim

/-- A loop over independent rows. -/
theorem wp_rows {W R : A → Int → Prop} {lo hi : Int} {body : Int → Prog ty Unit} {m0 : Mem ty}
    {Q : Unit → Mem ty → Prop}
    (Wr Rr : Int → A → Int → Prop) (Qr : Int → Mem ty → Prop)
    (hW : ∀ r a i, lo ≤ r → r < hi → Wr r a i → W a i) (hR : ∀ r a i, lo ≤ r → r < hi → Rr r a i → R a i)
    (hdisj : ∀ r r' a i, lo ≤ r → r < hi → lo ≤ r' → r' < hi → r ≠ r' → Wr r a i → ¬ Rr r' a i)
    (hbody : ∀ r, lo ≤ r → r < hi → wp sz (Wr r) (Rr r) (body r) m0 (fun _ m => Qr r m))
    (hQ : ∀ m, (∀ r, lo ≤ r → r < hi → ∃ mt, Qr r mt ∧ ∀ a i, Rr r a i → m a i = mt a i) →
      (∀ a i, (∀ r, lo ≤ r → r < hi → ¬ Wr r a i) → m a i = m0 a i) → Q () m) :
    wp sz W R (Prog.forUp lo hi () (fun i _ => body i)) m0 Q := by
  refine wp_forUp (I := fun k _ m =>
    (∀ r, lo ≤ r → r < k → r < hi → ∃ mt, Qr r mt ∧ ∀ a i, Rr r a i → m a i = mt a i) ∧
    (∀ a i, (∀ r, lo ≤ r → r < k → r < hi → ¬ Wr r a i) → m a i = m0 a i)) ?_ ?_ ?_
  · exact ⟨fun r h1 h2 => by omega, fun _ _ _ => rfl⟩
  · rintro k _ m h1 h2 ⟨i1, i2⟩
    have hb := hbody k h1 h2
    have hag : ∀ a i, Rr k a i → m a i = m0 a i := by
      intro a i hr
      refine i2 a i ?_
      intro r g1 g2 g3 hw
      exact hdisj r k a i g1 g3 h1 h2 (by omega) hw hr
    refine wp_mono (wp_relax (wp_frame hb hag) (fun a i h => hW k a i h1 h2 h) (fun a i h => hR k a i h1 h2 h)) ?_
    rintro _ m2 ⟨mt, q1, q2, q3⟩
    refine ⟨?_, ?_⟩
    · intro r g1 g2 g3
      by_cases he : r = k
      · subst he; exact ⟨mt, q1, q2⟩
      · obtain ⟨mt', p1, p2⟩ := i1 r g1 (by omega) g3
        refine ⟨mt', p1, ?_⟩
        intro a i hr
        rw [q3 a i (fun hw => hdisj k r a i h1 h2 g1 g3 (fun h => he h.symm) hw hr)]
        exact p2 a i hr
    · intro a i hn
      rw [q3 a i (hn k h1 (by omega) h2)]
      exact i2 a i (fun r g1 g2 g3 => hn r g1 (by omega) g3)
  · rintro _ m ⟨i1, i2⟩
    refine hQ m (fun r h1 h2 => i1 r h1 (by omega) h2) ?_
    intro a i hn
    exact i2 a i (fun r g1 _ g3 => hn r g1 g3)

/-- A relation that assigns to each thread of a team of `T` its range of `0 .. n-1`. -/
structure PartRng (T : Nat) (n : Int) (Rng : Nat → Int × Int → Prop) : Prop where
  range : ∀ t x, t < T → Rng t x → 0 ≤ x.1 ∧ x.2 ≤ n
  ord : ∀ t u x y, t < u → u < T → Rng t x → Rng u y → x.2 ≤ y.1
  uniq : ∀ t x y, t < T → Rng t x → Rng t y → x = y
  cover : ∀ sel : Nat → Int × Int, (∀ t, t < T → Rng t (sel t)) →
    ∀ i, 0 ≤ i → i < n → ∃ t, t < T ∧ (sel t).1 ≤ i ∧ i < (sel t).2

/-- A row belongs to one thread only. -/
theorem PartRng.owner {T : Nat} {n : Int} {Rng : Nat → Int × Int → Prop} (h : PartRng T n Rng) {t u : Nat}
    {x y : Int × Int} (ht : t < T) (hu : u < T) (hx : Rng t x) (hy : Rng u y) {r : Int}
    (h1 : x.1 ≤ r) (h2 : r < x.2) (h3 : y.1 ≤ r) (h4 : r < y.2) : t = u := by
  rcases Nat.lt_trichotomy t u with hlt | he | hlt
  · have := h.ord t u x y hlt hu hx hy; omega
  · exact he
  · have := h.ord u t y x hlt ht hy hx; omega

/-- Thread code: compute the range, then the rows `b + off ..< e + off`. -/
def rowsOf (part : Prog ty (Int × Int)) (off : Int) (body : Int → Prog ty Unit) : Prog ty Unit := do
  let be ← part
  Prog.forUp (be.1 + off) (be.2 + off) () (fun i _ => body i)

/-- The rule for such teams: like one thread per row. -/
theorem rows_rule [Races A] {T : Nat} {n off : Int} {Rng : Nat → Int × Int → Prop} (hpr : PartRng T n Rng)
    {part : Nat → Prog ty (Int × Int)} {body : Nat → Int → Prog ty Unit} {m0 : Mem ty}
    {Post : (Nat → Unit) → Mem ty → Prop}
    (Rp : A → Int → Prop) (Wr Rr : Int → A → Int → Prop) (Qr : Int → Mem ty → Prop)
    (hpart : ∀ t, t < T → wp sz (fun _ _ => False) Rp (part t) m0 (fun x m => Rng t x ∧ m = m0))
    (hRp : ∀ r a i, 0 ≤ r → r < n → Wr r a i → ¬ Rp a i)
    (hdisj : ∀ r r' a i, 0 ≤ r → r < n → 0 ≤ r' → r' < n → r ≠ r' → Wr r a i → ¬ Rr r' a i)
    (hbody : ∀ t r, t < T → 0 ≤ r → r < n →
      wp sz (Wr r) (Rr r) (body t (r + off)) m0 (fun _ m => Qr r m))
    (hpost : ∀ u m, (∀ r, 0 ≤ r → r < n → ∃ mt, Qr r mt ∧ ∀ a i, Rr r a i → m a i = mt a i) →
      (∀ a i, (∀ r, 0 ≤ r → r < n → ¬ Wr r a i) → m a i = m0 a i) → Post u m)
    (hWR : ∀ r a i, 0 ≤ r → r < n → Wr r a i → Rr r a i := by wr_le_rd) :
    ParOk sz T Post (fun t => rowsOf (part t) off (body t)) m0 := by
  refine par_rule
    (W := fun t a i => ∃ x, Rng t x ∧ ∃ r, x.1 ≤ r ∧ r < x.2 ∧ Wr r a i)
    (R := fun t a i => Rp a i ∨ ∃ x, Rng t x ∧ ∃ r, x.1 ≤ r ∧ r < x.2 ∧ Rr r a i)
    (Q := fun t _ m => ∃ x, Rng t x ∧
      (∀ r, x.1 ≤ r → r < x.2 → ∃ mt, Qr r mt ∧ ∀ a i, Rr r a i → m a i = mt a i)) ?_ ?_ ?_
    (by
      rintro t a i ht ⟨x, hx, r, h1, h2, hw⟩
      have := hpr.range t x ht hx
      exact Or.inr ⟨x, hx, r, h1, h2, hWR r a i (by omega) (by omega) hw⟩)
  · rintro t u a i ht hu htu ⟨x, hx, r, h1, h2, hw⟩ hr
    have := hpr.range t x ht hx
    rcases hr with hr | ⟨y, hy, r', g1, g2, hr⟩
    · exact hRp r a i (by omega) (by omega) hw hr
    · have := hpr.range u y hu hy
      by_cases he : r = r'
      · subst he; exact htu (hpr.owner ht hu hx hy h1 h2 g1 g2)
      · exact hdisj r r' a i (by omega) (by omega) (by omega) (by omega) he hw hr
  · intro t ht
    unfold rowsOf
    rw [wp_bind]
    refine wp_mono (wp_relax (hpart t ht) (fun _ _ h => h.elim) (fun _ _ h => Or.inl h)) ?_
    rintro x m ⟨hx, rfl⟩
    have hrg := hpr.range t x ht hx
    refine wp_rows (Wr := fun r => Wr (r - off)) (Rr := fun r => Rr (r - off)) (Qr := fun r => Qr (r - off))
      ?_ ?_ ?_ ?_ ?_
    · intro r a i h1 h2 hw; exact ⟨x, hx, r - off, by omega, by omega, hw⟩
    · intro r a i h1 h2 hw; exact Or.inr ⟨x, hx, r - off, by omega, by omega, hw⟩
    · intro r r' a i h1 h2 h3 h4 hne
      exact hdisj _ _ a i (by omega) (by omega) (by omega) (by omega) (by omega)
    · intro r h1 h2
      have := hbody t (r - off) ht (by omega) (by omega)
      rwa [Int.sub_add_cancel] at this
    · intro m' h1 _
      refine ⟨x, hx, ?_⟩
      intro r g1 g2
      obtain ⟨mt, q1, q2⟩ := h1 (r + off) (by omega) (by omega)
      rw [Int.add_sub_cancel] at q1 q2
      exact ⟨mt, q1, q2⟩
  · intro u m hq hf
    classical
    have hex : ∀ t, ∃ x, t < T → Rng t x ∧
        ∀ r, x.1 ≤ r → r < x.2 → ∃ mt, Qr r mt ∧ ∀ a i, Rr r a i → m a i = mt a i := by
      intro t
      by_cases ht : t < T
      · obtain ⟨mt, ⟨x, hx, h1⟩, h2⟩ := hq t ht
        refine ⟨x, fun _ => ⟨hx, ?_⟩⟩
        intro r g1 g2
        obtain ⟨mr, q1, q2⟩ := h1 r g1 g2
        refine ⟨mr, q1, ?_⟩
        intro a i hr
        rw [h2 a i (Or.inr ⟨x, hx, r, g1, g2, hr⟩)]
        exact q2 a i hr
      · exact ⟨(0, 0), fun h => absurd h ht⟩
    choose sel hsel using hex
    refine hpost u m ?_ ?_
    · intro r h1 h2
      obtain ⟨t, ht, g1, g2⟩ := hpr.cover sel (fun t ht => (hsel t ht).1) r h1 h2
      exact (hsel t ht).2 r g1 g2
    · intro a i hn
      refine hf a i ?_
      rintro t ht ⟨x, hx, r, g1, g2, hw⟩
      have := hpr.range t x ht hx
      exact hn r (by omega) (by omega) hw

/-! ### The two partitions -/

/-- Range relation of getSimpleThreadPartition. -/
def SimpleRng (T : Nat) (n : Int) (t : Nat) (x : Int × Int) : Prop := x = (simpleBegin T t n, simpleEnd T t n)

theorem simpleRng (T : Nat) (n : Int) (hT : 1 ≤ T) (hn : 0 ≤ n) : PartRng T n (SimpleRng T n) := by
  have hT' : (1 : Int) ≤ T := by omega
  refine ⟨?_, ?_, ?_, ?_⟩
  · rintro t x _ rfl; exact ⟨simpleBegin_nonneg hT' hn (by omega), simpleEnd_le⟩
  · rintro t u x y htu _ rfl rfl; exact simpleEnd_le_begin hT' hn (by omega)
  · rintro t x y _ rfl rfl; rfl
  · intro sel hsel i h0 h1
    obtain ⟨t, ht0, ht, h2, h3⟩ := simple_exists hT' h0 h1
    obtain ⟨t, rfl⟩ := Int.eq_ofNat_of_zero_le ht0
    refine ⟨t, by omega, ?_⟩
    rw [hsel t (by omega)]; exact ⟨h2, h3⟩

/-- Range relation of getLoadBalancedPartition on the prefix sums `f`. -/
def CutRng (f : Int → Int) (T : Nat) (n : Int) (t : Nat) (x : Int × Int) : Prop :=
  IsCut f T n t x.1 ∧ IsCut f T n (t + 1) x.2

theorem cutRng (f : Int → Int) (T : Nat) (n : Int) (hT : 1 ≤ T) (hn : 0 ≤ n)
    (hf : ∀ i j, 0 ≤ i → i ≤ j → j ≤ n → f i ≤ f j) : PartRng T n (CutRng f T n) := by
  have hT' : (1 : Int) ≤ T := by omega
  refine ⟨?_, ?_, ?_, ?_⟩
  · rintro t x _ ⟨h1, h2⟩; exact ⟨h1.1, h2.2.1⟩
  · rintro t u x y htu hu ⟨_, h1⟩ ⟨h2, _⟩
    exact IsCut.mono hT' hn hf h1 h2 (by omega) (by omega) (by omega)
  · rintro t ⟨a, b⟩ ⟨c, d⟩ _ ⟨h1, h2⟩ ⟨h3, h4⟩
    rw [show a = c from IsCut.unique h1 h3, show b = d from IsCut.unique h2 h4]
  · intro sel hsel i h0 h1
    have hex : ∃ t, t < T ∧ i < (sel t).2 := by
      refine ⟨T - 1, by omega, ?_⟩
      have := (hsel (T - 1) (by omega)).2.2.2.2.1 (by omega)
      rw [this]; exact h1
    classical
    obtain ⟨ht, hi⟩ := Nat.find_spec hex
    have hmin := fun u hu => Nat.find_min hex (m := u) hu
    generalize Nat.find hex = t at ht hi hmin
    refine ⟨t, ht, ?_, hi⟩
    rcases Nat.eq_zero_or_pos t with h | h
    · subst h
      have := (hsel 0 ht).1.2.2.1 rfl
      rw [this]; exact h0
    · have h' := hmin (t - 1) (by omega)
      have e := IsCut.unique (hsel t ht).1 (by
        have := (hsel (t - 1) (by omega)).2
        have e : ((t - 1 : Nat) : Int) + 1 = t := by omega
        rw [e] at this; exact this)
      by_contra hlt
      exact h' ⟨by omega, by omega⟩

end

/-! ### Load-balanced rows of a CSR object -/

section
open Spec
set_option linter.unusedSectionVars false

variable {R : Type} [Races CArr]

/-- `getLoadBalancedPartition(&iBegin, &iEnd, rowptr, m)` on the row pointers of CSR object `k`
(Utils.cpp; the model of the function is in Partition.lean). -/
def lbPart (k m T t : Nat) : Prog (CTy R) (Int × Int) :=
  loadBalanced (fun i => Prog.read (ty := CTy R) (.rowptr k) i) T t m

/-- The row pointers as stored. -/
def _root_.SpMP.Spec.Csr.iptr (A : Csr R) (base : Nat) (i : Int) : Int := (A.ptr i.toNat : Int) + base

theorem wp_lbPart {sz : CArr → Int} {m0 : Mem (CTy R)} {k base T t : Nat} {A : Csr R} (hT : t < T) (hwf : A.WF)
    (hp : ∀ i, i ≤ A.m → m0 (.rowptr k) (i : Int) = some ((A.ptr i : Int) + base)) :
    wp sz (fun _ _ => False) (fun a _ => a = .rowptr k) (lbPart k A.m T t) m0
      (fun x m => CutRng (A.iptr base) T A.m t x ∧ m = m0) := by
  unfold lbPart
  refine wp_loadBalanced (f := A.iptr base) (by omega) (by omega) (by omega) (by omega) ?_ ?_ ?_
  · intro i h1 h2 Q hQ
    rw [wp_read]
    obtain ⟨i, rfl⟩ := Int.eq_ofNat_of_zero_le h1
    exact ⟨rfl, _, hp i (by omega), hQ⟩
  · intro i j h1 h2 h3
    have := hwf.ptr_mono (i := i.toNat) (j := j.toNat) (by omega) (by omega)
    unfold Csr.iptr; omega
  · intro b e h1 h2 _; exact ⟨⟨h1, h2⟩, rfl⟩

theorem lbRng {A : Csr R} (hwf : A.WF) (base T : Nat) (hT : 1 ≤ T) : PartRng T A.m (CutRng (A.iptr base) T A.m) := by
  refine cutRng _ T _ hT (by omega) ?_
  intro i j h1 h2 h3
  have := hwf.ptr_mono (i := i.toNat) (j := j.toNat) (by omega) (by omega)
  unfold Csr.iptr; omega

end

end SpMP
