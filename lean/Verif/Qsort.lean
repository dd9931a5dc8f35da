import Verif.RowsMem
import Verif.LoopN
import Mathlib.Algebra.Group.End
/-
The companion quicksort of the COO conversion (/repo/COO.cpp:75-98), on the arrays `colidx k` (keys) and `values k`.
-/

namespace SpMP
open Spec

variable {R : Type}

/-- COO.cpp:80-81, 87-88, 92-93: swap(idx[i], idx[j]); swap(w[i], w[j]). -/
def swapKV (k : Nat) (i j : Int) : Prog (CTy R) Unit := do
  let a ← Prog.read (ty := CTy R) (.colidx k) i
  let b ← Prog.read (ty := CTy R) (.colidx k) j
  Prog.write (ty := CTy R) (.colidx k) i b
  Prog.write (ty := CTy R) (.colidx k) j a
  let x ← Prog.read (ty := CTy R) (.values k) i
  let y ← Prog.read (ty := CTy R) (.values k) j
  Prog.write (ty := CTy R) (.values k) i y
  Prog.write (ty := CTy R) (.values k) j x

/-- COO.cpp:83-90: partition around the pivot in `left`; returns `last`. -/
def qsPartition (k : Nat) (left right : Int) : Prog (CTy R) Int :=
  Prog.forUp (ty := CTy R) (left + 1) (right + 1) left fun i last => do
    let a ← Prog.read (ty := CTy R) (.colidx k) i
    let p ← Prog.read (ty := CTy R) (.colidx k) left
    if (a : Int) < p then do
      swapKV k (last + 1) i
      pure (last + 1)
    else pure last

/-- COO.cpp:76-98 qsort. The first argument bounds the recursion depth; running out of it would be a failure (and is shown not to
happen when it is at least the number of elements). -/
def qsortKV (k : Nat) : Nat → Int → Int → Prog (CTy R) Unit
  | 0, left, right => if left ≥ right then pure () else .fail
  | d + 1, left, right =>
    if left ≥ right then pure ()
    else do
      swapKV k left (left + (right - left) / 2)
      let last ← qsPartition k left right
      swapKV k left last
      qsortKV k d left (last - 1)
      qsortKV k d (last + 1) right

/-! ### Proofs -/

/-- The keys and values in positions `lo ..< hi` are `kf` and `vf`. -/
def KV (m : Mem (CTy R)) (k lo hi : Nat) (kf : Nat → Int) (vf : Nat → R) : Prop :=
  ∀ i : Nat, lo ≤ i → i < hi → m (.colidx k) (i : Int) = some (kf i) ∧ m (.values k) (i : Int) = some (vf i)

/-- The cells of positions `lo ..< hi`. -/
def KVCell (k lo hi : Nat) (a : CArr) (i : Int) : Prop := (a = .colidx k ∨ a = .values k) ∧ (lo : Int) ≤ i ∧ i < hi

/-- `σ` moves only positions in `lo ..< hi`. -/
def Within (σ : Equiv.Perm Nat) (lo hi : Nat) : Prop := ∀ i, ¬ (lo ≤ i ∧ i < hi) → σ i = i

theorem Within.mem {σ : Equiv.Perm Nat} {lo hi i : Nat} (h : Within σ lo hi) (h1 : lo ≤ i) (h2 : i < hi) :
    lo ≤ σ i ∧ σ i < hi := by
  by_contra hc
  have := h (σ i) hc
  have := σ.injective this
  rw [this] at hc; exact hc ⟨h1, h2⟩

theorem Within.one (lo hi : Nat) : Within 1 lo hi := fun _ _ => rfl

theorem Within.mul {σ τ : Equiv.Perm Nat} {lo hi : Nat} (h1 : Within σ lo hi) (h2 : Within τ lo hi) : Within (σ * τ) lo hi := by
  intro i hi'
  show σ (τ i) = i
  rw [h2 i hi', h1 i hi']

theorem Within.swap {lo hi i j : Nat} (h1 : lo ≤ i ∧ i < hi) (h2 : lo ≤ j ∧ j < hi) : Within (Equiv.swap i j) lo hi := by
  intro x hx
  exact Equiv.swap_apply_of_ne_of_ne (by rintro rfl; exact hx h1) (by rintro rfl; exact hx h2)

theorem Within.widen {σ : Equiv.Perm Nat} {lo hi lo' hi' : Nat} (h : Within σ lo hi) (h1 : lo' ≤ lo) (h2 : hi ≤ hi') :
    Within σ lo' hi' := by
  intro i hi''
  exact h i (by omega)

section
variable {sz : CArr → Int} {W Rd : CArr → Int → Prop} {k : Nat}

theorem wp_swapKV {m : Mem (CTy R)} {lo hi i j : Nat} {kf : Nat → Int} {vf : Nat → R} {Q : Unit → Mem (CTy R) → Prop}
    (hii : lo ≤ i ∧ i < hi) (hj : lo ≤ j ∧ j < hi) (h : KV m k lo hi kf vf)
    (hW : ∀ a x, KVCell k lo hi a x → W a x) (hR : ∀ a x, KVCell k lo hi a x → Rd a x)
    (hs : (hi : Int) ≤ sz (.colidx k) ∧ (hi : Int) ≤ sz (.values k))
    (hQ : ∀ m', KV m' k lo hi (kf ∘ Equiv.swap i j) (vf ∘ Equiv.swap i j) →
      (∀ a x, ¬ KVCell k lo hi a x → m' a x = m a x) → Q () m') :
    wp sz W Rd (swapKV k i j) m Q := by
  unfold swapKV
  have ci : KVCell k lo hi (.colidx k) i := ⟨Or.inl rfl, by omega, by omega⟩
  have cj : KVCell k lo hi (.colidx k) j := ⟨Or.inl rfl, by omega, by omega⟩
  have vi : KVCell k lo hi (.values k) i := ⟨Or.inr rfl, by omega, by omega⟩
  have vj : KVCell k lo hi (.values k) j := ⟨Or.inr rfl, by omega, by omega⟩
  refine wp_rd _ (hR _ _ ci) (h i hii.1 hii.2).1 ?_
  refine wp_rd _ (hR _ _ cj) (h j hj.1 hj.2).1 ?_
  refine wp_wr (hW _ _ ci) ⟨by omega, by omega⟩ ?_
  refine wp_wr (hW _ _ cj) ⟨by omega, by omega⟩ ?_
  refine wp_rd (vf i) (hR _ _ vi) ?_ ?_
  · rw [Mem.set_other _ _ _ _ _ (by simp), Mem.set_other _ _ _ _ _ (by simp)]; exact (h i hii.1 hii.2).2
  refine wp_rd (vf j) (hR _ _ vj) ?_ ?_
  · rw [Mem.set_other _ _ _ _ _ (by simp), Mem.set_other _ _ _ _ _ (by simp)]; exact (h j hj.1 hj.2).2
  refine wp_wr (hW _ _ vi) ⟨by omega, by omega⟩ ?_
  refine wp_wr1 (hW _ _ vj) ⟨by omega, by omega⟩ ?_
  apply hQ
  · intro x hx1 hx2
    obtain ⟨h1, h2⟩ := h x hx1 hx2
    constructor
    · rw [Mem.set_other _ _ _ _ _ (by simp), Mem.set_other _ _ _ _ _ (by simp)]
      by_cases e1 : x = j
      · subst e1
        rw [Mem.get_same, Function.comp_apply, Equiv.swap_apply_right]
      · rw [Mem.get_ne _ _ _ _ _ (by omega)]
        by_cases e2 : x = i
        · subst e2; rw [Mem.get_same, Function.comp_apply, Equiv.swap_apply_left]
        · rw [Mem.get_ne _ _ _ _ _ (by omega), h1, Function.comp_apply, Equiv.swap_apply_of_ne_of_ne e2 e1]
    · by_cases e1 : x = j
      · subst e1
        rw [Mem.get_same, Function.comp_apply, Equiv.swap_apply_right]
      · rw [Mem.get_ne _ _ _ _ _ (by omega)]
        by_cases e2 : x = i
        · subst e2; rw [Mem.get_same, Function.comp_apply, Equiv.swap_apply_left]
        · rw [Mem.get_ne _ _ _ _ _ (by omega), Mem.set_other _ _ _ _ _ (by simp), Mem.set_other _ _ _ _ _ (by simp), h2,
            Function.comp_apply, Equiv.swap_apply_of_ne_of_ne e2 e1]
  · intro a x hx
    have g : ∀ (m : Mem (CTy R)) (b : CArr) (y : Int) (v : CTy R b), KVCell k lo hi b y → m.set b y v a x = m a x := by
      intro m b y v hb
      rcases Mem.set_cases m b y v a x with ⟨rfl, rfl⟩ | h
      · exact absurd hb hx
      · exact h
    rw [g _ _ _ _ vj, g _ _ _ _ vi, g _ _ _ _ cj, g _ _ _ _ ci]

/-- Result of the partition around `kf l`. -/
theorem wp_qsPartition {m : Mem (CTy R)} {lo hi : Nat} {kf : Nat → Int} {vf : Nat → R} {Q : Int → Mem (CTy R) → Prop}
    (hlt : lo < hi) (h : KV m k lo hi kf vf)
    (hW : ∀ a x, KVCell k lo hi a x → W a x) (hR : ∀ a x, KVCell k lo hi a x → Rd a x)
    (hs : (hi : Int) ≤ sz (.colidx k) ∧ (hi : Int) ≤ sz (.values k))
    (hQ : ∀ (last : Nat) (σ : Equiv.Perm Nat) m', lo ≤ last → last < hi → Within σ lo hi → σ lo = lo →
      KV m' k lo hi (kf ∘ σ) (vf ∘ σ) → (∀ x, lo < x → x ≤ last → kf (σ x) < kf lo) →
      (∀ x, last < x → x < hi → kf lo ≤ kf (σ x)) →
      (∀ a x, ¬ KVCell k lo hi a x → m' a x = m a x) → Q last m') :
    wp sz W Rd (qsPartition k (lo : Int) ((hi : Int) - 1)) m Q := by
  unfold qsPartition
  refine wp_forN (b := 0) (lo := lo + 1) (hi := hi)
    (fun i last m' => ∃ (l : Nat) (σ : Equiv.Perm Nat), last = (l : Int) ∧ lo ≤ l ∧ l < i ∧ Within σ lo hi ∧ σ lo = lo ∧
      KV m' k lo hi (kf ∘ σ) (vf ∘ σ) ∧ (∀ x, lo < x → x ≤ l → kf (σ x) < kf lo) ∧
      (∀ x, l < x → x < i → kf lo ≤ kf (σ x)) ∧ (∀ a x, ¬ KVCell k lo hi a x → m' a x = m a x))
    (by omega) ?_ ?_ ?_ (by omega) (by omega)
  · exact ⟨lo, 1, rfl, Nat.le_refl _, by omega, Within.one _ _, rfl, h, fun x h1 h2 => by omega, fun x h1 h2 => by omega,
      fun _ _ _ => rfl⟩
  · rintro i _ m' h1 h2 ⟨l, σ, rfl, a1, a2, a3, a4, a5, a6, a7, a8⟩
    rw [Int.add_zero]
    refine wp_rd _ (hR _ _ ⟨Or.inl rfl, by omega, by omega⟩) (a5 i (by omega) h2).1 ?_
    refine wp_rd _ (hR _ _ ⟨Or.inl rfl, by omega, by omega⟩) (a5 lo (by omega) hlt).1 ?_
    by_cases hc : (kf ∘ σ) i < (kf ∘ σ) lo
    · rw [if_pos hc, wp_bind]
      rw [show (l : Int) + 1 = ((l + 1 : Nat) : Int) by omega]
      refine wp_swapKV (lo := lo) (hi := hi) (i := l + 1) (j := i) ⟨by omega, by omega⟩ ⟨by omega, by omega⟩ a5 hW hR hs ?_
      intro m2 b1 b2
      rw [wp_pure]
      simp only [Function.comp_apply, a4] at hc
      refine ⟨l + 1, σ * Equiv.swap (l + 1) i, rfl, by omega, by omega, a3.mul (Within.swap ⟨by omega, by omega⟩ ⟨by omega, by omega⟩),
        ?_, b1, ?_, ?_, fun a x hx => (b2 a x hx).trans (a8 a x hx)⟩
      · show σ (Equiv.swap (l + 1) i lo) = lo
        rw [Equiv.swap_apply_of_ne_of_ne (by omega) (by omega), a4]
      · intro x g1 g2
        show kf (σ (Equiv.swap (l + 1) i x)) < _
        by_cases e : x = l + 1
        · subst e; rw [Equiv.swap_apply_left]; exact hc
        · rw [Equiv.swap_apply_of_ne_of_ne e (by omega)]; exact a6 x g1 (by omega)
      · intro x g1 g2
        show _ ≤ kf (σ (Equiv.swap (l + 1) i x))
        by_cases e : x = i
        · subst e; rw [Equiv.swap_apply_right]; exact a7 _ (by omega) (by omega)
        · rw [Equiv.swap_apply_of_ne_of_ne (by omega) e]; exact a7 x (by omega) (by omega)
    · rw [if_neg hc, wp_pure]
      refine ⟨l, σ, rfl, a1, by omega, a3, a4, a5, a6, ?_, a8⟩
      intro x g1 g2
      by_cases e : x = i
      · subst e; simp only [Function.comp_apply, a4] at hc; omega
      · exact a7 x g1 (by omega)
  · rintro _ m' ⟨l, σ, rfl, a1, a2, a3, a4, a5, a6, a7, a8⟩
    exact hQ l σ m' a1 a2 a3 a4 a5 a6 a7 a8

/-- COO.cpp:76-98: the keys are sorted, and keys and values are permuted together. -/
theorem wp_qsortKV (d : Nat) : ∀ {m : Mem (CTy R)} {lo hi : Nat} {kf : Nat → Int} {vf : Nat → R} {Q : Unit → Mem (CTy R) → Prop},
    hi - lo ≤ d → KV m k lo hi kf vf →
    (∀ a x, KVCell k lo hi a x → W a x) → (∀ a x, KVCell k lo hi a x → Rd a x) →
    ((hi : Int) ≤ sz (.colidx k) ∧ (hi : Int) ≤ sz (.values k)) →
    (∀ (σ : Equiv.Perm Nat) m', Within σ lo hi → KV m' k lo hi (kf ∘ σ) (vf ∘ σ) →
      (∀ x y, lo ≤ x → x ≤ y → y < hi → kf (σ x) ≤ kf (σ y)) →
      (∀ a x, ¬ KVCell k lo hi a x → m' a x = m a x) → Q () m') →
    wp sz W Rd (qsortKV k d (lo : Int) ((hi : Int) - 1)) m Q := by
  have small : ∀ {m : Mem (CTy R)} {lo hi : Nat} {kf : Nat → Int} {vf : Nat → R} {Q : Unit → Mem (CTy R) → Prop},
      hi ≤ lo + 1 → KV m k lo hi kf vf →
      (∀ (σ : Equiv.Perm Nat) m', Within σ lo hi → KV m' k lo hi (kf ∘ σ) (vf ∘ σ) →
        (∀ x y, lo ≤ x → x ≤ y → y < hi → kf (σ x) ≤ kf (σ y)) →
        (∀ a x, ¬ KVCell k lo hi a x → m' a x = m a x) → Q () m') → Q () m := by
    intro m lo hi kf vf Q h1 h2 hQ
    refine hQ 1 m (Within.one _ _) h2 ?_ (fun _ _ _ => rfl)
    intro x y g1 g2 g3
    obtain rfl : x = y := by omega
    exact Int.le_refl _
  induction d with
  | zero =>
    intro m lo hi kf vf Q hd h hW hR hs hQ
    unfold qsortKV
    rw [if_pos (by omega), wp_pure]
    exact small (by omega) h hQ
  | succ d ih =>
    intro m lo hi kf vf Q hd h hW hR hs hQ
    unfold qsortKV
    by_cases hle : hi ≤ lo + 1
    · rw [if_pos (by omega), wp_pure]
      exact small hle h hQ
    rw [if_neg (by omega), wp_bind]
    obtain ⟨mid, e, hm1, hm2⟩ : ∃ mid : Nat, (lo : Int) + ((hi : Int) - 1 - lo) / 2 = (mid : Int) ∧ lo ≤ mid ∧ mid < hi :=
      ⟨lo + (hi - 1 - lo) / 2, by omega, by omega, by omega⟩
    rw [e]
    refine wp_swapKV (lo := lo) (hi := hi) ⟨by omega, by omega⟩ ⟨hm1, hm2⟩ h hW hR hs ?_
    intro m1 h1 f1
    rw [wp_bind]
    refine wp_qsPartition (by omega) h1 hW hR hs ?_
    intro last σ1 m2 hl1 hl2 w1 s1 h2 less ge f2
    rw [wp_bind]
    refine wp_swapKV (lo := lo) (hi := hi) ⟨by omega, by omega⟩ ⟨hl1, hl2⟩ h2 hW hR hs ?_
    intro m3 h3 f3
    -- keys after placing the pivot
    generalize hτ : Equiv.swap lo mid * σ1 * Equiv.swap lo last = τ
    have hkf : (kf ∘ Equiv.swap lo mid) ∘ σ1 ∘ Equiv.swap lo last = kf ∘ τ := by subst hτ; rfl
    have hvf : (vf ∘ Equiv.swap lo mid) ∘ σ1 ∘ Equiv.swap lo last = vf ∘ τ := by subst hτ; rfl
    have wτ : Within τ lo hi := by
      subst hτ
      exact ((Within.swap ⟨by omega, by omega⟩ ⟨hm1, hm2⟩).mul w1).mul (Within.swap ⟨by omega, by omega⟩ ⟨hl1, hl2⟩)
    have h3t : KV m3 k lo hi (kf ∘ τ) (vf ∘ τ) := by rw [← hkf, ← hvf]; exact h3
    generalize hpv : (kf ∘ Equiv.swap lo mid) lo = pv at less ge
    have tl : kf (τ last) = pv := by
      subst hτ
      show kf (Equiv.swap lo mid (σ1 (Equiv.swap lo last last))) = pv
      rw [Equiv.swap_apply_right, s1]; exact hpv
    have tless : ∀ x, lo ≤ x → x < last → kf (τ x) < pv := by
      intro x g1 g2
      subst hτ
      show kf (Equiv.swap lo mid (σ1 (Equiv.swap lo last x))) < pv
      by_cases ex : x = lo
      · subst ex; rw [Equiv.swap_apply_left]; exact less last (by omega) (Nat.le_refl _)
      · rw [Equiv.swap_apply_of_ne_of_ne ex (by omega)]; exact less x (by omega) (by omega)
    have tge : ∀ x, last < x → x < hi → pv ≤ kf (τ x) := by
      intro x g1 g2
      subst hτ
      show pv ≤ kf (Equiv.swap lo mid (σ1 (Equiv.swap lo last x)))
      rw [Equiv.swap_apply_of_ne_of_ne (a := lo) (b := last) (by omega) (by omega)]; exact ge x g1 g2
    rw [wp_bind]
    have sub1 : ∀ a x, KVCell k lo last a x → KVCell k lo hi a x := fun a x hx => ⟨hx.1, hx.2.1, by have := hx.2.2; omega⟩
    have sub2 : ∀ a x, KVCell k (last + 1) hi a x → KVCell k lo hi a x := fun a x hx => ⟨hx.1, by have := hx.2.1; omega, hx.2.2⟩
    refine ih (lo := lo) (hi := last) (kf := kf ∘ τ) (vf := vf ∘ τ) (by omega) (fun i g1 g2 => h3t i g1 (by omega))
      (fun a x hx => hW a x (sub1 a x hx)) (fun a x hx => hR a x (sub1 a x hx)) ⟨by omega, by omega⟩ ?_
    intro σ2 m4 w2 h4 ord2 f4
    have h4' : KV m4 k (last + 1) hi (kf ∘ τ) (vf ∘ τ) := by
      intro i g1 g2
      rw [f4 _ _ (fun hx => by have := hx.2.2; omega), f4 _ _ (fun hx => by have := hx.2.2; omega)]
      exact h3t i (by omega) g2
    rw [show (last : Int) + 1 = ((last + 1 : Nat) : Int) by omega]
    refine ih (lo := last + 1) (hi := hi) (kf := kf ∘ τ) (vf := vf ∘ τ) (by omega) h4'
      (fun a x hx => hW a x (sub2 a x hx)) (fun a x hx => hR a x (sub2 a x hx)) hs ?_
    intro σ3 m5 w3 h5 ord3 f5
    have v2 : ∀ x, last ≤ x → σ2 x = x := fun x hx => w2 x (by omega)
    have v3 : ∀ x, x ≤ last → σ3 x = x := fun x hx => w3 x (by omega)
    -- the composed permutation
    have cases : ∀ x, lo ≤ x → x < hi → (τ * σ2 * σ3) x = if x < last then τ (σ2 x) else τ (σ3 x) := by
      intro x g1 g2
      show τ (σ2 (σ3 x)) = _
      split
      · rw [v3 x (by omega)]
      · rename_i hx
        have : last ≤ σ3 x := by
          by_cases hx' : x = last
          · rw [v3 x (by omega)]; omega
          · have := (w3.mem (i := x) (by omega) g2).1; omega
        rw [v2 _ this]
    refine hQ (τ * σ2 * σ3) m5 ((wτ.mul (w2.widen (Nat.le_refl _) (by omega))).mul (w3.widen (by omega) (Nat.le_refl _))) ?_ ?_ ?_
    · intro x g1 g2
      rw [Function.comp_apply, Function.comp_apply, cases x g1 g2]
      split
      · rename_i hx
        rw [f5 _ _ (fun h => by have := h.2.1; omega), f5 _ _ (fun h => by have := h.2.1; omega)]
        exact h4 x g1 hx
      · by_cases hx' : x = last
        · subst hx'
          rw [v3 x (Nat.le_refl _), f5 _ _ (fun h => by have := h.2.1; omega), f5 _ _ (fun h => by have := h.2.1; omega),
            f4 _ _ (fun h => by have := h.2.2; omega), f4 _ _ (fun h => by have := h.2.2; omega)]
          exact h3t x g1 g2
        · exact h5 x (by omega) g2
    · intro x y g1 g2 g3
      rw [cases x g1 (by omega), cases y (by omega) g3]
      have lw : ∀ z, lo ≤ z → z < last → kf (τ (σ2 z)) < pv := fun z k1 k2 =>
        tless _ (w2.mem k1 k2).1 (w2.mem k1 k2).2
      have gw : ∀ z, last ≤ z → z < hi → pv ≤ kf (τ (σ3 z)) := by
        intro z k1 k2
        by_cases hz : z = last
        · subst hz; rw [v3 z (Nat.le_refl _), tl]
        · have := w3.mem (i := z) (by omega) k2
          exact tge _ (by omega) this.2
      by_cases c1 : y < last
      · rw [if_pos (by omega), if_pos c1]; exact ord2 x y g1 g2 c1
      · rw [if_neg c1]
        by_cases c2 : x < last
        · rw [if_pos c2]
          have := lw x g1 c2; have := gw y (by omega) g3; omega
        · rw [if_neg c2]
          by_cases c3 : x = last
          · subst c3
            rw [v3 x (Nat.le_refl _), tl]; exact gw y (by omega) g3
          · exact ord3 x y (by omega) g2 g3
    · intro a x hx
      rw [f5 a x (fun h => hx (sub2 a x h)), f4 a x (fun h => hx (sub1 a x h)), f3 a x hx, f2 a x hx, f1 a x hx]

end

end SpMP
