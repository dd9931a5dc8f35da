import Verif.RcmMain
import Verif.PermuteProof
/-
prefixSumOfLevels by a team (/repo/reordering/RCM.cpp:71-139), for a component. Arrays: those of Verif/Rcm.lean, `itmp 24` =
local_count, `itmp 25` = local_sum_array.

Simplifications as in Verif/Rcm.lean; `omp for` is a parameter `pa` giving each iteration to a thread, which performs its iterations in
increasing order; the branch for `components` = NULL (88-94), which no call reaches, is left out.
-/

namespace SpMP
open Spec

variable {R : Type}

/-- `local_count` (RCM.cpp:78). -/
abbrev rcmCnt : CArr := .itmp 24
/-- `local_sum_array` (RCM.cpp:79). -/
abbrev rcmLoc : CArr := .itmp 25

/-- RCM.cpp:78-79: allocations. -/
def sumsSize (sz : CArr → Int) (T nl : Nat) : CArr → Int
  | .itmp 24 => (T : Int) * nl
  | .itmp 25 => (T : Int) + 1
  | a => sz a

/-- RCM.cpp:86, 95-102: thread `t` counts the nodes of each level among its iterations. -/
def sumsCount (m nl n : Nat) (pa : Nat → Nat) (st : Int) (t : Nat) : Prog (CTy R) Unit := do
  Prog.forUp (ty := CTy R) 0 (nl : Int) () fun l _ => Prog.write (ty := CTy R) rcmCnt ((t : Int) * nl + l) (0 : Int)
  Prog.forUp (ty := CTy R) 0 (n : Int) () fun x _ =>
    if pa x.toNat = t then do
      let v ← Prog.read (ty := CTy R) (.itmp 5) (st + x)
      Prog.assert (ty := CTy R) (0 ≤ (v : Int) ∧ (v : Int) < m)
      let l ← Prog.read (ty := CTy R) bfsLev (v : Int)
      let c ← Prog.read (ty := CTy R) rcmCnt ((t : Int) * nl + (l : Int))
      Prog.write (ty := CTy R) rcmCnt ((t : Int) * nl + (l : Int)) ((c : Int) + 1)
    else pure ()

/-- RCM.cpp:104-118: thread `t` sums the levels of its range; lBegin and lEnd are computed as in getSimpleThreadPartition. -/
def sumsLocal (T nl t : Nat) : Prog (CTy R) Unit := do
  let s ← Prog.forUp (ty := CTy R) (simpleBegin T t nl) (simpleEnd T t nl) (0 : Int) fun l s => do
    Prog.write (ty := CTy R) rcmPfx l s
    Prog.forUp (ty := CTy R) 0 (T : Int) s fun u s => do
      let c ← Prog.read (ty := CTy R) rcmCnt (u * nl + l)
      pure (s + (c : Int))
  Prog.write (ty := CTy R) rcmLoc ((t : Int) + 1) s

/-- RCM.cpp:119-127: thread 0. -/
def sumsTotal (T nl n : Nat) : Prog (CTy R) Unit := do
  Prog.forUp (ty := CTy R) 1 (T : Int) () fun t _ => do
    let a ← Prog.read (ty := CTy R) rcmLoc (t + 1)
    let b ← Prog.read (ty := CTy R) rcmLoc t
    Prog.write (ty := CTy R) rcmLoc (t + 1) ((a : Int) + (b : Int))
  let e ← Prog.read (ty := CTy R) rcmLoc (T : Int)
  Prog.assert (ty := CTy R) ((e : Int) = (n : Int))
  Prog.write (ty := CTy R) rcmPfx (nl : Int) (n : Int)

/-- RCM.cpp:130-135. -/
def sumsAdd (T nl t : Nat) : Prog (CTy R) Unit :=
  if t = 0 then pure () else do
    let s ← Prog.read (ty := CTy R) rcmLoc (t : Int)
    Prog.forUp (ty := CTy R) (simpleBegin T t nl) (simpleEnd T t nl) () fun l _ => do
      let a ← Prog.read (ty := CTy R) rcmPfx l
      Prog.write (ty := CTy R) rcmPfx l ((a : Int) + (s : Int))

/-- RCM.cpp:77-138: the four parts between barriers. -/
def rcmSums (sz : CArr → Int) (T m nl n : Nat) (pa : Nat → Nat) (st : Int) : Script (CTy R) Unit :=
  .phase (sumsSize sz T nl) T (sumsCount m nl n pa st) fun _ =>
  .phase (sumsSize sz T nl) T (sumsLocal T nl) fun _ =>
  Script.seq (sumsSize sz T nl) (sumsTotal T nl n) fun _ =>
  .phase (sumsSize sz T nl) T (sumsAdd T nl) fun _ => .done ()

/-! ### Counting -/

/-- How many of the first iterations given to `t` meet level `l`. -/
def lvCnt (pa f : Nat → Nat) : Nat → Nat → Nat → Int
  | 0, _, _ => 0
  | x + 1, t, l => lvCnt pa f x t l + if pa x = t ∧ f x = l then 1 else 0

theorem psum_add (f g : Nat → Int) (n : Nat) : psum (fun t => f t + g t) n = psum f n + psum g n := by
  induction n with
  | zero => rfl
  | succ n ih => show psum (fun t => f t + g t) n + (f n + g n) = psum f n + f n + (psum g n + g n); rw [ih]; omega

theorem psum_ind (a n : Nat) (v : Int) : psum (fun t => if a = t then v else 0) n = if a < n then v else 0 := by
  induction n with
  | zero => rfl
  | succ n ih =>
    show psum (fun t => if a = t then v else 0) n + (if a = n then v else 0) = _
    rw [ih]
    by_cases h1 : a < n
    · rw [if_pos h1, if_neg (by omega), if_pos (by omega)]; omega
    · by_cases h2 : a = n
      · rw [if_neg h1, if_pos h2, if_pos (by omega)]; omega
      · rw [if_neg h1, if_neg h2, if_neg (by omega)]; omega

theorem psum_zero (n : Nat) : psum (fun _ => 0) n = 0 := by
  induction n with
  | zero => rfl
  | succ n ih => show psum (fun _ => 0) n + 0 = 0; rw [ih]; rfl

theorem psum_lvCnt (pa D : Nat → Nat) (N : List Nat) {T : Nat} (hpa : ∀ x, x < N.length → pa x < T) (l : Nat) :
    ∀ n, n ≤ N.length → psum (fun t => lvCnt pa (fun x => D (N.getD x 0)) n t l) T = ((N.take n).countP (fun y => decide (D y = l)) : Int) := by
  intro n
  induction n with
  | zero => intro _; exact psum_zero T
  | succ n ih =>
    intro h
    show psum (fun t => lvCnt pa (fun x => D (N.getD x 0)) n t l + if pa n = t ∧ D (N.getD n 0) = l then 1 else 0) T = _
    rw [psum_add, ih (by omega), countP_take_succ _ _ (show n < N.length by omega)]
    have e : N.getD n 0 = N[n] := by rw [List.getD_eq_getElem?_getD, List.getElem?_eq_getElem (by omega)]; rfl
    rw [e]
    by_cases hd : D N[n] = l
    · have : (fun t => if pa n = t ∧ D N[n] = l then (1 : Int) else 0) = fun t => if pa n = t then 1 else 0 := by
        funext t; simp [hd]
      rw [this, psum_ind, if_pos (hpa n (by omega)), if_pos (by simpa using hd)]; push_cast; rfl
    · have : (fun t => if pa n = t ∧ D N[n] = l then (1 : Int) else 0) = fun _ => 0 := by
        funext t; simp [hd]
      rw [this, psum_zero, if_neg (by simpa using hd)]; push_cast; rfl

/-- Nodes of level `l`. -/
def lvTot (D : Nat → Nat) (N : List Nat) (l : Nat) : Int := (N.countP (fun y => decide (D y = l)) : Int)

theorem psum_lvTot (D : Nat → Nat) (N : List Nat) (l : Nat) : psum (lvTot D N) l = (N.countP (fun y => decide (D y < l)) : Int) := by
  induction l with
  | zero => simp [psum]
  | succ l ih =>
    show psum (lvTot D N) l + lvTot D N l = _
    rw [ih, countP_lt_succ]
    have : (fun y => decide (D y + 1 = l + 1)) = fun y => decide (D y = l) := by funext y; simp
    rw [this]; unfold lvTot; push_cast; omega

/-! ### Proofs -/

variable {sz : CArr → Int} {T nl : Nat} {m0 : Mem (CTy R)}

/-- Counts in memory. -/
def HoldsCnt (T nl : Nat) (c : Nat → Nat → Int) (m : Mem (CTy R)) : Prop :=
  ∀ t l : Nat, t < T → l < nl → m rcmCnt ((t : Int) * nl + l) = some (c t l)

theorem sumsCount_ok {M : Nat} {D : Nat → Nat} {N : List Nat} {pa : Nat → Nat} {st : Int} (hN : ∀ x ∈ N, x < M) (hD : ∀ x ∈ N, D x < nl)
    (hq : HoldsQ m0 5 st N) (hlev : ∀ x ∈ N, m0 bfsLev (x : Int) = some (D x : Int))
    (hsz : (T : Int) * nl ≤ sz rcmCnt) {Post : (Nat → Unit) → Mem (CTy R) → Prop}
    (hk : ∀ r m, HoldsCnt T nl (lvCnt pa (fun x => D (N.getD x 0)) N.length) m → (∀ a i, a ≠ rcmCnt → m a i = m0 a i) → Post r m) :
    ParOk sz T Post (sumsCount M nl N.length pa st) m0 := by
  let W : Nat → CArr → Int → Prop := fun t a i => a = rcmCnt ∧ (t : Int) * nl ≤ i ∧ i < (t : Int) * nl + nl
  have hnn : ∀ t : Nat, 0 ≤ (t : Int) * nl := fun t => Int.mul_nonneg (by omega) (by omega)
  refine par_rule (W := W) (R := fun t a i => W t a i ∨ a = .itmp 5 ∨ a = bfsLev)
    (Q := fun t _ m => (∀ l : Nat, l < nl → m rcmCnt ((t : Int) * nl + l) = some (lvCnt pa (fun x => D (N.getD x 0)) N.length t l))) ?_ ?_ ?_
  · rintro t u a i ht hu hne ⟨rfl, h1, h2⟩ (⟨_, h3, h4⟩ | h | h)
    · exact slice_disj (by omega) hne h1 h2 (by omega) h3 h4 (by omega)
    · simp at h
    · simp at h
  · intro t ht
    have hgap : (t : Int) * nl + nl ≤ (T : Int) * nl := by
      have : ((t : Int) + 1) * nl ≤ (T : Int) * nl := Int.mul_le_mul_of_nonneg_right (by omega) (by omega)
      rw [Int.add_mul, Int.one_mul] at this; exact this
    have h0 := hnn t
    unfold sumsCount
    rw [wp_bind]
    refine wp_forN (b := 0) (lo := 0) (hi := nl) (fun n _ m => (∀ l : Nat, l < n → m rcmCnt ((t : Int) * nl + l) = some (0 : Int)) ∧ ∀ a i, a ≠ rcmCnt → m a i = m0 a i)
      (by omega) ⟨fun l h => by omega, fun _ _ _ => rfl⟩ ?_ ?_ (by omega) (by omega)
    · rintro n _ m _ hn ⟨h1, h2⟩
      rw [Int.add_zero]
      refine wp_wr1 ⟨rfl, by omega, by omega⟩ ⟨by omega, by omega⟩ ?_
      refine ⟨fun l hl => ?_, fun a i ha => ?_⟩
      · by_cases e : l = n
        · subst e; rw [Mem.get_same]
        · rw [Mem.get_ne _ _ _ _ _ (by omega)]; exact h1 l (by omega)
      · rw [Mem.set_other _ _ _ _ _ ha]; exact h2 a i ha
    rintro _ m1 ⟨h1, h2⟩
    refine wp_forN (b := 0) (lo := 0) (hi := N.length)
      (fun n _ m => (∀ l : Nat, l < nl → m rcmCnt ((t : Int) * nl + l) = some (lvCnt pa (fun x => D (N.getD x 0)) n t l)) ∧ ∀ a i, a ≠ rcmCnt → m a i = m0 a i)
      (by omega) ⟨fun l h => h1 l h, h2⟩ ?_ ?_ (by omega) (by omega)
    swap
    · intro _ m h; exact h.1
    rintro n _ m _ hn ⟨h3, h4⟩
    rw [Int.add_zero, Int.toNat_natCast]
    have e : N.getD n 0 = N[n] := by rw [List.getD_eq_getElem?_getD, List.getElem?_eq_getElem (by omega)]; rfl
    by_cases hp : pa n = t
    swap
    · rw [if_neg hp, wp_pure]
      refine ⟨fun l hl => ?_, h4⟩
      rw [h3 l hl]
      show _ = some (lvCnt pa (fun x => D (N.getD x 0)) n t l + if pa n = t ∧ _ then 1 else 0)
      rw [if_neg (fun h => hp h.1), Int.add_zero]
    rw [if_pos hp]
    have hx := List.getElem_mem hn
    have hDx := hD _ hx
    refine wp_rd (N[n] : Int) (Or.inr (Or.inl rfl)) (by rw [h4 _ _ (by simp)]; exact hq n _ (List.getElem?_eq_getElem hn)) ?_
    rw [wp_bind, wp_assert]
    have hl := hN _ hx
    refine ⟨⟨by show (0 : Int) ≤ (N[n] : Int); omega, by show (N[n] : Int) < (M : Int); omega⟩, ?_⟩
    refine wp_rd (D N[n] : Int) (Or.inr (Or.inr rfl)) (by rw [h4 _ _ (by simp)]; exact hlev _ hx) ?_
    refine wp_rd (lvCnt pa (fun x => D (N.getD x 0)) n t (D N[n])) (Or.inl ⟨rfl, by omega, by omega⟩) (h3 _ hDx) ?_
    refine wp_wr1 ⟨rfl, by omega, by omega⟩ ⟨by omega, by omega⟩ ?_
    refine ⟨fun l hl => ?_, fun a i ha => ?_⟩
    · show _ = some (lvCnt pa (fun x => D (N.getD x 0)) n t l + if pa n = t ∧ D (N.getD n 0) = l then 1 else 0)
      rw [e]
      by_cases el : D N[n] = l
      · subst el; rw [if_pos ⟨hp, rfl⟩, Mem.get_same]
      · rw [if_neg (fun h => el h.2), Int.add_zero, Mem.get_ne _ _ _ _ _ (by omega)]; exact h3 l hl
    · rw [Mem.set_other _ _ _ _ _ ha]; exact h4 a i ha
  · intro r m h1 h2
    refine hk r m (fun t l ht hl => ?_) (fun a i ha => h2 a i fun t _ h => ha h.1)
    obtain ⟨mt, h3, h4⟩ := h1 t ht
    rw [h4 _ _ (Or.inl ⟨rfl, by omega, by omega⟩)]
    exact h3 l hl

theorem wp_sumsInner {W Rd : CArr → Int → Prop} {c : Nat → Nat → Int} (hc : HoldsCnt T nl c m0) (hR : ∀ i, Rd rcmCnt i) {l : Nat} (hl : l < nl) (s : Int)
    {Q : Int → Mem (CTy R) → Prop} (hQ : Q (s + psum (fun t => c t l) T) m0) :
    wp sz W Rd (Prog.forUp (ty := CTy R) 0 (T : Int) s fun u s => do
      let c ← Prog.read (ty := CTy R) rcmCnt (u * nl + (l : Int))
      pure (s + (c : Int))) m0 Q := by
  refine wp_forN (b := 0) (lo := 0) (hi := T) (fun n v m => v = s + psum (fun t => c t l) n ∧ m = m0) (by omega) ⟨by show s = s + 0; omega, rfl⟩ ?_ ?_ (by omega) (by omega)
  · rintro n v m _ hn ⟨rfl, rfl⟩
    rw [Int.add_zero]
    refine wp_rd (c n l) (hR _) (hc n l hn hl) ?_
    rw [wp_pure]
    refine ⟨?_, rfl⟩
    show _ = s + (psum (fun t => c t l) n + c n l)
    omega
  · rintro v m ⟨rfl, rfl⟩
    exact hQ

theorem sumsLocal_ok (hT : 1 ≤ T) {c : Nat → Nat → Int} {C : Nat → Int} (hc : HoldsCnt T nl c m0) (hC : ∀ l, l < nl → psum (fun t => c t l) T = C l)
    (hsz : (nl : Int) ≤ sz rcmPfx) (hsz2 : (T : Int) + 1 ≤ sz rcmLoc) {Post : (Nat → Unit) → Mem (CTy R) → Prop}
    (hk : ∀ r m, (∀ t l : Nat, t < T → rowCut T nl t ≤ l → l < rowCut T nl (t + 1) → m rcmPfx (l : Int) = some (psum C l - psum C (rowCut T nl t))) →
      (∀ t : Nat, t < T → m rcmLoc ((t : Int) + 1) = some (psum C (rowCut T nl (t + 1)) - psum C (rowCut T nl t))) →
      (∀ (a : CArr) (i : Int), ¬ (a = rcmPfx ∧ 0 ≤ i ∧ i < nl) → a ≠ rcmLoc → m a i = m0 a i) → Post r m) :
    ParOk sz T Post (sumsLocal T nl) m0 := by
  let W : Nat → CArr → Int → Prop := fun t a i => (a = rcmPfx ∧ (rowCut T nl t : Int) ≤ i ∧ i < (rowCut T nl (t + 1) : Int)) ∨ (a = rcmLoc ∧ i = (t : Int) + 1)
  refine par_rule (W := W) (R := fun t a i => W t a i ∨ a = rcmCnt)
    (Q := fun t _ m => (∀ l : Nat, rowCut T nl t ≤ l → l < rowCut T nl (t + 1) → m rcmPfx (l : Int) = some (psum C l - psum C (rowCut T nl t))) ∧
      m rcmLoc ((t : Int) + 1) = some (psum C (rowCut T nl (t + 1)) - psum C (rowCut T nl t))) ?_ ?_ ?_
  · rintro t u a i ht hu hne (⟨rfl, h1, h2⟩ | ⟨rfl, h1⟩) ((⟨e, h3, h4⟩ | ⟨e, h3⟩) | e) <;> first | (simp at e; done) | skip
    · rcases Nat.lt_or_gt_of_ne hne with h | h
      · have := rowCut_mono hT nl (show t + 1 ≤ u by omega); omega
      · have := rowCut_mono hT nl (show u + 1 ≤ t by omega); omega
    · omega
  · intro t ht
    have hmono := rowCut_mono hT nl (show t ≤ t + 1 by omega)
    have hle := rowCut_le hT nl (t + 1)
    unfold sumsLocal
    rw [rowCut_eq hT, rowCut_end hT, wp_bind]
    refine wp_forN (b := 0) (lo := rowCut T nl t) (hi := rowCut T nl (t + 1))
      (fun n s m => s = psum C n - psum C (rowCut T nl t) ∧ (∀ l : Nat, rowCut T nl t ≤ l → l < n → m rcmPfx (l : Int) = some (psum C l - psum C (rowCut T nl t))) ∧
        ∀ a i, a ≠ rcmPfx → m a i = m0 a i)
      hmono ⟨by omega, fun l h1 h2 => by omega, fun _ _ _ => rfl⟩ ?_ ?_ (by omega) (by omega)
    · rintro n s m hn1 hn2 ⟨rfl, h1, h2⟩
      rw [Int.add_zero]
      refine wp_wr (Or.inl ⟨rfl, by omega, by omega⟩) ⟨by omega, by omega⟩ ?_
      refine wp_sumsInner (c := c) (fun t l ht hl => ?_) (fun _ => Or.inr rfl) (show n < nl by omega) _ ?_
      · rw [Mem.set_other _ _ _ _ _ (by simp), h2 _ _ (by simp)]; exact hc t l ht hl
      rw [hC n (by omega)]
      refine ⟨?_, fun l h3 h4 => ?_, fun a i ha => ?_⟩
      · show _ = psum C n + C n - _; omega
      · by_cases e : l = n
        · subst e; rw [Mem.get_same]
        · rw [Mem.get_ne _ _ _ _ _ (by omega)]; exact h1 l h3 (by omega)
      · rw [Mem.set_other _ _ _ _ _ ha]; exact h2 a i ha
    · rintro s m ⟨rfl, h1, h2⟩
      refine wp_wr1 (Or.inr ⟨rfl, rfl⟩) ⟨by omega, by omega⟩ ?_
      refine ⟨fun l h3 h4 => ?_, Mem.get_same _ _ _ _⟩
      rw [Mem.set_other _ _ _ _ _ (by simp)]; exact h1 l h3 h4
  · intro r m h1 h2
    refine hk r m (fun t l ht h3 h4 => ?_) (fun t ht => ?_) (fun a i n1 n2 => h2 a i ?_)
    · obtain ⟨mt, h5, h6⟩ := h1 t ht
      rw [h6 _ _ (Or.inl (Or.inl ⟨rfl, by omega, by omega⟩))]; exact h5.1 l h3 h4
    · obtain ⟨mt, h5, h6⟩ := h1 t ht
      rw [h6 _ _ (Or.inl (Or.inr ⟨rfl, rfl⟩))]; exact h5.2
    · rintro t ht (⟨rfl, h3, h4⟩ | ⟨rfl, _⟩)
      · have := rowCut_le hT nl (t + 1)
        exact n1 ⟨rfl, by omega, by omega⟩
      · exact n2 rfl

theorem wp_sumsTotal (hT : 1 ≤ T) {n : Nat} {C : Nat → Int} (hC : psum C nl = n)
    (hloc : ∀ t : Nat, t < T → m0 rcmLoc ((t : Int) + 1) = some (psum C (rowCut T nl (t + 1)) - psum C (rowCut T nl t)))
    (hsz : (nl : Int) < sz rcmPfx) (hsz2 : (T : Int) + 1 ≤ sz rcmLoc) {Q : Unit → Mem (CTy R) → Prop}
    (hQ : ∀ m, (∀ t : Nat, 1 ≤ t → t ≤ T → m rcmLoc (t : Int) = some (psum C (rowCut T nl t))) → m rcmPfx (nl : Int) = some (n : Int) →
      (∀ (a : CArr) (i : Int), ¬ (a = rcmPfx ∧ i = (nl : Int)) → a ≠ rcmLoc → m a i = m0 a i) → Q () m) :
    wp sz (fun _ _ => True) (fun _ _ => True) (sumsTotal T nl n) m0 Q := by
  have c0 := rowCut_zero (T := T) nl
  have cT := rowCut_last hT nl
  unfold sumsTotal
  rw [wp_bind]
  refine wp_forN (b := 0) (lo := 1) (hi := T)
    (fun x _ m => (∀ t : Nat, 1 ≤ t → t ≤ x → m rcmLoc (t : Int) = some (psum C (rowCut T nl t))) ∧
      (∀ t : Nat, x ≤ t → t < T → m rcmLoc ((t : Int) + 1) = some (psum C (rowCut T nl (t + 1)) - psum C (rowCut T nl t))) ∧
      ∀ a i, a ≠ rcmLoc → m a i = m0 a i) hT ⟨?_, fun t h1 h2 => hloc t h2, fun _ _ _ => rfl⟩ ?_ ?_ (by omega) (by omega)
  · intro t h1 h2
    obtain rfl : t = 1 := by omega
    have := hloc 0 (by omega)
    rw [c0] at this
    have e : psum C 0 = 0 := rfl
    rw [e] at this
    simpa using this
  · rintro x _ m hx1 hx2 ⟨h1, h2, h3⟩
    rw [Int.add_zero]
    refine wp_rd _ trivial (h2 x (by omega) hx2) ?_
    refine wp_rd _ trivial (h1 x hx1 (by omega)) ?_
    refine wp_wr1 trivial ⟨by omega, by omega⟩ ?_
    refine ⟨fun t h4 h5 => ?_, fun t h4 h5 => ?_, fun a i ha => ?_⟩
    · by_cases e : t = x + 1
      · subst e
        rw [show ((x + 1 : Nat) : Int) = (x : Int) + 1 by omega, Mem.get_same]
        congr 1
        show (psum C (rowCut T nl (x + 1)) - psum C (rowCut T nl x) + psum C (rowCut T nl x) : Int) = _
        omega
      · rw [Mem.get_ne _ _ _ _ _ (by omega)]; exact h1 t h4 (by omega)
    · rw [Mem.get_ne _ _ _ _ _ (by omega)]; exact h2 t (by omega) h5
    · rw [Mem.set_other _ _ _ _ _ ha]; exact h3 a i ha
  · rintro _ m ⟨h1, _, h3⟩
    refine wp_rd _ trivial (h1 T hT (by omega)) ?_
    rw [wp_bind, wp_assert]
    refine ⟨by show (psum C (rowCut T nl T) : Int) = _; rw [cT, hC], ?_⟩
    refine wp_wr1 trivial ⟨by omega, by omega⟩ ?_
    refine hQ _ (fun t h4 h5 => ?_) (Mem.get_same _ _ _ _) (fun a i n1 n2 => ?_)
    · rw [Mem.set_other _ _ _ _ _ (by simp)]; exact h1 t h4 h5
    · rcases Mem.set_cases m rcmPfx (nl : Int) (n : Int) a i with ⟨rfl, rfl⟩ | e
      · exact absurd ⟨rfl, rfl⟩ n1
      · rw [e]; exact h3 a i n2

theorem sumsAdd_ok (hT : 1 ≤ T) {C : Nat → Int} (hsz : (nl : Int) ≤ sz rcmPfx)
    (hp : ∀ t l : Nat, t < T → rowCut T nl t ≤ l → l < rowCut T nl (t + 1) → m0 rcmPfx (l : Int) = some (psum C l - psum C (rowCut T nl t)))
    (hloc : ∀ t : Nat, 1 ≤ t → t ≤ T → m0 rcmLoc (t : Int) = some (psum C (rowCut T nl t))) {Post : (Nat → Unit) → Mem (CTy R) → Prop}
    (hk : ∀ r m, (∀ l : Nat, l < nl → m rcmPfx (l : Int) = some (psum C l)) → (∀ (a : CArr) (i : Int), ¬ (a = rcmPfx ∧ 0 ≤ i ∧ i < nl) → m a i = m0 a i) → Post r m) :
    ParOk sz T Post (sumsAdd T nl) m0 := by
  have c0 := rowCut_zero (T := T) nl
  let W : Nat → CArr → Int → Prop := fun t a i => a = rcmPfx ∧ (rowCut T nl t : Int) ≤ i ∧ i < (rowCut T nl (t + 1) : Int)
  refine par_rule (W := W) (R := fun t a i => W t a i ∨ a = rcmLoc)
    (Q := fun t _ m => ∀ l : Nat, rowCut T nl t ≤ l → l < rowCut T nl (t + 1) → m rcmPfx (l : Int) = some (psum C l)) ?_ ?_ ?_
  · rintro t u a i ht hu hne ⟨rfl, h1, h2⟩ (⟨_, h3, h4⟩ | e)
    · rcases Nat.lt_or_gt_of_ne hne with h | h
      · have := rowCut_mono hT nl (show t + 1 ≤ u by omega); omega
      · have := rowCut_mono hT nl (show u + 1 ≤ t by omega); omega
    · simp at e
  · intro t ht
    have hmono := rowCut_mono hT nl (show t ≤ t + 1 by omega)
    have hle := rowCut_le hT nl (t + 1)
    unfold sumsAdd
    by_cases h0 : t = 0
    · rw [if_pos h0, wp_pure]
      subst h0
      intro l h1 h2
      rw [hp 0 l ht h1 h2, c0]
      congr 1
      show psum C l - 0 = _
      omega
    rw [if_neg h0]
    refine wp_rd _ (Or.inr rfl) (hloc t (by omega) (by omega)) ?_
    rw [rowCut_eq hT, rowCut_end hT]
    refine wp_forN (b := 0) (lo := rowCut T nl t) (hi := rowCut T nl (t + 1))
      (fun n _ m => (∀ l : Nat, rowCut T nl t ≤ l → l < n → m rcmPfx (l : Int) = some (psum C l)) ∧
        (∀ l : Nat, n ≤ l → l < rowCut T nl (t + 1) → m rcmPfx (l : Int) = some (psum C l - psum C (rowCut T nl t))))
      hmono ⟨fun l h1 h2 => by omega, fun l h1 h2 => hp t l ht h1 h2⟩ ?_ ?_ (by omega) (by omega)
    · rintro n _ m hn1 hn2 ⟨h1, h2⟩
      rw [Int.add_zero]
      refine wp_rd _ (Or.inl ⟨rfl, by omega, by omega⟩) (h2 n (by omega) hn2) ?_
      refine wp_wr1 ⟨rfl, by omega, by omega⟩ ⟨by omega, by omega⟩ ?_
      refine ⟨fun l h3 h4 => ?_, fun l h3 h4 => ?_⟩
      · by_cases e : l = n
        · subst e; rw [Mem.get_same]
          congr 1
          show (psum C l - psum C (rowCut T nl t) + psum C (rowCut T nl t) : Int) = _
          omega
        · rw [Mem.get_ne _ _ _ _ _ (by omega)]; exact h1 l h3 (by omega)
      · rw [Mem.get_ne _ _ _ _ _ (by omega)]; exact h2 l (by omega) h4
    · rintro _ m ⟨h1, _⟩
      exact h1
  · intro r m h1 h2
    refine hk r m (fun l hl => ?_) (fun a i n1 => h2 a i ?_)
    · obtain ⟨t, ht, h3, h4⟩ := rowCut_find hT hl
      obtain ⟨mt, h5, h6⟩ := h1 t ht
      rw [h6 _ _ (Or.inl ⟨rfl, by omega, by omega⟩)]; exact h5 l h3 h4
    · rintro t ht ⟨rfl, h3, h4⟩
      have := rowCut_le hT nl (t + 1)
      exact n1 ⟨rfl, by omega, by omega⟩

/-- prefixSumOfLevels by a team: for every interleaving and every distribution of the iterations. -/
theorem rcmSums_ok (hT : 1 ≤ T) {M : Nat} {D : Nat → Nat} {N : List Nat} {pa : Nat → Nat} {st : Int} (hpa : ∀ x, x < N.length → pa x < T)
    (hN : ∀ x ∈ N, x < M) (hD : ∀ x ∈ N, D x < nl) (hq : HoldsQ m0 5 st N) (hlev : ∀ x ∈ N, m0 bfsLev (x : Int) = some (D x : Int))
    (hsz : (nl : Int) < sz rcmPfx) {Q : Unit → Mem (CTy R) → Prop}
    (hQ : ∀ m, (∀ l : Nat, l ≤ nl → m rcmPfx (l : Int) = some (N.countP (fun y => decide (D y < l)) : Int)) →
      (∀ (a : CArr) (i : Int), ¬ (a = rcmPfx ∧ 0 ≤ i ∧ i ≤ nl) → a ≠ rcmCnt → a ≠ rcmLoc → m a i = m0 a i) → Q () m) :
    (rcmSums sz T M nl N.length pa st).Ok m0 Q := by
  have hall : psum (lvTot D N) nl = (N.length : Int) := by
    rw [psum_lvTot, List.countP_eq_length.2 (fun x hx => by simpa using hD x hx)]
  have hCl : ∀ l, l < nl → psum (fun t => lvCnt pa (fun x => D (N.getD x 0)) N.length t l) T = lvTot D N l := by
    intro l _
    rw [psum_lvCnt pa D N hpa l N.length (Nat.le_refl _), List.take_length]; rfl
  unfold rcmSums
  refine sumsCount_ok hN hD hq hlev (Int.le_refl _) ?_
  intro _ m1 h1 f1
  refine sumsLocal_ok hT h1 hCl (by show (nl : Int) ≤ sz rcmPfx; omega) (Int.le_refl _) ?_
  intro _ m2 h2 h3 f2
  refine seq_rule ?_
  refine wp_sumsTotal (sz := sumsSize sz T nl) hT hall h3 hsz (Int.le_refl _) ?_
  intro m3 h4 h5 f3
  refine sumsAdd_ok hT (C := lvTot D N) (by show (nl : Int) ≤ sz rcmPfx; omega) (fun t l ht hl1 hl2 => ?_) h4 ?_
  · have := rowCut_le hT nl (t + 1)
    rw [f3 _ _ (by rintro ⟨_, e⟩; omega) (by simp)]; exact h2 t l ht hl1 hl2
  intro _ m4 h6 f4
  refine Script.ok_done_of (hQ m4 (fun l hl => ?_) (fun a i n1 n2 n3 => ?_))
  · by_cases e : l = nl
    · subst e
      rw [f4 _ _ (by rintro ⟨_, _, e⟩; omega), h5, ← psum_lvTot, hall]
    · rw [h6 l (by omega), psum_lvTot]
  · rw [f4 a i (fun h => n1 ⟨h.1, h.2.1, by omega⟩), f3 a i (fun h => n1 ⟨h.1, by omega, by omega⟩) n3,
      f2 a i (fun h => n1 ⟨h.1, h.2.1, by omega⟩) n3, f1 a i n2]

end SpMP
