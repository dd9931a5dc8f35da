import Verif.BfsExpand
import Verif.LevelsProof
import Verif.BinFile
/-
The parallel breadth-first search: partition of a level, copy of the queues, the loop over levels.
-/

namespace SpMP
open Spec

variable {R : Type} {sz : CArr → Int} {A : Csr R} {k base T : Nat}

theorem dg_nonneg (wf : A.WF) {q : List Nat} (h : ∀ r ∈ q, r < A.m) : 0 ≤ wS A.ptr (bfsEp A) q := by
  induction q with
  | nil => exact Int.le_refl _
  | cons r q ih =>
    have h1 := ih (fun x hx => h x (List.mem_cons_of_mem _ hx))
    have h2 := wf.ptr_mono (show r ≤ r + 1 by omega) (show r + 1 ≤ A.m from h r List.mem_cons_self)
    have h3 := bfs_work A r
    have : wS A.ptr (bfsEp A) (r :: q) = rowWork A.ptr (bfsEp A) r + wS A.ptr (bfsEp A) q := by simp [wS]
    omega

theorem dg_take_mono (wf : A.WF) {q : List Nat} (h : ∀ r ∈ q, r < A.m) {i j : Nat} (hk : i ≤ j) :
    wS A.ptr (bfsEp A) (q.take i) ≤ wS A.ptr (bfsEp A) (q.take j) := by
  have h1 : q.take j = q.take i ++ (q.drop i).take (j - i) := by
    rw [← List.take_add, show i + (j - i) = j by omega]
  rw [h1, wS_append]
  have := dg_nonneg wf (q := (q.drop i).take (j - i)) (fun r hr => h r (List.mem_of_mem_drop (List.mem_of_mem_take hr)))
  omega

/-- The partition of a level relies on this. -/
theorem bfs_cutOk (wf : A.WF) {Qs : Nat → List Nat} {qt nz : Nat → Int} (hlt : ∀ t, ∀ u ∈ Qs t, u < A.m)
    (hqt : ∀ t, qt t = ((Qs t).length : Int)) (hnz : ∀ t, nz t = wS A.ptr (bfsEp A) (Qs t)) :
    CutOk T qt (psum qt) (psum nz) (fun t k => wS A.ptr (bfsEp A) ((Qs t).take k)) := by
  have hn : ∀ t, 0 ≤ nz t := fun t => by rw [hnz]; exact dg_nonneg wf (hlt t)
  have hq : ∀ t, 0 ≤ qt t := fun t => by rw [hqt]; omega
  refine ⟨rfl, rfl, ?_, ?_, ?_, ?_, ?_⟩
  · intro a b hab _; exact psum_mono hn hab
  · intro a b hab _; exact psum_mono hq hab
  · intro t _ ht
    have ht : psum nz t < psum nz t + nz t := ht
    refine ⟨?_, rfl⟩
    rw [hqt]
    have h6 := hnz t
    rcases hQ : Qs t with _ | ⟨x, c⟩
    · rw [hQ] at h6; simp [wS] at h6; omega
    · simp
  · intro t; simp [wS]
  · intro t k k' _ _ hk _
    exact dg_take_mono wf (hlt t) hk

section
variable {W Rd : CArr → Int → Prop} {m : Mem (CTy R)} {mm : Nat} {qt P N : Nat → Int} {rp : Nat → Nat → Int}

/-- Position (`t`, `i`) is where the work `x` falls. -/
def PairRel (T : Nat) (qt N : Nat → Int) (rp : Nat → Nat → Int) (x t i : Int) : Prop :=
  ∃ tn k : Nat, t = tn ∧ i = k ∧ tn < T ∧ N tn ≤ x ∧ x < N (tn + 1) ∧ (k : Int) < qt tn ∧ rp tn k ≤ x - N tn ∧
    ∀ k' : Nat, k < k' → (k' : Int) < qt tn → x - N tn < rp tn k'

theorem wp_bfsT (hc : CutOk T qt P N rp) {x : Int} (hx : 0 ≤ x) {Q : Int → Mem (CTy R) → Prop}
    (hQ : ∀ t : Nat, t ≤ T → N t ≤ x → (t < T → x < N (t + 1)) → Q (t : Int) m) : wp sz W Rd (bfsT T N x) m Q := by
  unfold bfsT
  rw [wp_bind]
  refine wp_upperBoundT hc.Nmono ?_
  intro p h1 h2 h3
  have hp : 1 ≤ p := by
    by_contra hcc
    have := h3 0 (by omega) (by omega)
    have := hc.N0; omega
  rw [wp_pure]
  obtain ⟨t, rfl⟩ : ∃ t, p = t + 1 := ⟨p - 1, by omega⟩
  rw [show ((t + 1 : Nat) : Int) - 1 = (t : Int) by omega]
  exact hQ t (by omega) (h2 t (by omega)) (fun ht => h3 (t + 1) (by omega) (by omega))

theorem wp_bfsI (hc : CutOk T qt P N rp) (hR : ∀ i, Rd bufA i)
    (hm : ∀ t k : Nat, t < T → N t < N (t + 1) → (k : Int) < qt t → m bufA ((t : Int) * mm + k) = some (rp t k))
    {t : Nat} {x : Int} (ht : t < T) (h1 : N t ≤ x) (h2 : x < N (t + 1)) {Q : Int → Mem (CTy R) → Prop}
    (hQ : ∀ i, PairRel T qt N rp x t i → Q i m) : wp sz W Rd (bfsI mm qt N (t : Int) x) m Q := by
  unfold bfsI upperBound
  have k3 := hc.pos t ht (by omega)
  simp only [Int.toNat_natCast]
  generalize hb : (t : Int) * mm = b at *
  rw [wp_bind]
  refine wp_lowerBound (f := fun i => rp t (i - b).toNat) (by omega) ?_ ?_ ?_
  · intro i h4 h5 Q hQ
    rw [wp_read]
    refine ⟨hR _, _, ?_, hQ⟩
    have := hm t (i - b).toNat ht (by omega) (by omega)
    rw [hb] at this
    rwa [show b + ((i - b).toNat : Int) = i by omega] at this
  · intro i j h4 h5 h6
    exact hc.rpmono t _ _ (by omega) (by omega) (by omega) (by omega)
  · intro q h4 h5 h6 h7
    have hq : b < q := by
      by_contra hcc
      have := h7 b (by omega) (by omega)
      simp only [Int.sub_self, Int.toNat_zero, hc.rp0] at this
      omega
    rw [wp_pure]
    refine hQ _ ⟨t, (q - b - 1).toNat, rfl, by omega, ht, h1, h2, by omega, ?_, ?_⟩
    · have := h6 (q - 1) (by omega) (by omega)
      rw [show q - 1 - b = q - b - 1 by omega] at this
      omega
    · intro k' h8 h9
      have := h7 (b + k') (by omega) (by omega)
      rw [show b + (k' : Int) - b = k' by omega] at this
      simp only [Int.toNat_natCast] at this
      omega

/-- What the partition returns to thread `tid`. -/
def PartRel (T : Nat) (qt N : Nat → Int) (rp : Nat → Nat → Int) (tid : Nat) (r : (Int × Int) × (Int × Int)) : Prop :=
  (if tid = 0 then r.1.1 = 0 ∧ r.1.2 = 0
    else (r.1.1 = T ∧ 0 ≤ r.1.2 ∧ N T ≤ (N T + T - 1) / T * (tid : Int)) ∨ PairRel T qt N rp ((N T + T - 1) / T * (tid : Int)) r.1.1 r.1.2) ∧
  ((r.2.1 = T ∧ r.2.2 = 0 ∧ N T ≤ (N T + T - 1) / T * ((tid + 1 : Nat) : Int)) ∨
    PairRel T qt N rp ((N T + T - 1) / T * ((tid + 1 : Nat) : Int)) r.2.1 r.2.2)

theorem wp_bfsPart (hc : CutOk T qt P N rp) (hT : 1 ≤ T) (hq0 : ∀ t, 0 ≤ qt t) (hR : ∀ i, Rd bufA i)
    (hm : ∀ t k : Nat, t < T → N t < N (t + 1) → (k : Int) < qt t → m bufA ((t : Int) * mm + k) = some (rp t k))
    {tid : Nat} {Q : (Int × Int) × (Int × Int) → Mem (CTy R) → Prop} (hQ : ∀ r, PartRel T qt N rp tid r → Q r m) :
    wp sz W Rd (bfsPart T mm qt N tid) m Q := by
  have hN0 : 0 ≤ N T := by have := hc.Nmono 0 T (by omega) (by omega); rw [hc.N0] at this; exact this
  have hper : 0 ≤ (N T + T - 1) / T := Int.ediv_nonneg (by omega) (by omega)
  unfold bfsPart
  unfold PartRel at hQ
  dsimp only
  generalize (N T + T - 1) / (T : Int) = per at *
  have hx0 : 0 ≤ per * (tid : Int) := Int.mul_nonneg hper (by omega)
  have hx1 : per * (tid : Int) ≤ per * ((tid + 1 : Nat) : Int) := Int.mul_le_mul_of_nonneg_left (by omega) hper
  have he : per * ((tid : Int) + 1) = per * ((tid + 1 : Nat) : Int) := by push_cast; rfl
  rw [he]
  generalize per * (tid : Int) = x0 at *
  generalize per * ((tid + 1 : Nat) : Int) = x1 at *
  rw [wp_bind]
  refine wp_bfsT hc hx0 fun tB b1 b2 b3 => ?_
  rw [wp_bind]
  refine wp_bfsT hc (by omega) fun tE e1 e2 e3 => ?_
  have hle : tB ≤ tE := by
    by_contra hcc
    have h1 := e3 (by omega)
    have h2 := hc.Nmono (tE + 1) tB (by omega) (by omega)
    omega
  rw [wp_bind, wp_assert]
  refine ⟨by split <;> omega, ?_⟩
  rw [wp_bind, wp_assert]
  refine ⟨by omega, ?_⟩
  rw [wp_bind, wp_assert]
  refine ⟨by split <;> omega, ?_⟩
  rw [wp_bind]
  have last : ∀ iB : Int, (if tid = 0 then iB = 0 else ((tB : Int) = T ∧ 0 ≤ iB ∧ N T ≤ x0) ∨ PairRel T qt N rp x0 tB iB) →
      wp sz W Rd (do
        let iE ← (if (tE : Int) = T then pure 0 else bfsI mm qt N (tE : Int) x1 : Prog (CTy R) Int)
        pure (((if tid = 0 then (0 : Int) else tB), iB), ((tE : Int), iE))) m Q := by
    intro iB hiB
    have hbeg : ∀ iE, (if tid = 0 then ((if tid = 0 then (0 : Int) else tB), iB).1 = 0 ∧ ((if tid = 0 then (0 : Int) else tB), iB).2 = 0
        else (((if tid = 0 then (0 : Int) else tB), iB).1 = T ∧ 0 ≤ ((if tid = 0 then (0 : Int) else tB), iB).2 ∧ N T ≤ x0) ∨
          PairRel T qt N rp x0 ((if tid = 0 then (0 : Int) else tB), iB).1 ((if tid = 0 then (0 : Int) else tB), iB).2) ∨ iE = 0 ∧ False := by
      intro iE
      left
      by_cases h0 : tid = 0
      · simp only [if_pos h0] at *; exact ⟨trivial, hiB⟩
      · simp only [if_neg h0] at *; exact hiB
    rw [wp_bind]
    by_cases hE : (tE : Int) = T
    · rw [if_pos hE, wp_pure, wp_pure]
      refine hQ _ ⟨by simpa using hbeg 0, Or.inl ⟨hE, rfl, ?_⟩⟩
      have : tE = T := by omega
      rw [← this]; exact e2
    · rw [if_neg hE]
      refine wp_bfsI hc hR hm (by omega) e2 (e3 (by omega)) fun iE hiE => ?_
      rw [wp_pure]
      exact hQ _ ⟨by simpa using hbeg 0, Or.inr hiE⟩
  by_cases h0 : tid = 0
  · rw [if_pos h0, wp_pure]
    exact last 0 (by rw [if_pos h0])
  · rw [if_neg h0]
    rw [if_neg h0] at last ⊢
    by_cases hB : (tB : Int) = T
    · rw [if_pos hB, wp_pure]
      have : tB = T := by omega
      exact last _ (by rw [if_neg h0]; exact Or.inl ⟨hB, hq0 _, by rw [← this]; exact b2⟩)
    · rw [if_neg hB]
      refine wp_bfsI hc hR hm (by omega) b2 (b3 (by omega)) fun iB hiB => ?_
      exact last _ (by rw [if_neg h0]; exact Or.inr hiB)

end

/-- The parts of the threads cover the level and contain only its positions. -/
theorem part_tile {Qs : Nat → List Nat} {qt N : Nat → Int} {rp : Nat → Nat → Int} (hc : CutOk T qt (psum qt) N rp) (hT : 1 ≤ T)
    (hqt : ∀ t, qt t = ((Qs t).length : Int)) {r : Nat → (Int × Int) × (Int × Int)} (h : ∀ t, t < T → PartRel T qt N rp t (r t)) :
    (∀ t, t < T → ∀ tt ii, ExItem qt (r t) tt ii → ∃ (tn i u : Nat), tt = tn ∧ ii = i ∧ tn < T ∧ (Qs tn)[i]? = some u) ∧
    (∀ tn i : Nat, tn < T → i < (Qs tn).length → ∃ t, t < T ∧ ExItem qt (r t) tn i) := by
  have hq0 : ∀ t, 0 ≤ qt t := fun t => by rw [hqt]; omega
  have hP : ∀ {a b : Nat}, a ≤ b → psum qt a ≤ psum qt b := fun h => psum_mono hq0 h
  constructor
  · intro t ht tt ii hit
    obtain ⟨h1, h2⟩ := h t ht
    obtain ⟨a1, a2, a3, a4⟩ := hit
    have hlo : 0 ≤ (r t).1.1 ∧ 0 ≤ (r t).1.2 := by
      by_cases h0 : t = 0
      · rw [if_pos h0] at h1; omega
      · rw [if_neg h0] at h1
        rcases h1 with ⟨b1, b2, _⟩ | ⟨tn, k, b1, b2, _⟩ <;> omega
    have hii : 0 ≤ ii := by
      by_cases e : tt = (r t).1.1
      · rw [if_pos e] at a3; omega
      · rw [if_neg e] at a3; omega
    have hfin : tt < T ∧ ii < qt tt.toNat := by
      by_cases e : tt = (r t).2.1
      · rw [if_pos e] at a4
        rcases h2 with ⟨b1, b2, _⟩ | ⟨tn, k, b1, b2, b3, _, _, b4, _⟩
        · omega
        · have : tt.toNat = tn := by omega
          rw [this]; omega
      · rw [if_neg e] at a4
        refine ⟨?_, a4⟩
        rcases h2 with ⟨b1, _⟩ | ⟨tn, k, b1, b2, b3, _⟩ <;> omega
    have := hqt tt.toNat
    refine ⟨tt.toNat, ii.toNat, (Qs tt.toNat)[ii.toNat]'(by omega), by omega, by omega, by omega, List.getElem?_eq_getElem _⟩
  · intro tn i htn hi
    have hi' : (i : Int) < qt tn := by rw [hqt]; omega
    -- linear positions
    let lin : Int × Int → Int := fun q => if q.1 = T then psum qt T else psum qt q.1.toNat + q.2
    have hlin : ∀ x t i, PairRel T qt N rp x t i → CutRel T qt (psum qt) N rp x (lin (t, i)) := by
      rintro x _ _ ⟨tn, k, rfl, rfl, b1, b2, b3, b4, b5⟩
      refine Or.inr ⟨tn, k, b1, b2, b3, b4, ?_, b5⟩
      show (if (tn : Int) = T then _ else _) = _
      rw [if_neg (by omega)]; rfl
    have hTl : ∀ q : Int × Int, q.1 = T → lin q = psum qt T := fun q hq => if_pos hq
    obtain ⟨c, c0, cT, _, cr⟩ := cuts_tile hc hT (r := fun t => (lin (r t).1, lin (r t).2)) (by
      intro t ht
      obtain ⟨h1, h2⟩ := h t ht
      constructor
      · by_cases h0 : t = 0
        · rw [if_pos h0] at h1 ⊢
          show (if (r t).1.1 = T then _ else _) = _
          rw [if_neg (by omega), h1.1, h1.2]; rfl
        · rw [if_neg h0] at h1 ⊢
          rcases h1 with ⟨b1, _, b3⟩ | b
          · exact Or.inl ⟨b3, hTl _ b1⟩
          · exact hlin _ _ _ b
      · rcases h2 with ⟨b1, _, b3⟩ | b
        · exact Or.inl ⟨b3, hTl _ b1⟩
        · exact hlin _ _ _ b)
    obtain ⟨q, hq⟩ := Int.eq_ofNat_of_zero_le (show 0 ≤ psum qt tn + i by have := hP (Nat.zero_le tn); have : psum qt 0 = 0 := rfl; omega)
    have hS : psum qt (tn + 1) = psum qt tn + qt tn := rfl
    have hqT : q < c T := by have := hP (show tn + 1 ≤ T from htn); omega
    -- the thread whose part contains q
    have hex : ∀ n, n ≤ T → q < c n → ∃ t, t < n ∧ c t ≤ q ∧ q < c (t + 1) := by
      intro n
      induction n with
      | zero => intro _ h; omega
      | succ n ih =>
        intro hn h
        by_cases h1 : q < c n
        · obtain ⟨t, a, b⟩ := ih (by omega) h1; exact ⟨t, by omega, b⟩
        · exact ⟨n, by omega, by omega, h⟩
    obtain ⟨t, ht, hl, hh⟩ := hex T (Nat.le_refl _) hqT
    have hr := cr t ht
    have hr1 : lin (r t).1 = c t := congrArg Prod.fst hr
    have hr2 : lin (r t).2 = c (t + 1) := congrArg Prod.snd hr
    obtain ⟨h1, h2⟩ := h t ht
    have hTt := hP (show tn + 1 ≤ T from htn)
    refine ⟨t, ht, ?_⟩
    -- begin
    have hb : (r t).1.1 ≤ tn ∧ ((tn : Int) = (r t).1.1 → (r t).1.2 ≤ i) := by
      by_cases h0 : t = 0
      · rw [if_pos h0] at h1; omega
      · rw [if_neg h0] at h1
        rcases h1 with ⟨b1, _⟩ | ⟨tb, kb, b1, b2, b3, _⟩
        · have := hTl _ b1; omega
        · have : lin (r t).1 = psum qt tb + kb := by
            show (if (r t).1.1 = T then _ else _) = _
            rw [if_neg (by omega), b1, b2]; rfl
          refine ⟨?_, ?_⟩
          · by_contra hcc
            have := hP (show tn + 1 ≤ tb by omega); omega
          · intro e
            have : tn = tb := by omega
            subst this; omega
    have he : (tn : Int) ≤ (r t).2.1 ∧ ((tn : Int) = (r t).2.1 → (i : Int) < (r t).2.2) := by
      rcases h2 with ⟨b1, _⟩ | ⟨te, ke, b1, b2, b3, _, _, b4, _⟩
      · omega
      · have : lin (r t).2 = psum qt te + ke := by
          show (if (r t).2.1 = T then _ else _) = _
          rw [if_neg (by omega), b1, b2]; rfl
        refine ⟨?_, ?_⟩
        · by_contra hcc
          have h3 := hP (show te + 1 ≤ tn by omega)
          have h4 : psum qt (te + 1) = psum qt te + qt te := rfl
          omega
        · intro e
          have : tn = te := by omega
          subst this; omega
    refine ⟨hb.1, by omega, ?_, ?_⟩
    · split
      · rename_i e; exact hb.2 e
      · omega
    · split
      · rename_i e; exact he.2 e
      · simpa using hi'

/-! ### The loop over levels -/

/-- The copy of the queues of a level and its partition. -/
def BcW (b : Int) (P : Nat → Int) (t : Nat) (a : CArr) (i : Int) : Prop := a = bfsInv ∧ b + P t ≤ i ∧ i < b + P (t + 1)
def BcR (b : Int) (P : Nat → Int) (t : Nat) (a : CArr) (i : Int) : Prop := a ≠ bfsInv ∨ BcW b P t a i

theorem bfsCopyPart_ok (wf : A.WF) (hT : 1 ≤ T) {p : Nat} (hp : p < 2) {Qs : Nat → List Nat} {qt nz : Nat → Int} {m1 : Mem (CTy R)}
    (hlt : ∀ t, ∀ u ∈ Qs t, u < A.m) (hqt : ∀ t, qt t = ((Qs t).length : Int)) (hnz : ∀ t, nz t = wS A.ptr (bfsEp A) (Qs t))
    (hq : ∀ t, t < T → HoldsQ m1 (10 + p) ((t : Int) * A.m) (Qs t)) (hr : ∀ t, t < T → Qs t ≠ [] → HoldsRP m1 A.ptr (bfsEp A) ((t : Int) * A.m) (Qs t))
    {b : Int} (hb : 0 ≤ b) (hsz : b + ((List.range T).flatMap Qs).length ≤ sz bfsInv)
    {α : Type} {K : (Nat → (Int × Int) × (Int × Int)) → Script (CTy R) α} {Q : α → Mem (CTy R) → Prop}
    (hk : ∀ r m, (∀ t, t < T → PartRel T qt (psum nz) (fun t k => wS A.ptr (bfsEp A) ((Qs t).take k)) t (r t)) →
      HoldsQ m 14 b ((List.range T).flatMap Qs) →
      (∀ a i, ¬ (a = bfsInv ∧ b ≤ i ∧ i < b + ((List.range T).flatMap Qs).length) → m a i = m1 a i) → (K r).Ok m Q) :
    (Script.phase sz T (fun tid => do
      bfsCopy A.m p b qt (psum qt) tid
      bfsPart T A.m qt (psum nz) tid) K).Ok m1 Q := by
  have hq0 : ∀ t, 0 ≤ qt t := fun t => by rw [hqt]; omega
  have hP : ∀ {a b : Nat}, a ≤ b → psum qt a ≤ psum qt b := fun h => psum_mono hq0 h
  have hfq : qt = fun t => ((Qs t).length : Int) := funext hqt
  have htot : (((List.range T).flatMap Qs).length : Int) = psum qt T := by rw [flatMap_length_psum, hfq]
  have hc := bfs_cutOk (T := T) wf hlt hqt hnz
  refine par_rule (W := BcW b (psum qt)) (R := BcR b (psum qt))
    (Q := fun t r mt => PartRel T qt (psum nz) (fun t k => wS A.ptr (bfsEp A) ((Qs t).take k)) t r ∧
      ∀ x s : Nat, (Qs t)[x]? = some s → mt bfsInv (b + psum qt t + x) = some (s : Int)) ?_ ?_ ?_
  · rintro t u a i _ _ hne ⟨rfl, h1, h2⟩ h3
    rcases h3 with h3 | ⟨_, h3, h4⟩
    · exact h3 rfl
    · rcases Nat.lt_or_gt_of_ne hne with h | h
      · have := hP (show t + 1 ≤ u from h); omega
      · have := hP (show u + 1 ≤ t from h); omega
  · intro t ht
    rw [wp_bind]
    have hS : psum qt (t + 1) = psum qt t + qt t := rfl
    have h0 := hP (Nat.zero_le t)
    have h00 : psum qt 0 = 0 := rfl
    have hl := hP (show t + 1 ≤ T from ht)
    unfold bfsCopy
    refine wp_forN (b := 0) (lo := 0) (hi := (Qs t).length)
      (fun x _ m => (∀ a i, a ≠ bfsInv → m a i = m1 a i) ∧
        ∀ y s : Nat, y < x → (Qs t)[y]? = some s → m bfsInv (b + psum qt t + y) = some (s : Int)) (by omega) ?_ ?_ ?_ (by omega) (by rw [hqt]; omega)
    · exact ⟨fun _ _ _ => rfl, fun y s h => by omega⟩
    · rintro x _ m _ hx ⟨h1, h2⟩
      rw [Int.add_zero]
      have hv : m (bfsQ p) ((t : Int) * A.m + x) = some (((Qs t)[x] : Nat) : Int) := by
        rw [h1 _ _ (by intro e; injection e with e; omega)]
        exact hq t ht x _ (List.getElem?_eq_getElem hx)
      refine wp_rd _ (Or.inl (by intro e; injection e with e; omega)) hv ?_
      have hqx := hqt t
      refine wp_wr1 ⟨rfl, by omega, by omega⟩ ⟨by omega, by omega⟩ ⟨?_, ?_⟩
      · intro a i ha; rw [Mem.set_other _ _ _ _ _ ha]; exact h1 a i ha
      · intro y s hy hs
        by_cases e : y = x
        · subst e
          rw [List.getElem?_eq_getElem hx] at hs
          injection hs with hs
          rw [Mem.get_same, hs]
        · rw [Mem.get_ne _ _ _ _ _ (by omega)]; exact h2 y s (by omega) hs
    · rintro _ m ⟨h1, h2⟩
      refine wp_bfsPart hc hT hq0 (fun i => Or.inl (by simp)) ?_ ?_
      · intro u k hu _ hk
        rw [h1 _ _ (by simp)]
        rw [hqt] at hk
        exact hr u hu (fun e => by rw [e] at hk; simp at hk; omega) k (by omega)
      · intro r hr
        exact ⟨hr, fun x s hs => h2 x s (List.getElem?_eq_some_iff.mp hs).1 hs⟩
  · intro r m h1 h2
    refine hk r m (fun t ht => (h1 t ht).elim fun _ h => h.1.1) ?_ ?_
    · intro p' s hs
      have hpl := (List.getElem?_eq_some_iff.mp hs).1
      have hex : ∀ n, n ≤ T → (p' : Int) < psum qt n → ∃ t, t < n ∧ psum qt t ≤ p' ∧ (p' : Int) < psum qt (t + 1) := by
        intro n
        induction n with
        | zero => intro _ h; have : psum qt 0 = 0 := rfl; omega
        | succ n ih =>
          intro hn h
          by_cases h1 : (p' : Int) < psum qt n
          · obtain ⟨t, a, b⟩ := ih (by omega) h1; exact ⟨t, by omega, b⟩
          · exact ⟨n, by omega, by omega, h⟩
      obtain ⟨t, ht, ha, hb'⟩ := hex T (Nat.le_refl _) (by omega)
      have hS : psum qt (t + 1) = psum qt t + qt t := rfl
      obtain ⟨x, hx⟩ := Int.eq_ofNat_of_zero_le (show 0 ≤ (p' : Int) - psum qt t by omega)
      have hxl : x < (Qs t).length := by have := hqt t; omega
      rw [flatMap_getElem_psum Qs (t := t) (x := x) ht hxl (by rw [← hfq]; omega)] at hs
      obtain ⟨mt, ⟨_, k2⟩, k3⟩ := h1 t ht
      have := k2 x s hs
      rw [show b + psum qt t + (x : Int) = b + (p' : Int) by omega] at this
      rw [← this]
      exact k3 _ _ (Or.inr ⟨rfl, by omega, by omega⟩)
    · intro a i hn
      refine h2 a i ?_
      rintro t ht ⟨rfl, h3, h4⟩
      have := hP (Nat.zero_le t)
      have h00 : psum qt 0 = 0 := rfl
      have := hP (show t + 1 ≤ T from ht)
      exact hn ⟨rfl, by omega, by omega⟩

/-- The nodes of `l` in non-decreasing distance from `s`. -/
def DistSorted (A : Csr R) (s : Nat) (l : List Nat) : Prop := l.Pairwise fun x y => ∀ d e, IsDist A s x d → IsDist A s y e → d ≤ e

/-- Arrays the search writes, apart from `inversePerm`. -/
def BfsTmp (a : CArr) : Prop := a = bfsQ 0 ∨ a = bfsQ 1 ∨ a = bufA ∨ a = bfsBits

/-- The head of the loop over levels. `Z` are the nodes marked before the search, `vis` the nodes of the finished levels. -/
structure BfsHead (A : Csr R) (k base T : Nat) (off : Int) (s : Nat) (Z : Nat → Prop) (m0 : Mem (CTy R)) (lev : Nat) (qt nz : Nat → Int)
    (Qs : Nat → List Nat) (vis : List Nat) (m : Mem (CTy R)) : Prop where
  pat : HoldsPat m k base A
  qt_eq : ∀ t, qt t = ((Qs t).length : Int)
  nz_eq : ∀ t, nz t = wS A.ptr (bfsEp A) (Qs t)
  team : ∀ t, T ≤ t → Qs t = []
  queue : ∀ t, t < T → HoldsQ m (10 + lev % 2) ((t : Int) * A.m) (Qs t)
  sums : ∀ t, t < T → Qs t ≠ [] → HoldsRP m A.ptr (bfsEp A) ((t : Int) * A.m) (Qs t)
  nodup : ((List.range T).flatMap Qs).Nodup
  mem : ∀ x, x ∈ (List.range T).flatMap Qs ↔ IsDist A s x lev
  one : ∀ x, x < A.m → (Z x ∨ Near A s lev x) → m bfsBits (x : Int) = some (1 : Int)
  zero : ∀ x, x < A.m → ¬ (Z x ∨ Near A s lev x) → m bfsBits (x : Int) = some (0 : Int)
  vis_hold : HoldsQ m 14 off vis
  vis_nodup : vis.Nodup
  vis_mem : ∀ x, x ∈ vis ↔ ∃ d, d < lev ∧ IsDist A s x d
  vis_sorted : DistSorted A s vis
  vis_len : lev ≤ vis.length
  frame : ∀ a i, ¬ BfsTmp a → ¬ (a = bfsInv ∧ off ≤ i ∧ i < off + vis.length) → m a i = m0 a i

/-- What the search leaves. -/
structure BfsDone (A : Csr R) (off : Int) (s : Nat) (Z : Nat → Prop) (m0 : Mem (CTy R)) (vis : List Nat) (m : Mem (CTy R)) : Prop where
  one : ∀ x, x < A.m → (Z x ∨ Reaches A s x) → m bfsBits (x : Int) = some (1 : Int)
  zero : ∀ x, x < A.m → ¬ (Z x ∨ Reaches A s x) → m bfsBits (x : Int) = some (0 : Int)
  vis_hold : HoldsQ m 14 off vis
  vis_nodup : vis.Nodup
  vis_mem : ∀ x, x ∈ vis ↔ Reaches A s x
  vis_sorted : DistSorted A s vis
  frame : ∀ a i, ¬ BfsTmp a → ¬ (a = bfsInv ∧ off ≤ i ∧ i < off + vis.length) → m a i = m0 a i

theorem bfs_len_le (wf : A.WF) (hsq : A.n = A.m) {s : Nat} (hs : s < A.m) {l : List Nat} (hn : l.Nodup) (hr : ∀ x ∈ l, Reaches A s x) :
    l.length ≤ A.m := by
  have : l ⊆ List.range A.m := fun x hx => by
    obtain ⟨d, h⟩ := hr x hx
    exact List.mem_range.2 (h.lt wf hs hsq)
  have := (List.subperm_of_subset hn this).length_le
  rwa [List.length_range] at this

theorem bfsLoop_ok (wf : A.WF) (hsq : A.n = A.m) (hT : 1 ≤ T) {off : Int} (hoff : 0 ≤ off) {s : Nat} (hs : s < A.m) {Z : Nat → Prop}
    (hZ : ∀ x, Reaches A s x → ¬ Z x) {m0 : Mem (CTy R)}
    (hq0 : (T : Int) * A.m ≤ sz (bfsQ 0)) (hq1 : (T : Int) * A.m ≤ sz (bfsQ 1)) (hrp : (T : Int) * A.m ≤ sz bufA)
    (hbits : (A.m : Int) ≤ sz bfsBits) (hinv : ∀ l : List Nat, l.Nodup → (∀ x ∈ l, Reaches A s x) → off + l.length ≤ sz bfsInv) :
    ∀ (fuel lev : Nat) (qt nz : Nat → Int) (nv : Int) (Qs : Nat → List Nat) (vis : List Nat) (m : Mem (CTy R)), A.m + 2 ≤ fuel + lev →
      nv = vis.length → BfsHead A k base T off s Z m0 lev qt nz Qs vis m →
      (bfsLoop sz k base T A.m off fuel lev qt nz nv).Ok m (fun r m' => ∃ vis', r.2 = (vis'.length : Int) ∧ BfsDone A off s Z m0 vis' m') := by
  intro fuel
  induction fuel with
  | zero =>
    intro lev qt nz nv Qs vis m hf _ hh
    have h1 := hh.vis_len
    have h2 := bfs_len_le wf hsq hs hh.vis_nodup (fun x hx => by obtain ⟨d, _, h⟩ := (hh.vis_mem x).1 hx; exact ⟨d, h.1⟩)
    omega
  | succ fuel ih =>
    intro lev qt nz nv Qs vis m hf hnv hh
    have hq0' : ∀ t, 0 ≤ qt t := fun t => by rw [hh.qt_eq]; omega
    have hfq : qt = fun t => ((Qs t).length : Int) := funext hh.qt_eq
    have htot : (((List.range T).flatMap Qs).length : Int) = psum qt T := by rw [flatMap_length_psum, hfq]
    have hlt : ∀ t, ∀ u ∈ Qs t, u < A.m := by
      intro t u hu
      by_cases ht : t < T
      · have := (hh.mem u).1 (by rw [List.mem_flatMap]; exact ⟨t, List.mem_range.2 ht, hu⟩)
        exact this.1.lt wf hs hsq
      · rw [hh.team t (by omega)] at hu; simp at hu
    unfold bfsLoop
    dsimp only
    by_cases hemp : psum qt T = 0
    · rw [if_pos hemp]
      refine Script.ok_done_of ?_
      have hnil : (List.range T).flatMap Qs = [] := List.eq_nil_of_length_eq_zero (by omega)
      have hd := dist_lt_of_empty (A := A) (s := s) (l := lev) (fun x hx => by have := (hh.mem x).2 hx; rw [hnil] at this; simp at this)
      have hnr : ∀ x, Near A s lev x ↔ Reaches A s x := by
        intro x
        constructor
        · rintro ⟨d, _, h⟩; exact ⟨d, h.1⟩
        · intro h; obtain ⟨d, h⟩ := h.dist; exact ⟨d, Nat.le_of_lt (hd d x h), h⟩
      refine ⟨vis, hnv, ⟨fun x hx h => hh.one x hx (by rwa [hnr]), fun x hx h => hh.zero x hx (by rwa [hnr]), hh.vis_hold, hh.vis_nodup, ?_,
        hh.vis_sorted, hh.frame⟩⟩
      intro x
      rw [hh.vis_mem]
      constructor
      · rintro ⟨d, _, h⟩; exact ⟨d, h.1⟩
      · intro h; obtain ⟨d, h⟩ := h.dist; exact ⟨d, hd d x h, h⟩
    rw [if_neg hemp]
    have hpar : 1 - (lev + 1) % 2 = lev % 2 := by omega
    rw [hpar]
    have hdis : ∀ x ∈ vis, x ∉ (List.range T).flatMap Qs := by
      intro x hx hx'
      obtain ⟨d, hd, h⟩ := (hh.vis_mem x).1 hx
      have := h.unique ((hh.mem x).1 hx'); omega
    have hnd : (vis ++ (List.range T).flatMap Qs).Nodup := by
      rw [List.nodup_append]
      refine ⟨hh.vis_nodup, hh.nodup, fun x hx y hy e => ?_⟩
      subst e; exact hdis x hx hy
    have hrc : ∀ x ∈ vis ++ (List.range T).flatMap Qs, Reaches A s x := by
      intro x hx
      rcases List.mem_append.1 hx with hx | hx
      · obtain ⟨d, _, h⟩ := (hh.vis_mem x).1 hx; exact ⟨d, h.1⟩
      · exact ⟨lev, ((hh.mem x).1 hx).1⟩
    have hcap := hinv _ hnd hrc
    rw [List.length_append] at hcap
    refine bfsCopyPart_ok wf hT (by omega) hlt hh.qt_eq hh.nz_eq hh.queue hh.sums (by omega) (by omega) ?_
    intro r m1 hpr hv1 hf1
    obtain ⟨hreg, hcov⟩ := part_tile (Qs := Qs) (bfs_cutOk wf hlt hh.qt_eq hh.nz_eq) hT hh.qt_eq hpr
    have hf1' : ∀ a i, a ≠ bfsInv → m1 a i = m a i := fun a i h => hf1 a i (fun h' => h h'.1)
    have hqsz : ∀ p, p < 2 → (T : Int) * A.m ≤ sz (bfsQ p) := by
      intro p hp
      rcases (by omega : p = 0 ∨ p = 1) with rfl | rfl
      · exact hq0
      · exact hq1
    have hBx : ∀ x, x < A.m → ((Z x ∨ Near A s lev x) → m1 bfsBits (x : Int) = some (1 : Int)) ∧
        (¬ (Z x ∨ Near A s lev x) → m1 bfsBits (x : Int) = some (0 : Int)) := by
      intro x hx
      rw [hf1' _ _ (by simp)]
      exact ⟨hh.one x hx, hh.zero x hx⟩
    refine bfsExpand_ok (B := fun x => Z x ∨ Near A s lev x) wf hsq
      ⟨fun i hi => by rw [hf1' _ _ (by simp)]; exact hh.pat.rowptr i hi, fun i hi => by rw [hf1' _ _ (by simp)]; exact hh.pat.colidx i hi⟩
      (by omega) hs (Or.inr ⟨0, by omega, isDist_zero⟩) (hqsz _ (by omega)) hrp hbits (by omega) (by omega)
      (fun t ht => (hh.queue t ht).congr (fun i _ _ => hf1' _ _ (by intro e; injection e with e; omega))) (fun t _ => hlt t)
      (fun x hx h => (hBx x hx).1 h) (fun x hx h => (hBx x hx).2 h) hreg hcov ?_
    intro q g m2 hqv hqg hgn hgl hgm hg1 hg0 hf2
    have hgd : ∀ x, x ∈ (List.range T).flatMap g ↔ IsDist A s x (lev + 1) := by
      intro x
      rw [hgm, isDist_succ_iff]
      constructor
      · rintro ⟨h1, u, j, h2, h3, h4⟩
        exact ⟨fun h => h1 (Or.inr h), u, j, (hh.mem u).1 h2, h3, h4⟩
      · rintro ⟨h1, u, j, h2, h3, h4⟩
        refine ⟨?_, u, j, (hh.mem u).2 h2, h3, h4⟩
        rintro (h | h)
        · exact hZ x (by rw [← h4]; exact ⟨_, .snoc h2.1 h3⟩) h
        · exact h1 h
    have hgnear : ∀ x, (Z x ∨ Near A s (lev + 1) x) ↔ ((Z x ∨ Near A s lev x) ∨ x ∈ (List.range T).flatMap g) := by
      intro x; rw [near_succ, hgd, or_assoc]
    let g' : Nat → List Nat := fun t => if t < T then g t else []
    have hg' : ∀ t, t < T → g' t = g t := fun t ht => if_pos ht
    have hflat : (List.range T).flatMap g' = (List.range T).flatMap g :=
      List.flatMap_congr fun t ht => hg' t (List.mem_range.1 ht)
    have hinvA : ∀ i, m2 bfsInv i = m1 bfsInv i := fun i => hf2 _ _ (by intro e; injection e with e; omega) (by simp) (by simp)
    refine ih (lev + 1) _ _ _ g' (vis ++ (List.range T).flatMap Qs) m2 (by omega) ?_ ?_
    · rw [List.length_append]; push_cast; omega
    · refine ⟨⟨fun i hi => ?_, fun i hi => ?_⟩, ?_, ?_, ?_, ?_, ?_, ?_, ?_, ?_, ?_, ?_, ?_, ?_, ?_, ?_, ?_⟩
      · rw [hf2 _ _ (by simp) (by simp) (by simp), hf1' _ _ (by simp)]; exact hh.pat.rowptr i hi
      · rw [hf2 _ _ (by simp) (by simp) (by simp), hf1' _ _ (by simp)]; exact hh.pat.colidx i hi
      · intro t
        show (if t < T then _ else _) = ((if t < T then g t else [] : List Nat).length : Int)
        by_cases ht : t < T
        · rw [if_pos ht, if_pos ht]; exact (hqv t ht).1
        · rw [if_neg ht, if_neg ht]; rfl
      · intro t
        show (if t < T then _ else _) = wS A.ptr (bfsEp A) (if t < T then g t else [])
        by_cases ht : t < T
        · rw [if_pos ht, if_pos ht]; exact (hqv t ht).2
        · rw [if_neg ht, if_neg ht]; rfl
      · intro t ht; exact if_neg (by omega)
      · intro t ht; rw [hg' t ht]; exact (hqg t ht).1
      · intro t ht _; rw [hg' t ht]; exact (hqg t ht).2
      · rw [hflat]; exact hgn
      · intro x; rw [hflat]; exact hgd x
      · intro x hx h; exact hg1 x hx ((hgnear x).1 h)
      · intro x hx h; exact hg0 x hx (fun h' => h ((hgnear x).2 h'))
      · intro x y hx
        rw [hinvA]
        have hx' := (List.getElem?_eq_some_iff.mp hx).1
        rw [List.length_append] at hx'
        by_cases hxl : x < vis.length
        · rw [List.getElem?_append_left hxl] at hx
          rw [hf1 _ _ (by rintro ⟨_, h, _⟩; omega)]
          exact hh.vis_hold x y hx
        · rw [List.getElem?_append_right (by omega)] at hx
          have := hv1 _ y hx
          rwa [show off + nv + ((x - vis.length : Nat) : Int) = off + (x : Int) by omega] at this
      · exact hnd
      · intro x
        rw [List.mem_append, hh.vis_mem, hh.mem]
        constructor
        · rintro (⟨d, h1, h2⟩ | h)
          · exact ⟨d, by omega, h2⟩
          · exact ⟨lev, by omega, h⟩
        · rintro ⟨d, h1, h2⟩
          by_cases e : d = lev
          · subst e; exact Or.inr h2
          · exact Or.inl ⟨d, by omega, h2⟩
      · refine List.pairwise_append.2 ⟨hh.vis_sorted, ?_, ?_⟩
        · refine List.Pairwise.imp_of_mem (R := fun _ _ => True) ?_ (List.pairwise_of_forall (fun _ _ => trivial))
          intro x y hx hy _ d e h1 h2
          have := h1.unique ((hh.mem x).1 hx)
          have := h2.unique ((hh.mem y).1 hy)
          omega
        · intro x hx y hy d e h1 h2
          obtain ⟨d', h3, h4⟩ := (hh.vis_mem x).1 hx
          have := h1.unique h4
          have := h2.unique ((hh.mem y).1 hy)
          omega
      · rw [List.length_append]
        have := hh.vis_len
        omega
      · intro a i h1 h2
        rw [List.length_append] at h2
        have : ¬ BfsTmp a := h1
        rw [hf2 _ _ ?_ ?_ ?_]
        · rw [hf1 _ _ (by rintro ⟨rfl, h3, h4⟩; exact h2 ⟨rfl, by omega, by push_cast; omega⟩)]
          exact hh.frame a i h1 (by rintro ⟨rfl, h3, h4⟩; exact h2 ⟨rfl, h3, by push_cast; omega⟩)
        · rintro rfl
          rcases (by omega : (lev + 1) % 2 = 0 ∨ (lev + 1) % 2 = 1) with e | e
          · exact h1 (Or.inl (by rw [e]))
          · exact h1 (Or.inr (Or.inl (by rw [e])))
        · rintro rfl; exact h1 (Or.inr (Or.inr (Or.inl rfl)))
        · rintro rfl; exact h1 (Or.inr (Or.inr (Or.inr rfl)))

/-- The parallel search. -/
theorem bfsPar_ok (wf : A.WF) (hsq : A.n = A.m) (hT : 1 ≤ T) (hbig : 2 ≤ T * A.m) {off : Int} (hoff : 0 ≤ off) {s : Nat} (hs : s < A.m) {Z : Nat → Prop}
    (hZ : ∀ x, Reaches A s x → ¬ Z x) {m0 : Mem (CTy R)} (hpat : HoldsPat m0 k base A)
    (hone : ∀ x, x < A.m → Z x → m0 bfsBits (x : Int) = some (1 : Int)) (hzero : ∀ x, x < A.m → ¬ Z x → m0 bfsBits (x : Int) = some (0 : Int))
    (hq0 : (T : Int) * A.m ≤ sz (bfsQ 0)) (hq1 : (T : Int) * A.m ≤ sz (bfsQ 1)) (hrp : (T : Int) * A.m ≤ sz bufA)
    (hbits : (A.m : Int) ≤ sz bfsBits) (hinv : ∀ l : List Nat, l.Nodup → (∀ x ∈ l, Reaches A s x) → off + l.length ≤ sz bfsInv) :
    (bfsPar sz k base T A.m off (s : Int)).Ok m0 (fun r m' => ∃ vis, r.2 = (vis.length : Int) ∧ BfsDone A off s Z m0 vis m') := by
  have hbig' : (2 : Int) ≤ (T : Int) * A.m := by exact_mod_cast hbig
  unfold bfsPar
  refine seq_rule ?_
  unfold bfsStart
  have hb0 : m0 bfsBits (s : Int) = some (0 : Int) := hzero s hs (hZ s ⟨0, .nil⟩)
  refine wp_rd _ trivial hb0 ?_
  refine wp_wr trivial ⟨by omega, by omega⟩ ?_
  refine wp_wr trivial ⟨by omega, by omega⟩ ?_
  refine wp_wr trivial ⟨by omega, by omega⟩ ?_
  generalize hm1 : ((m0.set bfsBits (s : Int) (1 : Int)).set (bfsQ 0) 0 (s : Int)).set bufA 0 (0 : Int) = m1
  have hfr : ∀ a i, ¬ BfsTmp a → m1 a i = m0 a i := by
    intro a i h
    rw [← hm1, Mem.set_other _ _ _ _ _ (fun e => h (Or.inr (Or.inr (Or.inl e)))), Mem.set_other _ _ _ _ _ (fun e => h (Or.inl e)),
      Mem.set_other _ _ _ _ _ (fun e => h (Or.inr (Or.inr (Or.inr e))))]
  have hnr : ∀ j, ¬ BfsTmp (.rowptr j) := by intro j; simp [BfsTmp]
  have hnc : ∀ j, ¬ BfsTmp (.colidx j) := by intro j; simp [BfsTmp]
  refine wp_rd ((A.ptr (s + 1) : Int) + base) trivial (by rw [hfr _ _ (hnr k)]; exact_mod_cast hpat.rowptr (s + 1) (by omega)) ?_
  refine wp_rd ((A.ptr s : Int) + base) trivial (by rw [hfr _ _ (hnr k)]; exact hpat.rowptr s (by omega)) ?_
  have hv : ((A.ptr (s + 1) : Int) + base - ((A.ptr s : Int) + base) : Int) = wS A.ptr (bfsEp A) [s] := by
    have : wS A.ptr (bfsEp A) [s] = rowWork A.ptr (bfsEp A) s := by simp [wS]
    rw [this, bfs_work]; omega
  rw [hv]
  refine wp_wr trivial ⟨by omega, by omega⟩ ?_
  rw [wp_pure]
  generalize hm2 : m1.set bufA 1 (wS A.ptr (bfsEp A) [s]) = m2
  have hfr2 : ∀ a i, ¬ BfsTmp a → m2 a i = m0 a i := by
    intro a i h
    rw [← hm2, Mem.set_other _ _ _ _ _ (fun e => h (Or.inr (Or.inr (Or.inl e))))]; exact hfr a i h
  let Qs : Nat → List Nat := fun t => if t = 0 then [s] else []
  have hflat : (List.range T).flatMap Qs = [s] := by
    obtain ⟨T', rfl⟩ : ∃ T', T = T' + 1 := ⟨T - 1, by omega⟩
    rw [List.range_succ_eq_map, List.flatMap_cons, List.flatMap_map]
    show [s] ++ _ = _
    rw [List.flatMap_eq_nil_iff.2 (fun t _ => if_neg (by omega))]; rfl
  have hbs : ∀ x : Nat, m2 bfsBits (x : Int) = if x = s then some (1 : Int) else m0 bfsBits (x : Int) := by
    intro x
    rw [← hm2, Mem.set_other _ _ _ _ _ (by simp), ← hm1, Mem.set_other _ _ _ _ _ (by simp), Mem.set_other _ _ _ _ _ (by simp)]
    by_cases e : x = s
    · subst e; rw [if_pos rfl, Mem.get_same]
    · rw [if_neg e, Mem.get_ne _ _ _ _ _ (by omega)]
  refine bfsLoop_ok wf hsq hT hoff hs hZ hq0 hq1 hrp hbits hinv (A.m + 2) 0 _ _ 0 Qs [] m2 (by omega) rfl ?_
  refine ⟨⟨fun i hi => ?_, fun i hi => ?_⟩, ?_, ?_, ?_, ?_, ?_, ?_, ?_, ?_, ?_, ?_, ?_, ?_, ?_, ?_, ?_⟩
  · rw [hfr2 _ _ (hnr k)]; exact hpat.rowptr i hi
  · rw [hfr2 _ _ (hnc k)]; exact hpat.colidx i hi
  · intro t
    show (if t < T then (if t = 0 then (1 : Int) else 0) else 0) = ((if t = 0 then [s] else [] : List Nat).length : Int)
    by_cases e : t = 0
    · subst e; rw [if_pos (by omega)]; rfl
    · rw [if_neg e, if_neg e]; split <;> rfl
  · intro t
    show (if t < T then (if t = 0 then _ else (0 : Int)) else 0) = wS A.ptr (bfsEp A) (if t = 0 then [s] else [])
    by_cases e : t = 0
    · subst e; rw [if_pos (by omega), if_pos rfl, if_pos rfl]
    · rw [if_neg e, if_neg e]; split <;> rfl
  · intro t ht; exact if_neg (by omega)
  · intro t ht
    show HoldsQ m2 10 _ (if t = 0 then [s] else [])
    by_cases e : t = 0
    · subst e
      rw [if_pos rfl]
      intro x y hx
      obtain rfl : x = 0 := by have := (List.getElem?_eq_some_iff.mp hx).1; simpa using this
      have hx : s = y := by simpa using hx
      subst hx
      rw [show ((0 : Nat) : Int) * A.m + ((0 : Nat) : Int) = 0 by simp, ← hm2, Mem.set_other _ _ _ _ _ (by simp), ← hm1,
        Mem.set_other _ _ _ _ _ (by simp)]
      exact Mem.get_same _ _ _ _
    · rw [if_neg e]; intro x y hx; simp at hx
  · intro t ht hne
    show HoldsRP m2 _ _ _ (if t = 0 then [s] else [])
    by_cases e : t = 0
    · subst e
      rw [if_pos rfl]
      intro x hx
      rcases (by simp at hx; omega : x = 0 ∨ x = 1) with rfl | rfl
      · rw [show ((0 : Nat) : Int) * A.m + ((0 : Nat) : Int) = 0 by simp, ← hm2, Mem.get_ne _ _ _ _ _ (by decide), ← hm1]
        exact Mem.get_same _ _ _ _
      · rw [show ((0 : Nat) : Int) * A.m + ((1 : Nat) : Int) = 1 by simp, ← hm2]
        exact Mem.get_same _ _ _ _
    · exact absurd (if_neg e) hne
  · rw [hflat]; exact List.nodup_singleton _
  · intro x; rw [hflat, List.mem_singleton, isDist_zero_iff]
  · intro x hx h
    rw [hbs]
    by_cases e : x = s
    · rw [if_pos e]
    · rw [if_neg e]
      rcases h with h | h
      · exact hone x hx h
      · exact absurd (near_zero.1 h) e
  · intro x hx h
    have e : x ≠ s := fun e => h (Or.inr (near_zero.2 e))
    rw [hbs, if_neg e]
    exact hzero x hx (fun h' => h (Or.inl h'))
  · intro x y hx; simp at hx
  · exact List.nodup_nil
  · intro x
    constructor
    · intro h; simp at h
    · rintro ⟨d, h, _⟩; omega
  · exact List.Pairwise.nil
  · exact Nat.le_refl _
  · intro a i h _; exact hfr2 a i h

end SpMP
