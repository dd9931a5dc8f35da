import Verif.Props.Laplacian
import Verif.Props.Permute
import Verif.Spec.Pcg
import Mathlib.Algebra.Order.BigOperators.Ring.Finset
import Mathlib.Algebra.BigOperators.Ring.Finset
import Mathlib.Tactic.Linarith
import Mathlib.Tactic.Positivity
/-
C24: the generated matrix is symmetric and positive definite.
-/
namespace SpMP.Props
open SpMP SpMP.Spec Finset

/-- The energy of a symmetric adjacency with at most 27 neighbours each. -/
theorem energy_eq {R : Type} [CommRing R] {n : Nat} {C : Nat → Finset Nat} (hsub : ∀ r, r < n → C r ⊆ range n)
    (hsym : ∀ r c, r < n → c < n → (c ∈ C r ↔ r ∈ C c)) (x : Nat → R) :
    2 * ∑ r ∈ range n, x r * (27 * x r - ∑ c ∈ C r, x c) =
      ∑ r ∈ range n, 2 * (27 - ((C r).card : R)) * (x r * x r) +
        ∑ r ∈ range n, ∑ c ∈ C r, (x r - x c) * (x r - x c) := by
  have hswap : ∑ r ∈ range n, ∑ c ∈ C r, x c * x c = ∑ r ∈ range n, ((C r).card : R) * (x r * x r) := by
    have h1 : ∑ r ∈ range n, ∑ c ∈ C r, x c * x c = ∑ c ∈ range n, ∑ r ∈ C c, x c * x c := by
      refine Finset.sum_comm' ?_
      intro r c
      simp only [mem_range]
      constructor
      · rintro ⟨hr, hc⟩
        have hcn := mem_range.1 (hsub r hr hc)
        exact ⟨(hsym r c hr hcn).1 hc, hcn⟩
      · rintro ⟨hr, hc⟩
        have hrn := mem_range.1 (hsub c hc hr)
        exact ⟨hrn, (hsym r c hrn hc).2 hr⟩
    rw [h1]
    refine Finset.sum_congr rfl fun c _ => ?_
    rw [Finset.sum_const, nsmul_eq_mul]
  have hexp : ∑ r ∈ range n, ∑ c ∈ C r, (x r - x c) * (x r - x c) =
      ∑ r ∈ range n, ((C r).card : R) * (x r * x r) - 2 * ∑ r ∈ range n, x r * ∑ c ∈ C r, x c +
        ∑ r ∈ range n, ∑ c ∈ C r, x c * x c := by
    rw [Finset.mul_sum, ← Finset.sum_sub_distrib, ← Finset.sum_add_distrib]
    refine Finset.sum_congr rfl fun r _ => ?_
    rw [Finset.mul_sum, Finset.mul_sum, ← nsmul_eq_mul, ← Finset.sum_const, ← Finset.sum_sub_distrib, ← Finset.sum_add_distrib]
    exact Finset.sum_congr rfl fun c _ => by ring
  rw [hexp, hswap]
  have e1 : ∑ r ∈ range n, x r * (27 * x r - ∑ c ∈ C r, x c) =
      27 * ∑ r ∈ range n, x r * x r - ∑ r ∈ range n, x r * ∑ c ∈ C r, x c := by
    rw [Finset.mul_sum, ← Finset.sum_sub_distrib]
    exact Finset.sum_congr rfl fun r _ => by ring
  have e2 : ∑ r ∈ range n, 2 * (27 - ((C r).card : R)) * (x r * x r) =
      54 * ∑ r ∈ range n, x r * x r - 2 * ∑ r ∈ range n, ((C r).card : R) * (x r * x r) := by
    rw [Finset.mul_sum, Finset.mul_sum, ← Finset.sum_sub_distrib]
    exact Finset.sum_congr rfl fun r _ => by ring
  rw [e1, e2]
  ring

/-- It is positive, unless the vector is zero, if every point is linked to one with fewer neighbours. -/
theorem energy_pos {R : Type} [Field R] [LinearOrder R] [IsStrictOrderedRing R] {n : Nat} {C : Nat → Finset Nat}
    (hsub : ∀ r, r < n → C r ⊆ range n)
    (hsym : ∀ r c, r < n → c < n → (c ∈ C r ↔ r ∈ C c)) (hcard : ∀ r, r < n → (C r).card ≤ 27) {x : Nat → R}
    (hconn : (∀ r, r < n → (C r).card < 27 → x r = 0) → (∀ r, r < n → ∀ c ∈ C r, x r = x c) → ∀ r, r < n → x r = 0)
    (hx : ∃ i, i < n ∧ x i ≠ 0) : 0 < ∑ r ∈ range n, x r * (27 * x r - ∑ c ∈ C r, x c) := by
  have h1 : ∀ r ∈ range n, 0 ≤ 2 * (27 - ((C r).card : R)) * (x r * x r) := by
    intro r hr
    have : ((C r).card : R) ≤ 27 := by exact_mod_cast hcard r (mem_range.1 hr)
    exact mul_nonneg (by linarith) (mul_self_nonneg _)
  have h2 : ∀ r ∈ range n, 0 ≤ ∑ c ∈ C r, (x r - x c) * (x r - x c) := fun r _ =>
    Finset.sum_nonneg fun c _ => mul_self_nonneg _
  have he := energy_eq hsub hsym x
  have s1 := Finset.sum_nonneg h1
  have s2 := Finset.sum_nonneg h2
  rcases lt_or_eq_of_le (show 0 ≤ ∑ r ∈ range n, x r * (27 * x r - ∑ c ∈ C r, x c) by linarith) with h | h
  · exact h
  · exfalso
    rw [← h] at he
    have z1 := (Finset.sum_eq_zero_iff_of_nonneg h1).1 (by linarith)
    have z2 := (Finset.sum_eq_zero_iff_of_nonneg h2).1 (by linarith)
    obtain ⟨i, hi, hxi⟩ := hx
    refine hxi (hconn ?_ ?_ i hi)
    · intro r hr hc
      have hc' : ((C r).card : R) < 27 := by exact_mod_cast hc
      have := z1 r (mem_range.2 hr)
      rcases mul_eq_zero.1 this with h | h
      · exfalso; linarith
      · exact mul_self_eq_zero.1 h
    · intro r hr c hc
      have := (Finset.sum_eq_zero_iff_of_nonneg (fun c _ => mul_self_nonneg (x r - x c))).1 (z2 r (mem_range.2 hr)) c hc
      exact sub_eq_zero.1 (mul_self_eq_zero.1 this)

/-- The columns of the row of a grid point. -/
def lapCols (nx ny nz r : Nat) : Finset Nat := ((lapRows nx ny nz (26 : Int) (-1) r).map (·.1)).toFinset

section
variable {nx ny nz : Nat}

theorem lapRows_cols {R : Type} (d o : R) (r : Nat) :
    ((lapRows nx ny nz d o r).map (·.1)).toFinset = lapCols nx ny nz r := by
  unfold lapCols lapRows lapList
  simp only [List.map_flatMap, List.map_map, Function.comp_def]

theorem mem_lapCols {p : Nat × Nat × Nat} (hp : InGrid nx ny nz p) {c : Nat} :
    c ∈ lapCols nx ny nz (gridRow nx ny p) ↔ ∃ q, InGrid nx ny nz q ∧ Near p q ∧ c = gridRow nx ny q := by
  unfold lapCols
  rw [List.mem_toFinset, List.mem_map, show lapRows nx ny nz (26 : Int) (-1) (gridRow nx ny p) = _ from lapRows_eq hp.2.1 hp.1]
  constructor
  · rintro ⟨e, he, rfl⟩
    obtain ⟨jz, jy, jx, g1, g2, g3, g4, _⟩ := mem_lapList.1 he
    exact ⟨(jx, jy, jz), ⟨g3.2.2, g2.2.2, g1.2.2⟩, ⟨⟨g3.1, g3.2.1⟩, ⟨g2.1, g2.2.1⟩, ⟨g1.1, g1.2.1⟩⟩, g4⟩
  · rintro ⟨⟨jx, jy, jz⟩, hq, ⟨n1, n2, n3⟩, rfl⟩
    exact ⟨(_, _), mem_lapList.2 ⟨jz, jy, jx, ⟨n3.1, n3.2, hq.2.2⟩, ⟨n2.1, n2.2, hq.2.1⟩, ⟨n1.1, n1.2, hq.1⟩, rfl, rfl⟩, rfl⟩

theorem grid_point {r : Nat} (hr : r < nx * ny * nz) : ∃ p, InGrid nx ny nz p ∧ gridRow nx ny p = r := by
  obtain ⟨c1, c2, c3, c4⟩ := lap_coords hr
  exact ⟨(r % nx, r / nx % ny, r / nx / ny), ⟨c3, c2, c1⟩, c4⟩

theorem lapCols_sub (r : Nat) : lapCols nx ny nz r ⊆ range (nx * ny * nz) := by
  intro c hc
  unfold lapCols at hc
  rw [List.mem_toFinset, List.mem_map] at hc
  obtain ⟨e, he, rfl⟩ := hc
  exact mem_range.2 (lapRows_lt he)

theorem lapCols_symm {r c : Nat} (hr : r < nx * ny * nz) (hc : c < nx * ny * nz) :
    c ∈ lapCols nx ny nz r ↔ r ∈ lapCols nx ny nz c := by
  obtain ⟨p, hp, rfl⟩ := grid_point hr
  obtain ⟨q, hq, rfl⟩ := grid_point hc
  rw [mem_lapCols hp, mem_lapCols hq]
  constructor
  · rintro ⟨q', g1, g2, g3⟩
    obtain rfl := gridRow_inj hq g1 g3
    exact ⟨p, hp, by unfold Near at g2 ⊢; omega, rfl⟩
  · rintro ⟨q', g1, g2, g3⟩
    obtain rfl := gridRow_inj hp g1 g3
    exact ⟨q, hq, by unfold Near at g2 ⊢; omega, rfl⟩

theorem nbr_le (N i : Nat) : (nbr N i).length ≤ 3 ∧ (i = 0 → (nbr N i).length ≤ 2) := by
  unfold nbr
  rw [List.length_range']
  omega

theorem lapCols_card {p : Nat × Nat × Nat} (hp : InGrid nx ny nz p) :
    (lapCols nx ny nz (gridRow nx ny p)).card ≤ 27 ∧ (p.1 = 0 → (lapCols nx ny nz (gridRow nx ny p)).card < 27) := by
  have h : (lapCols nx ny nz (gridRow nx ny p)).card ≤ (nbr nx p.1).length * ((nbr ny p.2.1).length * (nbr nz p.2.2).length) := by
    unfold lapCols
    rw [show lapRows nx ny nz (26 : Int) (-1) (gridRow nx ny p) = _ from lapRows_eq hp.2.1 hp.1]
    refine Nat.le_trans (List.toFinset_card_le _) ?_
    rw [List.length_map, lapList_length]
  have a := nbr_le nx p.1
  have b := nbr_le ny p.2.1
  have c := nbr_le nz p.2.2
  have hbc : (nbr ny p.2.1).length * (nbr nz p.2.2).length ≤ 3 * 3 := Nat.mul_le_mul b.1 c.1
  refine ⟨Nat.le_trans h (Nat.mul_le_mul a.1 hbc), fun h0 => ?_⟩
  exact Nat.lt_of_le_of_lt (Nat.le_trans h (Nat.mul_le_mul (a.2 h0) hbc)) (by decide)

/-- Following the first coordinate down to the boundary. -/
theorem lap_conn {R : Type} [Zero R] {x : Nat → R}
    (h0 : ∀ r, r < nx * ny * nz → (lapCols nx ny nz r).card < 27 → x r = 0)
    (h1 : ∀ r, r < nx * ny * nz → ∀ c ∈ lapCols nx ny nz r, x r = x c) :
    ∀ a b c, InGrid nx ny nz (a, b, c) → x (gridRow nx ny (a, b, c)) = 0 := by
  intro a
  induction a with
  | zero => exact fun b c hp => h0 _ (gridRow_lt hp) ((lapCols_card hp).2 rfl)
  | succ a ih =>
    intro b c hp
    have hq : InGrid nx ny nz (a, b, c) := ⟨Nat.lt_of_succ_lt hp.1, hp.2⟩
    rw [h1 _ (gridRow_lt hp) (gridRow nx ny (a, b, c)) ((mem_lapCols hp).2 ⟨_, hq, by unfold Near; dsimp only; omega, rfl⟩)]
    exact ih b c hq

theorem lapRows_nodup {R : Type} (d o : R) (r : Nat) : ((lapRows nx ny nz d o r).map (·.1)).Nodup := by
  unfold List.Nodup
  rw [List.pairwise_map]
  exact List.Pairwise.imp (fun {a b : Nat × R} (h : a.1 < b.1) => Nat.ne_of_lt h) lapList_sorted

theorem lapRows_val {R : Type} {d o : R} {r : Nat} (hr : r < nx * ny * nz) {e : Nat × R} (he : e ∈ lapRows nx ny nz d o r) :
    e.2 = if e.1 = r then d else o := by
  obtain ⟨_, _, _, c4⟩ := lap_coords hr
  obtain ⟨jz, jy, jx, _, _, _, g4, g5⟩ := mem_lapList.1 he
  rw [c4, ← g4] at g5
  exact g5

theorem lap_mulVec {R : Type} [CommRing R] {r : Nat} (hr : r < nx * ny * nz) (x : Nat → R) :
    (lapCsr nx ny nz (26 : R) (-1)).mulVec x r = 27 * x r - ∑ c ∈ lapCols nx ny nz r, x c := by
  rw [mulVec_eq_row (lapCsr_wf _ _ _ _ _) hr, show (lapCsr nx ny nz (26 : R) (-1)).row r = _ from Csr.ofRows_row hr]
  have e1 : (lapRows nx ny nz (26 : R) (-1) r).map (fun e => e.2 * x e.1) =
      ((lapRows nx ny nz (26 : R) (-1) r).map (·.1)).map fun c => (if c = r then 27 * x c else 0) - x c := by
    rw [List.map_map]
    refine List.map_congr_left fun e he => ?_
    rw [lapRows_val hr he, Function.comp_apply]
    split_ifs <;> ring
  rw [e1, ← List.sum_toFinset _ (lapRows_nodup _ _ _), lapRows_cols, Finset.sum_sub_distrib, Finset.sum_ite_eq' , if_pos]
  obtain ⟨p, hp, rfl⟩ := grid_point hr
  exact (mem_lapCols hp).2 ⟨p, hp, by unfold Near; omega, rfl⟩

theorem lap_entry {R : Type} [CommRing R] {r c : Nat} (hr : r < nx * ny * nz) :
    (lapCsr nx ny nz (26 : R) (-1)).entry r c = if c ∈ lapCols nx ny nz r then (if c = r then 26 else -1) else 0 := by
  unfold Csr.entry
  rw [show (lapCsr nx ny nz (26 : R) (-1)).row r = _ from Csr.ofRows_row hr]
  have key : ∀ l : List (Nat × R), (l.map (·.1)).Nodup → (∀ e ∈ l, e.2 = if e.1 = r then 26 else -1) →
      ((l.filter fun e => e.1 = c).map (·.2)).sum = if c ∈ (l.map (·.1)).toFinset then (if c = r then 26 else -1) else 0 := by
    intro l
    induction l with
    | nil => intro _ _; simp
    | cons a l ih =>
      intro hn hv
      rw [List.map_cons, List.nodup_cons] at hn
      have ih := ih hn.2 fun e he => hv e (List.mem_cons_of_mem _ he)
      have hva := hv a List.mem_cons_self
      by_cases hac : a.1 = c
      · have hz : c ∉ (l.map (·.1)).toFinset := by rw [List.mem_toFinset, ← hac]; exact hn.1
        rw [if_neg hz] at ih
        have hm : c ∈ ((a :: l).map (·.1)).toFinset := by rw [List.mem_toFinset, ← hac]; exact List.mem_cons_self
        rw [if_pos hm, List.filter_cons_of_pos (by simp [hac]), List.map_cons, List.sum_cons, ih, add_zero, hva, hac]
      · rw [List.filter_cons_of_neg (by simp [hac]), ih]
        have : c ∈ ((a :: l).map (·.1)).toFinset ↔ c ∈ (l.map (·.1)).toFinset := by
          simp only [List.mem_toFinset, List.map_cons, List.mem_cons]
          exact ⟨fun h => h.resolve_left (fun h => hac h.symm), Or.inr⟩
        simp only [this]
  rw [key _ (lapRows_nodup _ _ _) (fun e he => lapRows_val hr he), lapRows_cols]

theorem lap27_symm {R : Type} [CommRing R] : (lapCsr nx ny nz (26 : R) (-1)).Symm := by
  intro i c hi hc
  rw [lap_entry hi, lap_entry hc]
  simp only [lapCols_symm hi hc, eq_comm]

theorem lap27_posDef {R : Type} [Field R] [LinearOrder R] [IsStrictOrderedRing R] : (lapCsr nx ny nz (26 : R) (-1)).PosDef := by
  intro x hne
  unfold dotN
  rw [Finset.sum_congr rfl fun r hr => by rw [lap_mulVec (mem_range.1 hr) x]]
  refine energy_pos (fun r _ => lapCols_sub r) (fun r c => lapCols_symm) (fun r hr => ?_) (fun g0 g1 r hr => ?_) hne
  · obtain ⟨p, hp, rfl⟩ := grid_point hr
    exact (lapCols_card hp).1
  · obtain ⟨⟨a, b, c⟩, hp, rfl⟩ := grid_point hr
    exact lap_conn g0 g1 a b c hp

theorem lap_inv {R : Type} [Field R] [LinearOrder R] [IsStrictOrderedRing R] {i : Nat} (hi : i < nx * ny * nz) :
    1 / 26 * (lapCsr nx ny nz (26 : R) (-1)).entry i i = 1 := by
  obtain ⟨p, hp, rfl⟩ := grid_point hi
  rw [lap_entry hi, if_pos ((mem_lapCols hp).2 ⟨p, hp, by unfold Near; omega, rfl⟩), if_pos rfl]
  exact div_mul_cancel₀ 1 (by norm_num)

end

/-- C24, for the grids of `C24_laplacian_partial`: what the generator leaves in memory is a symmetric positive definite matrix with
a nonzero diagonal whose inverse is stored, in exact arithmetic; so the conjugate gradient methods of C60 to C62 may be used on it. -/
theorem C24_spd_partial {R : Type} [Field R] [LinearOrder R] [IsStrictOrderedRing R] {k nx ny nz base : Nat} {m0 : Mem (CTy R)}
    (hx : nx = 1 ↔ nz = 1) (hy : ny = 1 ↔ nz = 1) (hb : base = 0 ∨ base = 1) :
    (laplacian k nx ny nz (26 : R) (-1) base).Ok m0 (fun _ m => ∃ A : Csr R, A.m = nx * ny * nz ∧ A.n = A.m ∧ A.WF ∧
      HoldsPat m k base A ∧ HoldsVal m k A ∧ A.Symm ∧ A.PosDef ∧
      ∀ i : Nat, i < A.m → ∃ e : R, m (.idiag k) (i : Int) = some e ∧ e * A.entry i i = 1) := by
  refine Script.Ok.mono (laplacian_ok hx hy hb) ?_
  rintro _ m ⟨h1, h2, h3, _⟩
  refine ⟨lapCsr nx ny nz 26 (-1), rfl, rfl, lapCsr_wf _ _ _ _ _, h1, h2, lap27_symm, lap27_posDef, fun i hi => ?_⟩
  obtain ⟨j, _, _, _, _, q, _⟩ := h3 i hi
  exact ⟨_, q, lap_inv hi⟩

-- a 3 x 2 x 4 grid
example : (laplacian 0 3 2 4 (26 : Rat) (-1) (0 : Nat)).Ok (fun _ _ => none) (fun _ m => ∃ A : Csr Rat, A.m = 24 ∧ HoldsVal m 0 A ∧ A.PosDef) :=
  Script.Ok.mono (C24_spd_partial (by decide) (by decide) (Or.inl rfl))
    (by rintro _ m ⟨A, h1, _, _, _, h2, _, h3, _⟩; exact ⟨A, h1, h2, h3⟩)

end SpMP.Props
