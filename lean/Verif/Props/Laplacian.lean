import Verif.Laplacian
import Mathlib.Algebra.Ring.Defs
/-
Property theorems C24 (27-point Laplacian generator).
-/

namespace SpMP.Props
open SpMP SpMP.Spec

variable {R : Type}

/-- The row of a grid point. -/
def gridRow (nx ny : Nat) (p : Nat × Nat × Nat) : Nat := (p.2.2 * ny + p.2.1) * nx + p.1

/-- Grid points (x, y, z). -/
def InGrid (nx ny nz : Nat) (p : Nat × Nat × Nat) : Prop := p.1 < nx ∧ p.2.1 < ny ∧ p.2.2 < nz

/-- Distance at most one in each coordinate. -/
def Near (p q : Nat × Nat × Nat) : Prop :=
  (p.1 ≤ q.1 + 1 ∧ q.1 ≤ p.1 + 1) ∧ (p.2.1 ≤ q.2.1 + 1 ∧ q.2.1 ≤ p.2.1 + 1) ∧ (p.2.2 ≤ q.2.2 + 1 ∧ q.2.2 ≤ p.2.2 + 1)

theorem gridRow_inj {nx ny nz : Nat} {p q : Nat × Nat × Nat} (hp : InGrid nx ny nz p) (hq : InGrid nx ny nz q)
    (h : gridRow nx ny p = gridRow nx ny q) : p = q := by
  obtain ⟨x, y, z⟩ := p
  obtain ⟨x', y', z'⟩ := q
  obtain ⟨h1, h2, h3⟩ := hp
  obtain ⟨h4, h5, h6⟩ := hq
  simp only at h1 h2 h3 h4 h5 h6
  have h : (z * ny + y) * nx + x = (z' * ny + y') * nx + x' := h
  have key : ∀ (a b a' b' n : Nat), b < n → b' < n → a * n + b = a' * n + b' → a = a' ∧ b = b' := by
    intro a b a' b' n hb hb' he
    have e1 : (a * n + b) / n = a := by rw [Nat.mul_comm, Nat.mul_add_div (by omega), Nat.div_eq_of_lt hb, Nat.add_zero]
    have e2 : (a' * n + b') / n = a' := by rw [Nat.mul_comm, Nat.mul_add_div (by omega), Nat.div_eq_of_lt hb', Nat.add_zero]
    have : a = a' := by rw [← e1, ← e2, he]
    subst this
    exact ⟨rfl, by omega⟩
  obtain ⟨e1, rfl⟩ := key _ _ _ _ _ h1 h4 h
  obtain ⟨rfl, rfl⟩ := key _ _ _ _ _ h2 h5 e1
  rfl

theorem gridRow_lt {nx ny nz : Nat} {p : Nat × Nat × Nat} (hp : InGrid nx ny nz p) : gridRow nx ny p < nx * ny * nz :=
  lap_index_lt hp.2.2 hp.2.1 hp.1

theorem nbr_sorted (N i : Nat) : (nbr N i).Pairwise (· < ·) := List.pairwise_lt_range'

theorem lapList_sorted {nx ny nz : Nat} {d o : R} {iz iy ix : Nat} :
    (lapList nx ny nz d o iz iy ix).Pairwise (fun x y => x.1 < y.1) := by
  unfold lapList
  rw [List.pairwise_flatMap]
  refine ⟨fun jz hz => ?_, ?_⟩
  · rw [List.pairwise_flatMap]
    refine ⟨fun jy hy => ?_, ?_⟩
    · rw [List.pairwise_map]
      exact (nbr_sorted _ _).imp (fun {a b} h => by show _ + a < _ + b; omega)
    · refine List.Pairwise.imp_of_mem ?_ (nbr_sorted ny iy)
      intro a b ha hb hab x hx y hy
      obtain ⟨jx, h1, rfl⟩ := List.mem_map.mp hx
      obtain ⟨jx', h2, rfl⟩ := List.mem_map.mp hy
      have := (mem_nbr.mp h1).2.2
      show (jz * ny + a) * nx + jx < (jz * ny + b) * nx + jx'
      have h3 : (jz * ny + a + 1) * nx ≤ (jz * ny + b) * nx := Nat.mul_le_mul_right _ (by omega)
      rw [Nat.add_mul _ 1] at h3
      omega
  · refine List.Pairwise.imp_of_mem ?_ (nbr_sorted nz iz)
    intro a b ha hb hab x hx y hy
    obtain ⟨jy, h0, hx⟩ := List.mem_flatMap.mp hx
    obtain ⟨jy', h0', hy⟩ := List.mem_flatMap.mp hy
    obtain ⟨jx, h1, rfl⟩ := List.mem_map.mp hx
    obtain ⟨jx', h2, rfl⟩ := List.mem_map.mp hy
    have q1 := (mem_nbr.mp h1).2.2
    have q2 := (mem_nbr.mp h0).2.2
    show (a * ny + jy) * nx + jx < (b * ny + jy') * nx + jx'
    have h4 : (a + 1) * ny ≤ b * ny := Nat.mul_le_mul_right _ hab
    rw [Nat.add_mul _ 1] at h4
    have h3 : (a * ny + jy + 1) * nx ≤ (b * ny + jy') * nx := Nat.mul_le_mul_right _ (by omega)
    rw [Nat.add_mul _ 1] at h3
    omega

/-- C24 for grids in which all or none of the three dimensions are 1: the generated object holds, in the requested base, a matrix
with one row per grid point; the row of `p` has strictly increasing columns, and exactly the entries 26 at `p` itself and -1 at
every other grid point within distance one in each coordinate; so the matrix is symmetric; the diagonal data of every row
describe its diagonal entry. -/
theorem C24_laplacian_partial [Ring R] [Div R] {k nx ny nz base : Nat} {m0 : Mem (CTy R)} (hx : nx = 1 ↔ nz = 1) (hy : ny = 1 ↔ nz = 1)
    (hb : base = 0 ∨ base = 1) :
    (laplacian k nx ny nz (26 : R) (-1) base).Ok m0 (fun _ m => ∃ A : Csr R, A.m = nx * ny * nz ∧ A.n = nx * ny * nz ∧ A.WF ∧
      HoldsPat m k base A ∧ HoldsVal m k A ∧
      (∀ p, InGrid nx ny nz p → (A.row (gridRow nx ny p)).Pairwise (fun x y => x.1 < y.1) ∧
        ∀ c v, (c, v) ∈ A.row (gridRow nx ny p) ↔
          ∃ q, InGrid nx ny nz q ∧ Near p q ∧ c = gridRow nx ny q ∧ v = if q = p then 26 else -1) ∧
      (∀ r c v, r < A.m → c < A.m → ((c, v) ∈ A.row r ↔ (r, v) ∈ A.row c)) ∧
      (∀ r, r < A.m → ∃ j, A.InRow r j ∧ A.col j = r ∧ m (.diagptr k) (r : Int) = some ((j : Int) + base) ∧
        m (.idiag k) (r : Int) = some (1 / A.val j) ∧ m (.diag k) (r : Int) = some (A.val j)) ∧
      ∀ a i, ¬ a.ofObj k → m a i = m0 a i) := by
  refine Script.Ok.mono (laplacian_ok hx hy hb) ?_
  rintro _ m ⟨h1, h2, h3, h4⟩
  have hmem : ∀ p, InGrid nx ny nz p → ∀ c v, (c, v) ∈ (lapCsr nx ny nz (26 : R) (-1)).row (gridRow nx ny p) ↔
      ∃ q, InGrid nx ny nz q ∧ Near p q ∧ c = gridRow nx ny q ∧ v = if q = p then 26 else -1 := by
    intro p hp c v
    have e : (lapCsr nx ny nz (26 : R) (-1)).row (gridRow nx ny p) = lapList nx ny nz 26 (-1) p.2.2 p.2.1 p.1 :=
      (Csr.ofRows_row (gridRow_lt hp)).trans (lapRows_eq hp.2.1 hp.1)
    rw [e, mem_lapList]
    constructor
    · rintro ⟨jz, jy, jx, g1, g2, g3, g4, g5⟩
      have hq : InGrid nx ny nz (jx, jy, jz) := ⟨g3.2.2, g2.2.2, g1.2.2⟩
      refine ⟨(jx, jy, jz), hq, ⟨⟨g3.1, g3.2.1⟩, ⟨g2.1, g2.2.1⟩, ⟨g1.1, g1.2.1⟩⟩, g4, ?_⟩
      rw [show v = _ from g5]
      by_cases hqp : (jx, jy, jz) = p
      · rw [if_pos hqp, if_pos (by rw [← hqp])]
      · rw [if_neg hqp, if_neg]
        intro he
        exact hqp (gridRow_inj hq hp he)
    · rintro ⟨⟨jx, jy, jz⟩, hq, ⟨n1, n2, n3⟩, rfl, rfl⟩
      refine ⟨jz, jy, jx, ⟨n3.1, n3.2, hq.2.2⟩, ⟨n2.1, n2.2, hq.2.1⟩, ⟨n1.1, n1.2, hq.1⟩, rfl, ?_⟩
      show (if _ then _ else _) = _
      by_cases hqp : (jx, jy, jz) = p
      · rw [if_pos hqp, if_pos (by rw [← hqp])]
      · rw [if_neg hqp, if_neg]
        intro he
        exact hqp (gridRow_inj hq hp he)
  have hpt : ∀ r, r < nx * ny * nz → ∃ p, InGrid nx ny nz p ∧ gridRow nx ny p = r := by
    intro r hr
    obtain ⟨c1, c2, c3, c4⟩ := lap_coords hr
    exact ⟨(r % nx, r / nx % ny, r / nx / ny), ⟨c3, c2, c1⟩, c4⟩
  refine ⟨lapCsr nx ny nz 26 (-1), rfl, rfl, lapCsr_wf _ _ _ _ _, h1, h2, ?_, ?_, ?_, h4⟩
  · intro p hp
    refine ⟨?_, hmem p hp⟩
    have e : (lapCsr nx ny nz (26 : R) (-1)).row (gridRow nx ny p) = lapList nx ny nz 26 (-1) p.2.2 p.2.1 p.1 :=
      (Csr.ofRows_row (gridRow_lt hp)).trans (lapRows_eq hp.2.1 hp.1)
    rw [e]; exact lapList_sorted
  · intro r c v hr hc
    obtain ⟨p, hp, rfl⟩ := hpt r hr
    obtain ⟨q, hq, rfl⟩ := hpt c hc
    rw [hmem p hp, hmem q hq]
    constructor
    · rintro ⟨q', g1, g2, g3, g4⟩
      obtain rfl := gridRow_inj hq g1 g3
      refine ⟨p, hp, ?_, rfl, ?_⟩
      · unfold Near at g2 ⊢; omega
      · rw [g4]
        by_cases h : q = p
        · rw [if_pos h, if_pos h.symm]
        · rw [if_neg h, if_neg (fun h' => h h'.symm)]
    · rintro ⟨q', g1, g2, g3, g4⟩
      obtain rfl := gridRow_inj hp g1 g3
      refine ⟨q, hq, ?_, rfl, ?_⟩
      · unfold Near at g2 ⊢; omega
      · rw [g4]
        by_cases h : q = p
        · rw [if_pos h, if_pos h.symm]
        · rw [if_neg h, if_neg (fun h' => h h'.symm)]
  · intro r hr
    obtain ⟨j, q1, q2, q3, q4, q5, q6⟩ := h3 r hr
    exact ⟨j, q1, q2, q4, by rw [q3]; exact q5, by rw [q3]; exact q6⟩

/-- C24 is false for flat grids: for a 2 x 1 x 1 grid the row pointers count one entry per row (Laplacian.cpp:73-76 test nz
instead of nx and ny) and the fill loop writes past the end of the arrays. -/
theorem C24_flat_false :
    ¬ (∀ (nx ny nz : Nat) (m0 : Mem (CTy Int)), 1 ≤ nx → 1 ≤ ny → 1 ≤ nz →
      (laplacian 0 nx ny nz 26 (-1) 0).Ok m0 (fun _ _ => True)) := by
  intro h
  have h1 := (h 2 1 1 (fun _ _ => none) (by decide) (by decide) (by decide)).not_runUB
  rw [show Script.runUB _ _ = true from rfl] at h1
  cases h1

/-- The other direction: a 1 x 1 x 2 grid gets row pointers for 16 entries, although its matrix has 4. -/
theorem C24_thin_false :
    ¬ (∀ (nx ny nz : Nat) (m0 : Mem (CTy Int)), 1 ≤ nx → 1 ≤ ny → 1 ≤ nz →
      (laplacian 0 nx ny nz 26 (-1) 0).Ok m0 (fun _ m => (nx, ny, nz) = (1, 1, 2) → m (.rowptr 0) 2 = some (4 : Int))) := by
  intro h
  have h1 := (h 1 1 2 (fun _ _ => none) (by decide) (by decide) (by decide)).run
  obtain ⟨r, m', h3, h4⟩ : ∃ r m', (laplacian (R := Int) 0 1 1 2 26 (-1) 0).run (fun _ _ => none) = some (r, m') ∧
    m' (.rowptr 0) 2 = some (16 : Int) := ⟨_, _, rfl, rfl⟩
  have := h1 _ _ h3 rfl
  rw [h4] at this
  exact absurd this (by decide)

-- a 2 x 3 x 2 grid, 1-based
example : (laplacian 0 2 3 2 (26 : Int) (-1) (1 : Nat)).Ok (fun _ _ => none) (fun _ m => ∃ A : Csr Int, A.m = 12 ∧ HoldsPat m 0 1 A) :=
  Script.Ok.mono (C24_laplacian_partial (by decide) (by decide) (Or.inr rfl)) (by rintro _ m ⟨A, h1, _, _, h2, _⟩; exact ⟨A, h1, h2⟩)

end SpMP.Props
