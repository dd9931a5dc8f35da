import Verif.RowsMem
import Verif.RowTeam
import Verif.BinFile
import Mathlib.Tactic.Ring
import Mathlib.Tactic.Linarith
/-
The 27-point Laplacian generator (/repo/Laplacian.cpp:30-139, without LOWER_TRIANGULAR).
-/

namespace SpMP
open Spec

set_option linter.unusedSectionVars false

variable {R : Type} [Races CArr]

/-- Laplacian.cpp:68-83: row pointers of object `k`; the result is the number of entries. Note that all three counts test
`nz == 1`, as the code does. -/
def lapCount (k nx ny nz : Nat) : Prog (CTy R) Int := do
  Prog.write (ty := CTy R) (.rowptr k) 0 (0 : Int)
  Prog.forUp (ty := CTy R) 0 (nz : Int) (0 : Int) fun iz idx =>
    let dz : Int := if iz ≥ 1 ∧ iz < (nz : Int) - 1 then 3 else if nz = 1 then 1 else 2
    Prog.forUp (ty := CTy R) 0 (ny : Int) idx fun iy idx =>
      let dy : Int := (if iy ≥ 1 ∧ iy < (ny : Int) - 1 then 3 else if nz = 1 then 1 else 2) * dz
      Prog.forUp (ty := CTy R) 0 (nx : Int) idx fun ix idx => do
        let row : Int := (iz * ny + iy) * nx + ix
        let dx : Int := if ix ≥ 1 ∧ ix < (nx : Int) - 1 then 3 else if nz = 1 then 1 else 2
        let idx := idx + dx * dy
        Prog.write (ty := CTy R) (.rowptr k) (row + 1) idx
        pure idx

/-- Laplacian.cpp:104-121, one entry; `d` is 26.0 and `o` is -1. -/
def lapEntry [One R] [Div R] (k : Nat) (d o : R) (row col idx : Int) : Prog (CTy R) Int := do
  let _ ← (if col = row then do
      Prog.write (ty := CTy R) (.diag k) row d
      Prog.write (ty := CTy R) (.values k) idx d
      Prog.write (ty := CTy R) (.idiag k) row (1 / d)
      Prog.write (ty := CTy R) (.diagptr k) row idx
    else Prog.write (ty := CTy R) (.values k) idx o : Prog (CTy R) Unit)
  Prog.write (ty := CTy R) (.colidx k) idx col
  pure (idx + 1)

/-- Laplacian.cpp:96-124, one row. -/
def lapRowProg [One R] [Div R] (k nx ny nz : Nat) (d o : R) (iz iy ix : Int) : Prog (CTy R) Unit := do
  let row : Int := (iz * ny + iy) * nx + ix
  let szB : Int := if iz ≤ 0 then 0 else -1
  let szE : Int := if iz ≥ (nz : Int) - 1 then 0 else 1
  let syB : Int := if iy ≤ 0 then 0 else -1
  let syE : Int := if iy ≥ (ny : Int) - 1 then 0 else 1
  let sxB : Int := if ix ≤ 0 then 0 else -1
  let sxE : Int := if ix ≥ (nx : Int) - 1 then 0 else 1
  let idx ← Prog.read (ty := CTy R) (.rowptr k) row
  let _ ← Prog.forUp (ty := CTy R) szB (szE + 1) (idx : Int) fun sz idx =>
    Prog.forUp (ty := CTy R) syB (syE + 1) idx fun sy idx =>
      Prog.forUp (ty := CTy R) sxB (sxE + 1) idx fun sx idx =>
        lapEntry k d o row (row + (sz * ny + sy) * nx + sx) idx
  pure ()

/-- Laplacian.cpp:30-135; `mem` is the number of entries allocated for colidx and values after the count. The parallel loop is
collapse(2): one iteration per (iz, iy). The final assert compares the counting loop's `idx` with the copy taken of it. -/
def laplacian [One R] [Div R] (k nx ny nz : Nat) (d o : R) (base : Int) : Script (CTy R) Unit :=
  Script.seq (csrSize k (nx * ny * nz) 0 allOpt) (lapCount k nx ny nz) fun idx =>
  .phase (csrSize k (nx * ny * nz) idx.toNat allOpt) (nz * ny) (fun u =>
    Prog.forUp (ty := CTy R) 0 (nx : Int) () fun ix _ => lapRowProg k nx ny nz d o ((u / ny : Nat) : Int) ((u % ny : Nat) : Int) ix) fun _ =>
  if base = 1 then make1Based (csrSize k (nx * ny * nz) idx.toNat allOpt) k (nx * ny * nz) allOpt
  else Script.seq (csrSize k (nx * ny * nz) idx.toNat allOpt) (Prog.assert (base = 0)) fun _ => .done ()

/-! ### Proofs -/

/-- The neighbours of coordinate `i` in `0 .. N-1`, in order. -/
def nbr (N i : Nat) : List Nat := List.range' (i - 1) (min (i + 2) N - (i - 1))

def lapList (nx ny nz : Nat) (d o : R) (iz iy ix : Nat) : List (Nat × R) :=
  (nbr nz iz).flatMap fun jz => (nbr ny iy).flatMap fun jy => (nbr nx ix).map fun jx =>
    ((jz * ny + jy) * nx + jx, if (jz * ny + jy) * nx + jx = (iz * ny + iy) * nx + ix then d else o)

def lapRows (nx ny nz : Nat) (d o : R) (r : Nat) : List (Nat × R) := lapList nx ny nz d o (r / nx / ny) (r / nx % ny) (r % nx)

theorem lapRows_eq {nx ny nz : Nat} {d o : R} {iz iy ix : Nat} (hy : iy < ny) (hx : ix < nx) :
    lapRows nx ny nz d o ((iz * ny + iy) * nx + ix) = lapList nx ny nz d o iz iy ix := by
  have e1 : ((iz * ny + iy) * nx + ix) / nx = iz * ny + iy := by
    rw [Nat.mul_comm, Nat.mul_add_div (by omega), Nat.div_eq_of_lt hx, Nat.add_zero]
  have e2 : ((iz * ny + iy) * nx + ix) % nx = ix := by rw [Nat.mul_comm, Nat.mul_add_mod, Nat.mod_eq_of_lt hx]
  have e3 : (iz * ny + iy) / ny = iz := by
    rw [Nat.mul_comm, Nat.mul_add_div (by omega), Nat.div_eq_of_lt hy, Nat.add_zero]
  have e4 : (iz * ny + iy) % ny = iy := by rw [Nat.mul_comm, Nat.mul_add_mod, Nat.mod_eq_of_lt hy]
  unfold lapRows
  rw [e1, e2, e3, e4]

theorem nbr_length {N i : Nat} (h : i < N) :
    (nbr N i).length = (if i ≥ 1 ∧ i < N - 1 then 3 else if N = 1 then 1 else 2) := by
  unfold nbr
  rw [List.length_range']
  split_ifs <;> omega

theorem flatMap_length_const {α β : Type} {f : α → List β} {c : Nat} (l : List α) (h : ∀ a ∈ l, (f a).length = c) :
    (l.flatMap f).length = l.length * c := by
  induction l with
  | nil => simp
  | cons a l ih =>
    rw [List.flatMap_cons, List.length_append, ih (fun b hb => h b (List.mem_cons_of_mem _ hb)), h a List.mem_cons_self,
      List.length_cons, Nat.add_mul, Nat.one_mul, Nat.add_comm]

theorem lapList_length {nx ny nz : Nat} {d o : R} {iz iy ix : Nat} :
    (lapList nx ny nz d o iz iy ix).length = (nbr nx ix).length * ((nbr ny iy).length * (nbr nz iz).length) := by
  unfold lapList
  rw [flatMap_length_const (c := (nbr ny iy).length * (nbr nx ix).length) _ ?_]
  · ring
  · intro jz _
    rw [flatMap_length_const (c := (nbr nx ix).length) _ ?_]
    intro jy _
    rw [List.length_map]

section
variable {sz : CArr → Int} {W Rd : CArr → Int → Prop}

theorem wp_lapCount {k nx ny nz : Nat} {d o : R} {m0 : Mem (CTy R)} {Q : Int → Mem (CTy R) → Prop} (hW : ∀ a i, W a i)
    (hx : nx = 1 ↔ nz = 1) (hy : ny = 1 ↔ nz = 1) (hs : ((nx * ny * nz : Nat) : Int) + 1 ≤ sz (.rowptr k))
    (hQ : ∀ m, (∀ r : Nat, r ≤ nx * ny * nz → m (.rowptr k) (r : Int) = some (rowStart (lapRows nx ny nz d o) r : Int)) →
      (∀ a i, a ≠ .rowptr k → m a i = m0 a i) → Q (rowStart (lapRows nx ny nz d o) (nx * ny * nz) : Int) m) :
    wp sz W Rd (lapCount k nx ny nz) m0 Q := by
  unfold lapCount
  have hpos : (0 : Int) ≤ ((nx * ny * nz : Nat) : Int) := Int.natCast_nonneg _
  refine wp_wr (hW _ _) ⟨by omega, by omega⟩ ?_
  let P := rowStart (lapRows nx ny nz d o)
  let I : Nat → Int → Mem (CTy R) → Prop := fun r idx m => idx = (P r : Int) ∧
    (∀ q : Nat, q ≤ r → m (.rowptr k) (q : Int) = some (P q : Int)) ∧ ∀ a i, a ≠ .rowptr k → m a i = m0 a i
  refine wp_forN (b := 0) (lo := 0) (hi := nz) (fun iz idx m => I (iz * ny * nx) idx m) (Nat.zero_le _) ?_ ?_ ?_ (by simp) (by simp)
  · refine ⟨by simp [P, rowStart], ?_, ?_⟩
    · intro q hq
      obtain rfl : q = 0 := by omega
      rw [Int.natCast_zero, Mem.get_same]; rfl
    · intro a i ha; exact congrFun (Mem.set_other _ _ _ _ _ ha) _
  · intro iz idx m _ hz hI
    rw [Int.add_zero]
    refine wp_forN (b := 0) (lo := 0) (hi := ny) (fun iy idx m => I ((iz * ny + iy) * nx) idx m) (Nat.zero_le _) (by simpa using hI) ?_ ?_
      (by simp) (by simp)
    · intro iy idx m _ hy' hI
      rw [Int.add_zero]
      refine wp_forN (b := 0) (lo := 0) (hi := nx) (fun ix idx m => I ((iz * ny + iy) * nx + ix) idx m) (Nat.zero_le _) (by simpa using hI) ?_ ?_
        (by simp) (by simp)
      · rintro ix idx m _ hx' ⟨rfl, h2, h3⟩
        rw [Int.add_zero]
        have hrow : (iz * ny + iy) * nx + ix < nx * ny * nz := by
          have h1 : iz * ny + iy + 1 ≤ nz * ny := by nlinarith
          have h2 : (iz * ny + iy + 1) * nx ≤ nz * ny * nx := Nat.mul_le_mul_right _ h1
          nlinarith
        have hlen : (P ((iz * ny + iy) * nx + ix + 1) : Int) = P ((iz * ny + iy) * nx + ix) +
            (if (ix : Int) ≥ 1 ∧ (ix : Int) < (nx : Int) - 1 then 3 else if nz = 1 then 1 else 2) *
            ((if (iy : Int) ≥ 1 ∧ (iy : Int) < (ny : Int) - 1 then 3 else if nz = 1 then 1 else 2) *
              (if (iz : Int) ≥ 1 ∧ (iz : Int) < (nz : Int) - 1 then 3 else if nz = 1 then 1 else 2)) := by
          show ((rowStart (lapRows nx ny nz d o) ((iz * ny + iy) * nx + ix + 1) : Nat) : Int) = _
          rw [rowStart_succ, lapRows_eq hy' hx', lapList_length, nbr_length hz, nbr_length hy', nbr_length hx']
          push_cast
          have g : ∀ (i N : Nat), i < N → (N = 1 ↔ nz = 1) →
              (if i ≥ 1 ∧ i < N - 1 then (3 : Int) else if N = 1 then 1 else 2) =
              (if (i : Int) ≥ 1 ∧ (i : Int) < (N : Int) - 1 then 3 else if nz = 1 then 1 else 2) := by
            intro i N hi hN
            split_ifs <;> first | rfl | (exfalso; omega)
          rw [g iz nz hz Iff.rfl, g iy ny hy' hy, g ix nx hx' hx]
        refine wp_mono (Q := fun s' m' => I ((iz * ny + iy) * nx + ix + 1) s' m') ?_ (fun _ _ h => h)
        dsimp only
        rw [← hlen]
        rw [show ((iz : Int) * ny + iy) * nx + ix = (((iz * ny + iy) * nx + ix : Nat) : Int) by push_cast; rfl]
        generalize (iz * ny + iy) * nx + ix = r at *
        refine wp_wr (hW _ _) ⟨by omega, by omega⟩ ?_
        rw [wp_pure]
        refine ⟨rfl, ?_, ?_⟩
        · intro q hq
          by_cases he : q = r + 1
          · subst he; rw [show ((r + 1 : Nat) : Int) = (r : Int) + 1 by omega, Mem.get_same]
          · rw [Mem.get_ne _ _ _ _ _ (by omega)]; exact h2 q (by omega)
        · intro a i ha; exact (congrFun (Mem.set_other _ _ _ _ _ ha) _).trans (h3 a i ha)
      · intro idx m hI
        have e : (iz * ny + iy) * nx + nx = (iz * ny + (iy + 1)) * nx := by ring
        rw [← e]; exact hI
    · intro idx m hI
      have e : (iz * ny + ny) * nx = (iz + 1) * ny * nx := by ring
      rw [← e]; exact hI
  · rintro idx m ⟨rfl, h2, h3⟩
    have e : nz * ny * nx = nx * ny * nz := by ring
    rw [e] at h2 ⊢
    exact hQ m h2 h3

/-- Entries `L` of row `r`, starting at `s`, have been written. -/
structure LapAt [One R] [Div R] (k : Nat) (d : R) (r s : Nat) (L : List (Nat × R)) (idx : Int) (m : Mem (CTy R)) : Prop where
  idx : idx = (s : Int) + L.length
  row : RowAt m k 0 s L
  diag : ∀ (x : Nat) (y : Nat × R), L[x]? = some y → y.1 = r → ∃ x' : Nat, L[x']? = some (r, d) ∧
    m (.diagptr k) (r : Int) = some ((s : Int) + x') ∧ m (.idiag k) (r : Int) = some (1 / d) ∧ m (.diag k) (r : Int) = some d

theorem wp_lapEntry [One R] [Div R] {k : Nat} {d o : R} {r s c : Nat} {L rest : List (Nat × R)} {idx : Int} {m : Mem (CTy R)}
    (hW : ∀ a i, ((a = .colidx k ∨ a = .values k) ∧ (s : Int) ≤ i ∧ i < (s : Int) + (L ++ (c, if c = r then d else o) :: rest).length) ∨
      ((a = .diagptr k ∨ a = .idiag k ∨ a = .diag k) ∧ i = (r : Int)) → W a i)
    (hs1 : (s : Int) + (L ++ (c, if c = r then d else o) :: rest).length ≤ sz (.colidx k))
    (hs2 : (s : Int) + (L ++ (c, if c = r then d else o) :: rest).length ≤ sz (.values k))
    (hs3 : (r : Int) < sz (.diagptr k)) (hs4 : (r : Int) < sz (.idiag k)) (hs5 : (r : Int) < sz (.diag k))
    (h : LapAt k d r s L idx m) :
    wp sz W Rd (lapEntry k d o (r : Int) (c : Int) idx) m (fun idx' m' => LapAt k d r s (L ++ [(c, if c = r then d else o)]) idx' m') := by
  obtain ⟨rfl, h2, h3⟩ := h
  rw [List.length_append, List.length_cons] at hW hs1 hs2
  unfold lapEntry
  have hrow := h2.snoc c (if c = r then d else o)
  have hcol : W (.colidx k) ((s : Int) + L.length) := hW _ _ (Or.inl ⟨Or.inl rfl, by omega, by push_cast; omega⟩)
  have hval : W (.values k) ((s : Int) + L.length) := hW _ _ (Or.inl ⟨Or.inr rfl, by omega, by push_cast; omega⟩)
  by_cases hc : c = r
  · subst hc
    rw [if_pos rfl] at hrow ⊢
    rw [if_pos rfl, wp_bind]
    refine wp_wr (hW _ _ (Or.inr ⟨by simp, rfl⟩)) ⟨by omega, hs5⟩ ?_
    refine wp_wr hval ⟨by omega, by push_cast at hs2; omega⟩ ?_
    refine wp_wr (hW _ _ (Or.inr ⟨by simp, rfl⟩)) ⟨by omega, hs4⟩ ?_
    refine wp_wr1 (hW _ _ (Or.inr ⟨by simp, rfl⟩)) ⟨by omega, hs3⟩ ?_
    refine wp_wr hcol ⟨by omega, by push_cast at hs1; omega⟩ ?_
    rw [wp_pure]
    refine ⟨by rw [List.length_append]; push_cast; simp [Int.add_assoc], ?_, ?_⟩
    · intro x y hxy
      obtain ⟨q1, q2⟩ := hrow x y hxy
      refine ⟨?_, ?_⟩
      · rw [← q1]
        by_cases hx : (s : Int) + x = (s : Int) + L.length
        · rw [hx, Mem.get_same, Mem.set_other _ _ _ _ _ (by simp), Mem.get_same]; simp
        · rw [Mem.get_ne _ _ _ _ _ hx, Mem.set_other _ _ _ _ _ (by simp), Mem.set_other _ _ _ _ _ (by simp), Mem.set_other _ _ _ _ _ (by simp),
            Mem.set_other _ _ _ _ _ (by simp), Mem.set_other _ _ _ _ _ (by simp), Mem.get_ne _ _ _ _ _ hx]
      · rw [← q2]
        by_cases hx : (s : Int) + x = (s : Int) + L.length
        · rw [hx, Mem.get_same, Mem.set_other _ _ _ _ _ (by simp), Mem.set_other _ _ _ _ _ (by simp), Mem.set_other _ _ _ _ _ (by simp), Mem.get_same]
        · rw [Mem.get_ne _ _ _ _ _ hx, Mem.set_other _ _ _ _ _ (by simp), Mem.set_other _ _ _ _ _ (by simp), Mem.set_other _ _ _ _ _ (by simp),
            Mem.get_ne _ _ _ _ _ hx, Mem.set_other _ _ _ _ _ (by simp), Mem.set_other _ _ _ _ _ (by simp)]
    · intro x y hxy hy
      refine ⟨L.length, by rw [List.getElem?_append_right (Nat.le_refl _)]; simp, ?_, ?_, ?_⟩
      · rw [Mem.set_other _ _ _ _ _ (by simp), Mem.get_same]
      · rw [Mem.set_other _ _ _ _ _ (by simp), Mem.set_other _ _ _ _ _ (by simp), Mem.get_same]
      · rw [Mem.set_other _ _ _ _ _ (by simp), Mem.set_other _ _ _ _ _ (by simp), Mem.set_other _ _ _ _ _ (by simp),
          Mem.set_other _ _ _ _ _ (by simp), Mem.get_same]
  · rw [if_neg hc] at hrow ⊢
    rw [if_neg (by omega), wp_bind]
    refine wp_wr1 hval ⟨by omega, by push_cast at hs2; omega⟩ ?_
    refine wp_wr hcol ⟨by omega, by push_cast at hs1; omega⟩ ?_
    rw [wp_pure]
    refine ⟨by rw [List.length_append]; push_cast; simp [Int.add_assoc], ?_, ?_⟩
    · intro x y hxy
      obtain ⟨q1, q2⟩ := hrow x y hxy
      refine ⟨?_, ?_⟩
      · rw [← q1]
        by_cases hx : (s : Int) + x = (s : Int) + L.length
        · rw [hx, Mem.get_same, Mem.set_other _ _ _ _ _ (by simp), Mem.get_same]; simp
        · rw [Mem.get_ne _ _ _ _ _ hx, Mem.set_other _ _ _ _ _ (by simp), Mem.set_other _ _ _ _ _ (by simp), Mem.get_ne _ _ _ _ _ hx]
      · rw [← q2]
        by_cases hx : (s : Int) + x = (s : Int) + L.length
        · rw [hx, Mem.get_same, Mem.set_other _ _ _ _ _ (by simp), Mem.get_same]
        · rw [Mem.get_ne _ _ _ _ _ hx, Mem.set_other _ _ _ _ _ (by simp), Mem.get_ne _ _ _ _ _ hx, Mem.set_other _ _ _ _ _ (by simp)]
    · intro x y hxy hy
      by_cases hx : x < L.length
      · rw [List.getElem?_append_left hx] at hxy
        obtain ⟨x', g1, g2, g3, g4⟩ := h3 x y hxy hy
        have hx' : x' < L.length := by
          by_contra hc'; rw [List.getElem?_eq_none (by omega)] at g1; cases g1
        refine ⟨x', by rw [List.getElem?_append_left hx']; exact g1, ?_, ?_, ?_⟩
        · rw [Mem.set_other _ _ _ _ _ (by simp), Mem.set_other _ _ _ _ _ (by simp)]; exact g2
        · rw [Mem.set_other _ _ _ _ _ (by simp), Mem.set_other _ _ _ _ _ (by simp)]; exact g3
        · rw [Mem.set_other _ _ _ _ _ (by simp), Mem.set_other _ _ _ _ _ (by simp)]; exact g4
      · exfalso
        rw [List.getElem?_append_right (by omega)] at hxy
        cases hq : x - L.length with
        | zero => rw [hq] at hxy; simp at hxy; subst hxy; exact hc hy
        | succ q => rw [hq] at hxy; simp at hxy

theorem range'_cut {lo n i : Nat} (h1 : lo ≤ i) (h2 : i < lo + n) :
    List.range' lo n = List.range' lo (i - lo) ++ i :: List.range' (i + 1) (lo + n - (i + 1)) := by
  have e : n = (i - lo) + (1 + (lo + n - (i + 1))) := by omega
  conv_lhs => rw [e]
  rw [List.range'_eq_append_iff]
  refine ⟨i - lo, by omega, rfl, ?_⟩
  rw [Nat.mul_one] 
  rw [show lo + (i - lo) = i by omega, show (i - lo) + (1 + (lo + n - (i + 1))) - (i - lo) = (lo + n - (i + 1)) + 1 by omega, List.range'_succ]

/-- One row. -/
theorem wp_lapRowProg [One R] [Div R] {k nx ny nz : Nat} {d o : R} {iz iy ix s : Nat} {m : Mem (CTy R)}
    (hz : iz < nz) (hy : iy < ny) (hx : ix < nx)
    (hW : ∀ a i, ((a = .colidx k ∨ a = .values k) ∧ (s : Int) ≤ i ∧ i < (s : Int) + (lapList nx ny nz d o iz iy ix).length) ∨
      ((a = .diagptr k ∨ a = .idiag k ∨ a = .diag k) ∧ i = (((iz * ny + iy) * nx + ix : Nat) : Int)) → W a i)
    (hs1 : (s : Int) + (lapList nx ny nz d o iz iy ix).length ≤ sz (.colidx k))
    (hs2 : (s : Int) + (lapList nx ny nz d o iz iy ix).length ≤ sz (.values k))
    (hs3 : (((iz * ny + iy) * nx + ix : Nat) : Int) < sz (.diagptr k)) (hs4 : (((iz * ny + iy) * nx + ix : Nat) : Int) < sz (.idiag k))
    (hs5 : (((iz * ny + iy) * nx + ix : Nat) : Int) < sz (.diag k))
    (hR : Rd (.rowptr k) (((iz * ny + iy) * nx + ix : Nat) : Int))
    (h : m (.rowptr k) (((iz * ny + iy) * nx + ix : Nat) : Int) = some (s : Int)) :
    wp sz W Rd (lapRowProg k nx ny nz d o (iz : Int) (iy : Int) (ix : Int)) m (fun _ m' =>
      ∃ idx, LapAt k d ((iz * ny + iy) * nx + ix) s (lapList nx ny nz d o iz iy ix) idx m') := by
  unfold lapRowProg
  have hrow : ((iz : Int) * ny + iy) * nx + ix = (((iz * ny + iy) * nx + ix : Nat) : Int) := by push_cast; rfl
  dsimp only
  rw [hrow]
  refine wp_rd _ hR h ?_
  rw [wp_bind]
  let r := (iz * ny + iy) * nx + ix
  let e : Nat → Nat → Nat → Nat × R := fun jz jy jx => ((jz * ny + jy) * nx + jx, if (jz * ny + jy) * nx + jx = r then d else o)
  let lz := iz - 1
  let cz := min (iz + 2) nz - lz
  let ly := iy - 1
  let cy := min (iy + 2) ny - ly
  let lx := ix - 1
  let cx := min (ix + 2) nx - lx
  let gx : Nat → Nat → List (Nat × R) := fun jz jy => (List.range' lx cx).map (e jz jy)
  let gy : Nat → List (Nat × R) := fun jz => (List.range' ly cy).flatMap (gx jz)
  have hL : lapList nx ny nz d o iz iy ix = (List.range' lz cz).flatMap gy := rfl
  refine wp_forN (b := -(iz : Int)) (lo := lz) (hi := lz + cz) (fun jz idx m' => LapAt k d r s ((List.range' lz (jz - lz)).flatMap gy) idx m')
    (Nat.le_add_right _ _) ?_ ?_ ?_ (by simp only [lz]; split_ifs <;> omega) (by simp only [lz, cz]; split_ifs <;> omega)
  · rw [Nat.sub_self]
    exact ⟨by simp, RowAt.nil _ _ _ _, by intro x y h; simp at h⟩
  · intro jz idx m1 z1 z2 hI
    refine wp_forN (b := -(iy : Int)) (lo := ly) (hi := ly + cy)
      (fun jy idx m' => LapAt k d r s ((List.range' lz (jz - lz)).flatMap gy ++ (List.range' ly (jy - ly)).flatMap (gx jz)) idx m')
      (Nat.le_add_right _ _) ?_ ?_ ?_ (by simp only [ly]; split_ifs <;> omega) (by simp only [ly, cy]; split_ifs <;> omega)
    · rw [Nat.sub_self]; simpa using hI
    · intro jy idx m2 y1 y2 hI
      refine wp_forN (b := -(ix : Int)) (lo := lx) (hi := lx + cx)
        (fun jx idx m' => LapAt k d r s (((List.range' lz (jz - lz)).flatMap gy ++ (List.range' ly (jy - ly)).flatMap (gx jz)) ++
          (List.range' lx (jx - lx)).map (e jz jy)) idx m')
        (Nat.le_add_right _ _) ?_ ?_ ?_ (by simp only [lx]; split_ifs <;> omega) (by simp only [lx, cx]; split_ifs <;> omega)
      · rw [Nat.sub_self]; simpa using hI
      · intro jx idx m3 x1 x2 hI
        have hcol : ((((iz * ny + iy) * nx + ix : Nat) : Int)) + (((jz : Int) + -(iz : Int)) * ny + ((jy : Int) + -(iy : Int))) * nx + ((jx : Int) + -(ix : Int)) =
            (((jz * ny + jy) * nx + jx : Nat) : Int) := by push_cast; ring
        rw [hcol]
        obtain ⟨rest, hrest⟩ : ∃ rest, lapList nx ny nz d o iz iy ix =
            (((List.range' lz (jz - lz)).flatMap gy ++ (List.range' ly (jy - ly)).flatMap (gx jz)) ++
              (List.range' lx (jx - lx)).map (e jz jy)) ++ e jz jy jx :: rest := by
          refine ⟨(List.range' (jx + 1) (lx + cx - (jx + 1))).map (e jz jy) ++ ((List.range' (jy + 1) (ly + cy - (jy + 1))).flatMap (gx jz) ++
            (List.range' (jz + 1) (lz + cz - (jz + 1))).flatMap gy), ?_⟩
          rw [hL, range'_cut z1 z2, List.flatMap_append, List.flatMap_cons]
          have e1 : gy jz = (List.range' ly (jy - ly)).flatMap (gx jz) ++ (gx jz jy ++ (List.range' (jy + 1) (ly + cy - (jy + 1))).flatMap (gx jz)) := by
            show (List.range' ly cy).flatMap (gx jz) = _
            rw [range'_cut y1 y2, List.flatMap_append, List.flatMap_cons]
          have e2 : gx jz jy = (List.range' lx (jx - lx)).map (e jz jy) ++ (e jz jy jx :: (List.range' (jx + 1) (lx + cx - (jx + 1))).map (e jz jy)) := by
            show (List.range' lx cx).map (e jz jy) = _
            rw [range'_cut x1 x2, List.map_append, List.map_cons]
          rw [e1, e2]
          simp only [List.append_assoc, List.cons_append]
        rw [hrest] at hs1 hs2 hW
        refine wp_mono (wp_lapEntry (rest := rest) hW hs1 hs2 hs3 hs4 hs5 hI) ?_
        intro idx' m' h'
        rw [show jx + 1 - lx = (jx - lx) + 1 by omega, List.range'_concat, List.map_append, ← List.append_assoc]
        rw [show lx + 1 * (jx - lx) = jx by omega]
        exact h'
      · intro idx m3 hI
        rw [show jy + 1 - ly = (jy - ly) + 1 by omega, List.range'_concat, List.flatMap_append, ← List.append_assoc]
        rw [show ly + 1 * (jy - ly) = jy by omega, List.flatMap_singleton]
        rw [show lx + cx - lx = cx by omega] at hI
        exact hI
    · intro idx m2 hI
      rw [show jz + 1 - lz = (jz - lz) + 1 by omega, List.range'_concat, List.flatMap_append]
      rw [show lz + 1 * (jz - lz) = jz by omega, List.flatMap_singleton]
      rw [show ly + cy - ly = cy by omega] at hI
      exact hI
  · intro idx m1 hI
    rw [wp_pure]
    rw [show lz + cz - lz = cz by omega] at hI
    exact ⟨idx, hI⟩

end

/-- The generated matrix. -/
def lapCsr (nx ny nz : Nat) (d o : R) : Csr R := Csr.ofRows (nx * ny * nz) (nx * ny * nz) (lapRows nx ny nz d o) d

theorem mem_nbr {N i j : Nat} : j ∈ nbr N i ↔ i ≤ j + 1 ∧ j ≤ i + 1 ∧ j < N := by
  unfold nbr
  rw [List.mem_range'_1]
  omega

theorem mem_lapList {nx ny nz : Nat} {d o : R} {iz iy ix : Nat} {x : Nat × R} :
    x ∈ lapList nx ny nz d o iz iy ix ↔ ∃ jz jy jx, (iz ≤ jz + 1 ∧ jz ≤ iz + 1 ∧ jz < nz) ∧ (iy ≤ jy + 1 ∧ jy ≤ iy + 1 ∧ jy < ny) ∧
      (ix ≤ jx + 1 ∧ jx ≤ ix + 1 ∧ jx < nx) ∧ x.1 = (jz * ny + jy) * nx + jx ∧
      x.2 = if (jz * ny + jy) * nx + jx = (iz * ny + iy) * nx + ix then d else o := by
  unfold lapList
  simp only [List.mem_flatMap, List.mem_map, mem_nbr]
  constructor
  · rintro ⟨jz, h1, jy, h2, jx, h3, rfl⟩; exact ⟨jz, jy, jx, h1, h2, h3, rfl, rfl⟩
  · rintro ⟨jz, jy, jx, h1, h2, h3, h4, h5⟩; exact ⟨jz, h1, jy, h2, jx, h3, Prod.ext h4.symm h5.symm⟩

/-- Coordinates of a row. -/
theorem lap_coords {nx ny nz r : Nat} (h : r < nx * ny * nz) :
    r / nx / ny < nz ∧ r / nx % ny < ny ∧ r % nx < nx ∧ (r / nx / ny * ny + r / nx % ny) * nx + r % nx = r := by
  have hx : 0 < nx := by rcases Nat.eq_zero_or_pos nx with rfl | h'; simp at h; exact h'
  have hy : 0 < ny := by rcases Nat.eq_zero_or_pos ny with rfl | h'; simp at h; exact h'
  refine ⟨?_, Nat.mod_lt _ hy, Nat.mod_lt _ hx, ?_⟩
  · rw [Nat.div_div_eq_div_mul]; exact Nat.div_lt_of_lt_mul h
  · rw [Nat.mul_comm (r / nx / ny), Nat.div_add_mod, Nat.mul_comm, Nat.div_add_mod]

theorem lap_index_lt {nx ny nz iz iy ix : Nat} (hz : iz < nz) (hy : iy < ny) (hx : ix < nx) : (iz * ny + iy) * nx + ix < nx * ny * nz := by
  have h1 : iz * ny + iy + 1 ≤ nz * ny := by nlinarith
  have h2 : (iz * ny + iy + 1) * nx ≤ nz * ny * nx := Nat.mul_le_mul_right _ h1
  nlinarith

theorem lapRows_lt {nx ny nz : Nat} {d o : R} {r : Nat} {x : Nat × R} (h : x ∈ lapRows nx ny nz d o r) :
    x.1 < nx * ny * nz := by
  obtain ⟨jz, jy, jx, h1, h2, h3, h4, h5⟩ := mem_lapList.mp h
  rw [h4]
  exact lap_index_lt h1.2.2 h2.2.2 h3.2.2

theorem lapCsr_wf (nx ny nz : Nat) (d o : R) : (lapCsr nx ny nz d o).WF := Csr.ofRows_wf fun _ _ _ hx => lapRows_lt hx

theorem lapRows_diag {nx ny nz : Nat} {d o : R} {r : Nat} (h : r < nx * ny * nz) : (r, d) ∈ lapRows nx ny nz d o r := by
  obtain ⟨c1, c2, c3, c4⟩ := lap_coords h
  refine mem_lapList.mpr ⟨_, _, _, ⟨Nat.le_succ _, Nat.le_succ _, c1⟩, ⟨Nat.le_succ _, Nat.le_succ _, c2⟩, ⟨Nat.le_succ _, Nat.le_succ _, c3⟩, c4.symm, ?_⟩
  rw [if_pos rfl]

theorem laplacian_ok [One R] [Div R] {k nx ny nz base : Nat} {d o : R} {m0 : Mem (CTy R)} (hx : nx = 1 ↔ nz = 1) (hy : ny = 1 ↔ nz = 1)
    (hb : base = 0 ∨ base = 1) :
    (laplacian k nx ny nz d o base).Ok m0 (fun _ m => HoldsPat m k base (lapCsr nx ny nz d o) ∧ HoldsVal m k (lapCsr nx ny nz d o) ∧
      (∀ r, r < nx * ny * nz → ∃ j, (lapCsr nx ny nz d o).InRow r j ∧ (lapCsr nx ny nz d o).col j = r ∧ (lapCsr nx ny nz d o).val j = d ∧
        m (.diagptr k) (r : Int) = some ((j : Int) + base) ∧ m (.idiag k) (r : Int) = some (1 / d) ∧ m (.diag k) (r : Int) = some d) ∧
      ∀ a i, ¬ a.ofObj k → m a i = m0 a i) := by
  unfold laplacian
  let rows := lapRows nx ny nz d o
  let N := nx * ny * nz
  refine seq_rule ?_
  refine wp_lapCount (d := d) (o := o) (fun _ _ => trivial) hx hy (by simp [csrSize]) ?_
  intro m1 a1 a2
  rw [Int.toNat_natCast]
  let sz := csrSize k N (rowStart rows N) allOpt
  have szR : sz (.rowptr k) = (N : Int) + 1 := by simp [sz, csrSize]
  have szC : sz (.colidx k) = (rowStart rows N : Int) := by simp [sz, csrSize]
  have szV : sz (.values k) = (rowStart rows N : Int) := by simp [sz, csrSize, allOpt]
  have szD : sz (.diagptr k) = (N : Int) := by simp [sz, csrSize, allOpt]
  have szI : sz (.idiag k) = (N : Int) := by simp [sz, csrSize, allOpt]
  have szG : sz (.diag k) = (N : Int) := by simp [sz, csrSize, allOpt]
  let Wr : Nat → CArr → Int → Prop := fun r a i =>
    ((a = .colidx k ∨ a = .values k) ∧ (rowStart rows r : Int) ≤ i ∧ i < (rowStart rows r : Int) + (rows r).length) ∨
      ((a = .diagptr k ∨ a = .idiag k ∨ a = .diag k) ∧ i = (r : Int))
  let Rr : Nat → CArr → Int → Prop := fun r a i => Wr r a i ∨ a = .rowptr k
  let Qr : Nat → Mem (CTy R) → Prop := fun r m => ∃ idx, LapAt k d r (rowStart rows r) (rows r) idx m
  have hdis : ∀ r r' a i, r ≠ r' → Wr r a i → ¬ Rr r' a i := by
    rintro r r' a i hne hw (hw' | rfl)
    · rcases hw with ⟨ha, h1, h2⟩ | ⟨ha, h1⟩
      · rcases hw' with ⟨_, h3, h4⟩ | ⟨ha', _⟩
        · rcases Nat.lt_or_gt_of_ne hne with h | h
          · have := rowStart_mono rows (show r + 1 ≤ r' from h)
            rw [rowStart_succ] at this
            omega
          · have := rowStart_mono rows (show r' + 1 ≤ r from h)
            rw [rowStart_succ] at this
            omega
        · rcases ha with rfl | rfl <;> simp at ha'
      · rcases hw' with ⟨ha', _⟩ | ⟨_, h3⟩
        · rcases ha with rfl | rfl | rfl <;> simp at ha'
        · omega
    · rcases hw with ⟨ha, _⟩ | ⟨ha, _⟩ <;> simp at ha
  have hwp : ∀ iz iy ix, iz < nz → iy < ny → ix < nx →
      wp sz (Wr ((iz * ny + iy) * nx + ix)) (Rr ((iz * ny + iy) * nx + ix)) (lapRowProg k nx ny nz d o (iz : Int) (iy : Int) (ix : Int)) m1
        (fun _ m => Qr ((iz * ny + iy) * nx + ix) m) := by
    intro iz iy ix hz' hy' hx'
    have hr : (iz * ny + iy) * nx + ix < N := lap_index_lt hz' hy' hx'
    have e : rows ((iz * ny + iy) * nx + ix) = lapList nx ny nz d o iz iy ix := lapRows_eq hy' hx'
    have hle := rowStart_mono rows (show (iz * ny + iy) * nx + ix + 1 ≤ N from hr)
    rw [rowStart_succ, e] at hle
    refine wp_mono (wp_lapRowProg hz' hy' hx' (s := rowStart rows ((iz * ny + iy) * nx + ix)) ?_ ?_ ?_ ?_ ?_ ?_ (Or.inr rfl) (a1 _ (Nat.le_of_lt hr))) ?_
    · intro a i h
      show _ ∨ _
      rw [e]; exact h
    · rw [szC]; omega
    · rw [szV]; omega
    · rw [szD]; omega
    · rw [szI]; omega
    · rw [szG]; omega
    · intro _ m h
      show ∃ idx, LapAt k d _ _ (rows ((iz * ny + iy) * nx + ix)) idx m
      rw [e]; exact h
  refine par_rule (W := fun u a i => ∃ ix, ix < nx ∧ Wr (u * nx + ix) a i) (R := fun u a i => ∃ ix, ix < nx ∧ Rr (u * nx + ix) a i)
    (Q := fun u _ m => ∀ ix, ix < nx → ∃ mt, Qr (u * nx + ix) mt ∧ ∀ a i, Rr (u * nx + ix) a i → m a i = mt a i) ?_ ?_ ?_
    (by rintro t a i _ ⟨ix, h1, h2⟩; exact ⟨ix, h1, by first | exact h2 | exact Or.inl h2 | exact Or.inr h2⟩)
  · rintro t u a i _ _ htu ⟨ix, h1, h2⟩ ⟨ix', h3, h4⟩
    refine hdis _ _ a i ?_ h2 h4
    intro he
    apply htu
    have e1 : (t * nx + ix) / nx = t := by rw [Nat.mul_comm, Nat.mul_add_div (by omega), Nat.div_eq_of_lt h1, Nat.add_zero]
    have e2 : (u * nx + ix') / nx = u := by rw [Nat.mul_comm, Nat.mul_add_div (by omega), Nat.div_eq_of_lt h3, Nat.add_zero]
    rw [← e1, ← e2, he]
  · intro u hu
    have hny : 0 < ny := by rcases Nat.eq_zero_or_pos ny with rfl | h'; simp at hu; exact h'
    have c1 : u / ny < nz := Nat.div_lt_of_lt_mul (by rw [Nat.mul_comm]; exact hu)
    have c2 : u % ny < ny := Nat.mod_lt _ hny
    have c3 : u / ny * ny + u % ny = u := by rw [Nat.mul_comm, Nat.div_add_mod]
    refine wp_rows (lo := 0) (hi := nx) (body := fun ix => lapRowProg k nx ny nz d o ((u / ny : Nat) : Int) ((u % ny : Nat) : Int) ix)
      (fun ix a i => Wr (u * nx + ix.toNat) a i) (fun ix a i => Rr (u * nx + ix.toNat) a i) (fun ix m => Qr (u * nx + ix.toNat) m) ?_ ?_ ?_ ?_ ?_
    · intro ix a i h1 h2 h; exact ⟨ix.toNat, by omega, h⟩
    · intro ix a i h1 h2 h; exact ⟨ix.toNat, by omega, h⟩
    · intro ix ix' a i h1 h2 h3 h4 hne h h'
      exact hdis _ _ a i (by omega) h h'
    · intro ix h1 h2
      have := hwp (u / ny) (u % ny) ix.toNat c1 c2 (by omega)
      rw [c3, Int.toNat_of_nonneg h1] at this
      exact this
    · intro m h _ ix hix
      have := h (ix : Int) (by omega) (by omega)
      rw [Int.toNat_natCast] at this
      exact this
  · intro rr m2 hq hfr
    have hrow : ∀ r, r < N → ∃ mt, Qr r mt ∧ ∀ a i, Rr r a i → m2 a i = mt a i := by
      intro r hr
      obtain ⟨c1, c2, c3, c4⟩ := lap_coords hr
      have hu : r / nx < nz * ny := by
        refine Nat.div_lt_of_lt_mul ?_
        rw [show nx * (nz * ny) = nx * ny * nz by ring]; exact hr
      obtain ⟨mu, h1, h2⟩ := hq (r / nx) hu
      obtain ⟨mt, h3, h4⟩ := h1 (r % nx) c3
      have e : r / nx * nx + r % nx = r := by rw [Nat.mul_comm, Nat.div_add_mod]
      rw [e] at h3 h4
      refine ⟨mt, h3, fun a i h => ?_⟩
      rw [h2 a i ⟨r % nx, c3, by rw [e]; exact h⟩]
      exact h4 a i h
    have hkeep : ∀ a i, a ≠ .colidx k → a ≠ .values k → a ≠ .diagptr k → a ≠ .idiag k → a ≠ .diag k → m2 a i = m1 a i := by
      intro a i h1 h2 h3 h4 h5
      refine hfr a i ?_
      rintro t _ ⟨ix, _, ⟨h, _⟩ | ⟨h, _⟩⟩
      · rcases h with h | h
        · exact h1 h
        · exact h2 h
      · rcases h with h | h | h
        · exact h3 h
        · exact h4 h
        · exact h5 h
    have hH : HoldsPat m2 k 0 (lapCsr nx ny nz d o) ∧ HoldsVal m2 k (lapCsr nx ny nz d o) := by
      refine holds_ofRows ?_ ?_
      · intro i hi
        rw [hkeep _ _ (by simp) (by simp) (by simp) (by simp) (by simp), a1 i hi]; simp
      · intro i hi
        obtain ⟨mt, ⟨idx, h1⟩, h2⟩ := hrow i hi
        refine h1.row.congr ?_ ?_
        · intro j h3 h4; exact h2 _ _ (Or.inl (Or.inl ⟨Or.inl rfl, h3, h4⟩))
        · intro j h3 h4; exact h2 _ _ (Or.inl (Or.inl ⟨Or.inr rfl, h3, h4⟩))
    have hD : ∀ r, r < nx * ny * nz → ∃ j, (lapCsr nx ny nz d o).InRow r j ∧ (lapCsr nx ny nz d o).col j = r ∧ (lapCsr nx ny nz d o).val j = d ∧
        m2 (.diagptr k) (r : Int) = some (j : Int) ∧ m2 (.idiag k) (r : Int) = some (1 / d) ∧ m2 (.diag k) (r : Int) = some d := by
      intro r hr
      obtain ⟨mt, ⟨idx, h1⟩, h2⟩ := hrow r hr
      obtain ⟨x, hx1, hx2⟩ := List.mem_iff_getElem.mp (lapRows_diag (nz := nz) (d := d) (o := o) hr)
      obtain ⟨x', g1, g2, g3, g4⟩ := h1.diag x (r, d) (by rw [← hx2]; exact List.getElem?_eq_getElem hx1) rfl
      have hx' : x' < (rows r).length := by
        by_contra hc'; rw [List.getElem?_eq_none (by omega)] at g1; cases g1
      have hg : (rows r)[x'] = (r, d) := by rw [List.getElem?_eq_getElem hx'] at g1; exact Option.some.inj g1
      refine ⟨rowStart rows r + x', ⟨hr, Nat.le_add_right _ _, ?_⟩, ?_, ?_, ?_, ?_, ?_⟩
      · show _ < rowStart rows (r + 1); rw [rowStart_succ]; omega
      · rw [show (lapCsr nx ny nz d o).col _ = _ from Csr.ofRows_col hr hx', hg]
      · rw [show (lapCsr nx ny nz d o).val _ = _ from Csr.ofRows_val hr hx', hg]
      · rw [h2 _ _ (Or.inl (Or.inr ⟨Or.inl rfl, rfl⟩)), g2]; push_cast; rfl
      · rw [h2 _ _ (Or.inl (Or.inr ⟨Or.inr (Or.inl rfl), rfl⟩)), g3]
      · rw [h2 _ _ (Or.inl (Or.inr ⟨Or.inr (Or.inr rfl), rfl⟩)), g4]
    have hF : ∀ a i, ¬ a.ofObj k → m2 a i = m0 a i := by
      intro a i ha
      rw [hkeep a i (by rintro rfl; exact ha rfl) (by rintro rfl; exact ha rfl) (by rintro rfl; exact ha rfl) (by rintro rfl; exact ha rfl)
        (by rintro rfl; exact ha rfl)]
      exact a2 a i (by rintro rfl; exact ha rfl)
    rcases hb with rfl | rfl
    · rw [if_neg (by simp)]
      refine seq_rule ?_
      rw [wp_assert]
      refine ⟨rfl, hH.1, hH.2, ?_, hF⟩
      intro r hr
      obtain ⟨j, q1, q2, q3, q4, q5⟩ := hD r hr
      exact ⟨j, q1, q2, q3, by rw [q4]; simp, q5⟩
    · rw [if_pos (by simp)]
      refine Script.Ok.mono (make1Based_ok (A := lapCsr nx ny nz d o) (lapCsr_wf _ _ _ _ _) hH.1 (Or.inl rfl) ?_ ?_) ?_
      · intro _ i hi
        obtain ⟨j, _, _, _, q, _⟩ := hD i hi
        exact ⟨_, q⟩
      · refine ⟨Int.le_of_eq szR.symm, Int.le_of_eq szC.symm, fun _ => Int.le_of_eq szV.symm, fun _ => Int.le_of_eq szD.symm, fun _ => Int.le_of_eq szI.symm,
          fun _ => Int.le_of_eq szG.symm, by intro h; cases h⟩
      · intro _ m3 hs
        refine ⟨hs.holds hH.1 (by simp), ?_, ?_, ?_⟩
        · intro j hj; rw [hs.rest _ (by simp) (by simp) (by simp)]; exact hH.2 j hj
        · intro r hr
          obtain ⟨j, q1, q2, q3, q4, q5, q6⟩ := hD r hr
          refine ⟨j, q1, q2, q3, ?_, ?_, ?_⟩
          · rw [hs.diagptr rfl r hr, q4]; simp
          · rw [hs.rest _ (by simp) (by simp) (by simp)]; exact q5
          · rw [hs.rest _ (by simp) (by simp) (by simp)]; exact q6
        · intro a i ha
          rw [hs.rest a (by rintro rfl; exact ha rfl) (by rintro rfl; exact ha rfl) (by rintro rfl; exact ha rfl)]
          exact hF a i ha

end SpMP
