import Verif.IntRange
import Verif.Laplacian
import Mathlib.Tactic.Positivity
/-
generate3D27PtLaplacian (/repo/Laplacian.cpp:30-135) with the arithmetic in 32-bit ints. The pieces correspond one by one to those of
Laplacian.lean. Left unchecked: the increments `++idx` of the second loop nest and the `++` of make1BasedIndexing (values read
back from arrays), and the increments of loop counters.
-/

namespace SpMP
open Spec

set_option linter.unusedSectionVars false

variable {R : Type} [Races CArr]

/-- Laplacian.cpp:33-38: `nx*ny*nz` and `A->m + 1`, then 68-83: the counting loops. -/
def lapCountC (k nx ny nz : Nat) : Prog (CTy R) Int := do
  let xy ← iMul nx ny
  let n ← iMul xy nz
  let _ ← iAdd n 1
  Prog.write (ty := CTy R) (.rowptr k) 0 (0 : Int)
  Prog.forUp (ty := CTy R) 0 (nz : Int) (0 : Int) fun iz idx => do
    let z1 ← iSub nz 1
    let dz : Int := if iz ≥ 1 ∧ iz < z1 then 3 else if nz = 1 then 1 else 2
    Prog.forUp (ty := CTy R) 0 (ny : Int) idx fun iy idx => do
      let y1 ← iSub ny 1
      let dy ← iMul (if iy ≥ 1 ∧ iy < y1 then 3 else if nz = 1 then 1 else 2) dz
      Prog.forUp (ty := CTy R) 0 (nx : Int) idx fun ix idx => do
        let a ← iMul iz ny
        let a ← iAdd a iy
        let a ← iMul a nx
        let row ← iAdd a ix
        let x1 ← iSub nx 1
        let dx : Int := if ix ≥ 1 ∧ ix < x1 then 3 else if nz = 1 then 1 else 2
        let d ← iMul dx dy
        let idx ← iAdd idx d
        let r1 ← iAdd row 1
        Prog.write (ty := CTy R) (.rowptr k) r1 idx
        pure idx

/-- Laplacian.cpp:90-124, one row: `row` and `col`. -/
def lapRowProgC [One R] [Div R] (k nx ny nz : Nat) (d o : R) (iz iy ix : Int) : Prog (CTy R) Unit := do
  let a ← iMul iz ny
  let a ← iAdd a iy
  let a ← iMul a nx
  let row ← iAdd a ix
  let z1 ← iSub nz 1
  let y1 ← iSub ny 1
  let x1 ← iSub nx 1
  let szB : Int := if iz ≤ 0 then 0 else -1
  let szE : Int := if iz ≥ z1 then 0 else 1
  let syB : Int := if iy ≤ 0 then 0 else -1
  let syE : Int := if iy ≥ y1 then 0 else 1
  let sxB : Int := if ix ≤ 0 then 0 else -1
  let sxE : Int := if ix ≥ x1 then 0 else 1
  let idx ← Prog.read (ty := CTy R) (.rowptr k) row
  let _ ← Prog.forUp (ty := CTy R) szB (szE + 1) (idx : Int) fun sz idx =>
    Prog.forUp (ty := CTy R) syB (syE + 1) idx fun sy idx =>
      Prog.forUp (ty := CTy R) sxB (sxE + 1) idx fun sx idx => do
        let a ← iMul sz ny
        let a ← iAdd a sy
        let a ← iMul a nx
        let a ← iAdd row a
        let col ← iAdd a sx
        lapEntry k d o row col idx
  pure ()

/-- Laplacian.cpp:30-135, arithmetic checked. See `laplacian`. -/
def laplacianC [One R] [Div R] (k nx ny nz : Nat) (d o : R) (base : Int) : Script (CTy R) Unit :=
  Script.seq (csrSize k (nx * ny * nz) 0 allOpt) (lapCountC k nx ny nz) fun idx =>
  .phase (csrSize k (nx * ny * nz) idx.toNat allOpt) (nz * ny) (fun u =>
    Prog.forUp (ty := CTy R) 0 (nx : Int) () fun ix _ => lapRowProgC k nx ny nz d o ((u / ny : Nat) : Int) ((u % ny : Nat) : Int) ix) fun _ =>
  if base = 1 then make1Based (csrSize k (nx * ny * nz) idx.toNat allOpt) k (nx * ny * nz) allOpt
  else Script.seq (csrSize k (nx * ny * nz) idx.toNat allOpt) (Prog.assert (base = 0)) fun _ => .done ()

/-! ### Proofs -/

/-- The number of neighbours (with itself) of the first `i` points of a line of `N` points. -/
def lapS (N i : Int) : Int := if i ≤ 0 then 0 else if i < N then 3 * i - 1 else 3 * N - 2

theorem lapS_step {N i : Int} {nz : Nat} (hN : N = 1 ↔ nz = 1) (h0 : 0 ≤ i) (h1 : i < N) :
    lapS N (i + 1) = lapS N i + (if i ≥ 1 ∧ i < N - 1 then 3 else if nz = 1 then 1 else 2) := by
  unfold lapS
  split <;> split <;> split <;> (try split) <;> (try split) <;> (try split) <;> omega

theorem lapS_nonneg {N i : Int} (hN : 1 ≤ N) : 0 ≤ lapS N i := by
  unfold lapS; split <;> (try split) <;> omega

theorem lapS_le {N i : Int} (hN : 1 ≤ N) (h : i ≤ N) : lapS N i ≤ 3 * N - 2 := by
  unfold lapS; split <;> (try split) <;> omega

theorem lapS_end {N : Int} (hN : 1 ≤ N) : lapS N N = 3 * N - 2 := by
  unfold lapS; rw [if_neg (by omega), if_neg (by omega)]

/-- The number of entries of the grid matrix. -/
def lapTotal (nx ny nz : Int) : Int := (3 * nz - 2) * ((3 * ny - 2) * (3 * nx - 2))

theorem lap_sum_le {a dz b ey c ex Tz Ty Tx : Int} (ha : 0 ≤ a) (hb : 0 ≤ b) (hc : 0 ≤ c) (hdz : 0 ≤ dz) (hey : 0 ≤ ey) (hex : 0 ≤ ex)
    (h1 : a + dz ≤ Tz) (h2 : b + ey ≤ Ty) (h3 : c + ex ≤ Tx) :
    0 ≤ a * (Ty * Tx) + dz * (b * Tx) + ey * dz * (c + ex) ∧ a * (Ty * Tx) + dz * (b * Tx) + ey * dz * (c + ex) ≤ Tz * (Ty * Tx) := by
  have hTx : 0 ≤ Tx := by omega
  have hTy : 0 ≤ Ty := by omega
  refine ⟨by positivity, ?_⟩
  have k1 : ey * dz * (c + ex) ≤ ey * dz * Tx := Int.mul_le_mul_of_nonneg_left h3 (by positivity)
  have k2 : dz * ((b + ey) * Tx) ≤ dz * (Ty * Tx) := Int.mul_le_mul_of_nonneg_left (Int.mul_le_mul_of_nonneg_right h2 hTx) hdz
  have k3 : (a + dz) * (Ty * Tx) ≤ Tz * (Ty * Tx) := Int.mul_le_mul_of_nonneg_right h1 (by positivity)
  have e1 : dz * ((b + ey) * Tx) = dz * (b * Tx) + ey * dz * Tx := by ring
  have e2 : (a + dz) * (Ty * Tx) = a * (Ty * Tx) + dz * (Ty * Tx) := by ring
  omega

section
variable {k nx ny nz : Nat} (hx : nx = 1 ↔ nz = 1) (hy : ny = 1 ↔ nz = 1) (px : 1 ≤ nx) (py : 1 ≤ ny) (pz : 1 ≤ nz)
include hx hy px py pz

/-- If the counting loops end without overflow, the number of entries fits. -/
theorem rets_lapCount : (lapCountC k nx ny nz : Prog (CTy R) Int).Rets fun r => r = lapTotal nx ny nz ∧ InInt r := by
  have hx' : (nx : Int) = 1 ↔ nz = 1 := by omega
  have hy' : (ny : Int) = 1 ↔ nz = 1 := by omega
  unfold lapCountC
  refine (Prog.Rets.ck _).bind fun _ _ => (Prog.Rets.ck _).bind fun _ _ => (Prog.Rets.ck _).bind fun _ _ => ?_
  refine Prog.Rets.bind (P := fun _ => True) (show Prog.Rets _ (Prog.write _ _ _) from trivial) fun _ _ => ?_
  have key := Prog.Rets.forUp (ty := CTy R) (lo := 0) (hi := (nz : Int)) (s := (0 : Int))
    (I := fun iz idx => idx = lapS nz iz * ((3 * (ny : Int) - 2) * (3 * nx - 2)) ∧ InInt idx)
    (b := fun iz idx => do
      let z1 ← iSub nz 1
      let dz : Int := if iz ≥ 1 ∧ iz < z1 then 3 else if nz = 1 then 1 else 2
      Prog.forUp (ty := CTy R) 0 (ny : Int) idx fun iy idx => do
        let y1 ← iSub ny 1
        let dy ← iMul (if iy ≥ 1 ∧ iy < y1 then 3 else if nz = 1 then 1 else 2) dz
        Prog.forUp (ty := CTy R) 0 (nx : Int) idx fun ix idx => do
          let a ← iMul iz ny
          let a ← iAdd a iy
          let a ← iMul a nx
          let row ← iAdd a ix
          let x1 ← iSub nx 1
          let dx : Int := if ix ≥ 1 ∧ ix < x1 then 3 else if nz = 1 then 1 else 2
          let d ← iMul dx dy
          let idx ← iAdd idx d
          let r1 ← iAdd row 1
          Prog.write (ty := CTy R) (.rowptr k) r1 idx
          pure idx) ⟨by simp [lapS], by decide⟩ ?_
  · rw [show max 0 (nz : Int) = nz by omega, lapS_end (by omega)] at key
    exact key
  · rintro iz idx g0 g1 ⟨rfl, hi⟩
    refine (Prog.Rets.ck _).bind ?_
    rintro _ ⟨rfl, _⟩
    have sz := lapS_step (N := nz) (nz := nz) (by omega) g0 g1
    generalize (if iz ≥ 1 ∧ iz < (nz : Int) - 1 then (3 : Int) else if nz = 1 then 1 else 2) = dz at sz ⊢
    rw [sz]
    have key := Prog.Rets.forUp (ty := CTy R) (lo := 0) (hi := (ny : Int)) (s := lapS nz iz * ((3 * (ny : Int) - 2) * (3 * nx - 2)))
      (I := fun iy idx => idx = lapS nz iz * ((3 * (ny : Int) - 2) * (3 * nx - 2)) + dz * (lapS ny iy * (3 * nx - 2)) ∧ InInt idx)
      (b := fun iy idx => do
        let y1 ← iSub ny 1
        let dy ← iMul (if iy ≥ 1 ∧ iy < y1 then 3 else if nz = 1 then 1 else 2) dz
        Prog.forUp (ty := CTy R) 0 (nx : Int) idx fun ix idx => do
          let a ← iMul iz ny
          let a ← iAdd a iy
          let a ← iMul a nx
          let row ← iAdd a ix
          let x1 ← iSub nx 1
          let dx : Int := if ix ≥ 1 ∧ ix < x1 then 3 else if nz = 1 then 1 else 2
          let d ← iMul dx dy
          let idx ← iAdd idx d
          let r1 ← iAdd row 1
          Prog.write (ty := CTy R) (.rowptr k) r1 idx
          pure idx) ⟨by simp [lapS], hi⟩ ?_
    · rw [show max 0 (ny : Int) = ny by omega, lapS_end (N := (ny : Int)) (by omega)] at key
      rw [show (lapS nz iz + dz) * ((3 * (ny : Int) - 2) * (3 * nx - 2)) =
        lapS nz iz * ((3 * (ny : Int) - 2) * (3 * nx - 2)) + dz * ((3 * (ny : Int) - 2) * (3 * nx - 2)) by ring]
      exact key
    · rintro iy idx g2 g3 ⟨rfl, hi⟩
      refine (Prog.Rets.ck _).bind ?_
      rintro _ ⟨rfl, _⟩
      have sy := lapS_step (N := ny) (nz := nz) hy' g2 g3
      generalize (if iy ≥ 1 ∧ iy < (ny : Int) - 1 then (3 : Int) else if nz = 1 then 1 else 2) = ey at sy ⊢
      rw [sy]
      refine (Prog.Rets.ck _).bind ?_
      rintro _ ⟨rfl, _⟩
      have key := Prog.Rets.forUp (ty := CTy R) (lo := 0) (hi := (nx : Int))
        (s := lapS nz iz * ((3 * (ny : Int) - 2) * (3 * nx - 2)) + dz * (lapS ny iy * (3 * nx - 2)))
        (I := fun ix idx => idx = lapS nz iz * ((3 * (ny : Int) - 2) * (3 * nx - 2)) + dz * (lapS ny iy * (3 * nx - 2)) +
          ey * dz * lapS nx ix ∧ InInt idx)
        (b := fun ix idx => do
          let a ← iMul iz ny
          let a ← iAdd a iy
          let a ← iMul a nx
          let row ← iAdd a ix
          let x1 ← iSub nx 1
          let dx : Int := if ix ≥ 1 ∧ ix < x1 then 3 else if nz = 1 then 1 else 2
          let d ← iMul dx (ey * dz)
          let idx ← iAdd idx d
          let r1 ← iAdd row 1
          Prog.write (ty := CTy R) (.rowptr k) r1 idx
          pure idx) ⟨by simp [lapS], hi⟩ ?_
      · rw [show max 0 (nx : Int) = nx by omega, lapS_end (N := (nx : Int)) (by omega)] at key
        rw [show lapS nz iz * ((3 * (ny : Int) - 2) * (3 * nx - 2)) + dz * ((lapS ny iy + ey) * (3 * nx - 2)) =
          lapS nz iz * ((3 * (ny : Int) - 2) * (3 * nx - 2)) + dz * (lapS ny iy * (3 * nx - 2)) + ey * dz * (3 * nx - 2) by ring]
        exact key
      · rintro ix idx g4 g5 ⟨rfl, hi⟩
        refine (Prog.Rets.ck _).bind fun _ _ => (Prog.Rets.ck _).bind fun _ _ => (Prog.Rets.ck _).bind fun _ _ =>
          (Prog.Rets.ck _).bind fun _ _ => (Prog.Rets.ck _).bind ?_
        rintro _ ⟨rfl, _⟩
        have sx := lapS_step (N := nx) (nz := nz) hx' g4 g5
        generalize (if ix ≥ 1 ∧ ix < (nx : Int) - 1 then (3 : Int) else if nz = 1 then 1 else 2) = ex at sx ⊢
        rw [sx]
        refine (Prog.Rets.ck _).bind ?_
        rintro _ ⟨rfl, _⟩
        refine (Prog.Rets.ck _).bind ?_
        rintro _ ⟨rfl, hi'⟩
        refine (Prog.Rets.ck _).bind fun _ _ => ?_
        refine Prog.Rets.bind (P := fun _ => True) (show Prog.Rets _ (Prog.write _ _ _) from trivial) fun _ _ => ?_
        exact ⟨by ring, hi'⟩

theorem lap_size (hb : lapTotal nx ny nz ≤ 2147483647) : 0 < (nx : Int) * ny ∧ (nx : Int) * ny ≤ (nx : Int) * ny * nz ∧
    (nx : Int) * ny * nz + 1 ≤ 2147483647 ∧ (ny : Int) ≤ (nx : Int) * ny * nz ∧ (nx : Int) ≤ (nx : Int) * ny * nz ∧
    (nz : Int) ≤ (nx : Int) * ny * nz ∧ (nz : Int) * ny ≤ (nx : Int) * ny * nz := by
  obtain ⟨a, rfl⟩ : ∃ a : Nat, nx = a + 1 := ⟨nx - 1, by omega⟩
  obtain ⟨b, rfl⟩ : ∃ b : Nat, ny = b + 1 := ⟨ny - 1, by omega⟩
  obtain ⟨c, rfl⟩ : ∃ c : Nat, nz = c + 1 := ⟨nz - 1, by omega⟩
  have key : ((a + 1 : Nat) : Int) * (b + 1 : Nat) * (c + 1 : Nat) + (if c = 0 then 0 else 1) ≤ lapTotal (a + 1 : Nat) (b + 1 : Nat) (c + 1 : Nat) := by
    unfold lapTotal
    push_cast
    have p1 : (0 : Int) ≤ (a : Int) * b := by positivity
    have p2 : (0 : Int) ≤ (a : Int) * c := by positivity
    have p3 : (0 : Int) ≤ (b : Int) * c := by positivity
    have p4 : (0 : Int) ≤ (a : Int) * b * c := by positivity
    have e : (3 * ((c : Int) + 1) - 2) * ((3 * ((b : Int) + 1) - 2) * (3 * ((a : Int) + 1) - 2)) =
      27 * ((a : Int) * b * c) + 9 * ((a : Int) * b) + 9 * ((a : Int) * c) + 9 * ((b : Int) * c) + 3 * a + 3 * b + 3 * c + 1 := by ring
    have e' : ((a : Int) + 1) * (b + 1) * (c + 1) = (a : Int) * b * c + (a : Int) * b + (a : Int) * c + (b : Int) * c + a + b + c + 1 := by ring
    rw [e, e']
    split <;> omega
  have q1 : (0 : Int) ≤ (a : Int) * b := by positivity
  have q2 : (0 : Int) ≤ (a : Int) * c := by positivity
  have q3 : (0 : Int) ≤ (b : Int) * c := by positivity
  have q4 : (0 : Int) ≤ (a : Int) * b * c := by positivity
  have e' : ((a + 1 : Nat) : Int) * (b + 1 : Nat) * (c + 1 : Nat) = (a : Int) * b * c + (a : Int) * b + (a : Int) * c + (b : Int) * c + a + b + c + 1 := by
    push_cast; ring
  have e2 : ((a + 1 : Nat) : Int) * (b + 1 : Nat) = (a : Int) * b + a + b + 1 := by push_cast; ring
  have e3 : ((c + 1 : Nat) : Int) * (b + 1 : Nat) = (b : Int) * c + b + c + 1 := by push_cast; ring
  refine ⟨by omega, by omega, ?_, by push_cast at *; omega, by push_cast at *; omega, by push_cast at *; omega, by omega⟩
  by_cases hc : c = 0
  · subst hc
    obtain rfl : a = 0 := by omega
    obtain rfl : b = 0 := by omega
    norm_num
  · rw [if_neg hc] at key; omega

omit hx hy px py pz in
theorem lap_row {iz iy ix : Int} (z0 : 0 ≤ iz) (z1 : iz < nz) (y0 : 0 ≤ iy) (y1 : iy < ny) (x0 : 0 ≤ ix) (x1 : ix < nx) :
    0 ≤ iz * ny ∧ iz * ny + iy < (nz : Int) * ny ∧ 0 ≤ (iz * ny + iy) * nx ∧ (iz * ny + iy) * nx + ix < (nx : Int) * ny * nz := by
  have h1 : (iz + 1) * ny ≤ (nz : Int) * ny := Int.mul_le_mul_of_nonneg_right (by omega) (by omega)
  have e1 : (iz + 1) * ny = iz * ny + ny := by ring
  have h2 : (iz * ny + iy + 1) * nx ≤ (nz : Int) * ny * nx := Int.mul_le_mul_of_nonneg_right (by omega) (by omega)
  have e2 : (iz * ny + iy + 1) * nx = (iz * ny + iy) * nx + nx := by ring
  have e3 : (nz : Int) * ny * nx = (nx : Int) * ny * nz := by ring
  refine ⟨by positivity, by omega, by positivity, by omega⟩

variable {m0 : Mem (CTy R)} (hb : lapTotal nx ny nz ≤ 2147483647)
include hb

theorem sim_lapCount : Prog.Sim (fun _ => False) m0 (fun _ => True) (lapCountC k nx ny nz : Prog (CTy R) Int) (lapCount k nx ny nz) := by
  have hx' : (nx : Int) = 1 ↔ nz = 1 := by omega
  have hy' : (ny : Int) = 1 ↔ nz = 1 := by omega
  have hs := lap_size hx hy px py pz hb
  unfold lapCountC lapCount
  refine sim_ck ⟨by omega, by omega⟩ (sim_ck ⟨by omega, by omega⟩ (sim_ck ⟨by omega, by omega⟩ ?_))
  refine Prog.Sim.bind (Prog.Sim.write id) fun _ _ => ?_
  refine (Prog.Sim.forUp (I := fun iz idx => idx = lapS nz iz * ((3 * (ny : Int) - 2) * (3 * nx - 2))) (by simp [lapS]) ?_).mono fun _ _ => trivial
  rintro iz idx g0 g1 rfl
  refine sim_ck ⟨by omega, by omega⟩ ?_
  have sz := lapS_step (N := nz) (nz := nz) (by omega) g0 g1
  have rz : ∀ dz : Int, (if iz ≥ 1 ∧ iz < (nz : Int) - 1 then (3 : Int) else if nz = 1 then 1 else 2) = dz → 0 ≤ dz ∧ dz ≤ 3 := by
    rintro _ rfl; split <;> (try split) <;> omega
  generalize hdz : (if iz ≥ 1 ∧ iz < (nz : Int) - 1 then (3 : Int) else if nz = 1 then 1 else 2) = dz at sz ⊢
  replace rz := rz dz hdz
  rw [sz]
  refine (Prog.Sim.forUp (I := fun iy idx => idx = lapS nz iz * ((3 * (ny : Int) - 2) * (3 * nx - 2)) + dz * (lapS ny iy * (3 * nx - 2)))
    (by simp [lapS]) ?_).mono fun idx h => ?_
  · rintro iy idx g2 g3 rfl
    refine sim_ck ⟨by omega, by omega⟩ ?_
    have sy := lapS_step (N := ny) (nz := nz) hy' g2 g3
    have ry : ∀ ey : Int, (if iy ≥ 1 ∧ iy < (ny : Int) - 1 then (3 : Int) else if nz = 1 then 1 else 2) = ey → 0 ≤ ey ∧ ey ≤ 3 := by
      rintro _ rfl; split <;> (try split) <;> omega
    generalize hey : (if iy ≥ 1 ∧ iy < (ny : Int) - 1 then (3 : Int) else if nz = 1 then 1 else 2) = ey at sy ⊢
    replace ry := ry ey hey
    rw [sy]
    have ryz : 0 ≤ ey * dz ∧ ey * dz ≤ 9 := by constructor <;> nlinarith
    refine sim_ck ⟨by omega, by omega⟩ ?_
    refine (Prog.Sim.forUp (I := fun ix idx => idx = lapS nz iz * ((3 * (ny : Int) - 2) * (3 * nx - 2)) + dz * (lapS ny iy * (3 * nx - 2)) +
          ey * dz * lapS nx ix) (by simp [lapS]) ?_).mono fun idx h => ?_
    · rintro ix idx g4 g5 rfl
      have hr := lap_row g0 g1 g2 g3 g4 g5
      refine sim_ck ⟨by omega, by omega⟩ (sim_ck ⟨by omega, by omega⟩ (sim_ck ⟨by omega, by omega⟩ (sim_ck ⟨by omega, by omega⟩
        (sim_ck ⟨by omega, by omega⟩ ?_))))
      have sx := lapS_step (N := nx) (nz := nz) hx' g4 g5
      have rx : ∀ ex : Int, (if ix ≥ 1 ∧ ix < (nx : Int) - 1 then (3 : Int) else if nz = 1 then 1 else 2) = ex → 0 ≤ ex ∧ ex ≤ 3 := by
        rintro _ rfl; split <;> (try split) <;> omega
      generalize hex : (if ix ≥ 1 ∧ ix < (nx : Int) - 1 then (3 : Int) else if nz = 1 then 1 else 2) = ex at sx ⊢
      replace rx := rx ex hex
      rw [sx]
      have rxyz : 0 ≤ ex * (ey * dz) ∧ ex * (ey * dz) ≤ 27 := by constructor <;> nlinarith
      have hle := lap_sum_le (a := lapS nz iz) (dz := dz) (b := lapS ny iy) (ey := ey) (c := lapS nx ix) (ex := ex)
        (Tz := 3 * (nz : Int) - 2) (Ty := 3 * (ny : Int) - 2) (Tx := 3 * (nx : Int) - 2)
        (lapS_nonneg (by omega)) (lapS_nonneg (by omega)) (lapS_nonneg (by omega)) rz.1 ry.1 rx.1
        (by rw [← sz]; exact lapS_le (by omega) (by omega)) (by rw [← sy]; exact lapS_le (by omega) (by omega))
        (by rw [← sx]; exact lapS_le (by omega) (by omega))
      have e : lapS nz iz * ((3 * (ny : Int) - 2) * (3 * nx - 2)) + dz * (lapS ny iy * (3 * nx - 2)) + ey * dz * lapS nx ix + ex * (ey * dz) =
        lapS nz iz * ((3 * (ny : Int) - 2) * (3 * nx - 2)) + dz * (lapS ny iy * (3 * nx - 2)) + ey * dz * (lapS nx ix + ex) := by ring
      have hT : (3 * (nz : Int) - 2) * ((3 * (ny : Int) - 2) * (3 * nx - 2)) = lapTotal nx ny nz := rfl
      refine sim_ck ⟨by omega, by omega⟩ (sim_ck ⟨by omega, by omega⟩ (sim_ck ⟨by omega, by omega⟩ ?_))
      exact Prog.Sim.bind (Prog.Sim.write id) fun _ _ => .ret _ e
    · rw [h, show max 0 (nx : Int) = nx by omega, lapS_end (N := (nx : Int)) (by omega)]; ring
  · rw [h, show max 0 (ny : Int) = ny by omega, lapS_end (N := (ny : Int)) (by omega)]; ring

omit hx hy px py pz hb in
theorem lap_nb {N i s : Int} (h0 : 0 ≤ i) (h1 : i < N) (hs : (if i ≤ 0 then 0 else -1 : Int) ≤ s) (he : s < (if i ≥ N - 1 then 0 else 1 : Int) + 1) :
    0 ≤ i + s ∧ i + s < N ∧ -1 ≤ s ∧ s ≤ 1 := by
  split at hs <;> split at he <;> omega

theorem sim_lapRow [One R] [Div R] {d o : R} {iz iy ix : Int} (z0 : 0 ≤ iz) (z1 : iz < nz) (y0 : 0 ≤ iy) (y1 : iy < ny) (x0 : 0 ≤ ix) (x1 : ix < nx) :
    Prog.Sim (fun _ => False) m0 (fun _ => True) (lapRowProgC k nx ny nz d o iz iy ix : Prog (CTy R) Unit) (lapRowProg k nx ny nz d o iz iy ix) := by
  have hs := lap_size hx hy px py pz hb
  have hr := lap_row z0 z1 y0 y1 x0 x1
  unfold lapRowProgC lapRowProg
  refine sim_ck ⟨by omega, by omega⟩ (sim_ck ⟨by omega, by omega⟩ (sim_ck ⟨by omega, by omega⟩ (sim_ck ⟨by omega, by omega⟩
    (sim_ck ⟨by omega, by omega⟩ (sim_ck ⟨by omega, by omega⟩ (sim_ck ⟨by omega, by omega⟩ ?_))))))
  refine Prog.Sim.bind Prog.Sim.read fun idx _ => Prog.Sim.bind (Q := fun _ => True) ?_ fun _ _ => .ret _ trivial
  refine Prog.Sim.forUp (I := fun _ _ => True) trivial fun sz _ a1 a2 _ => Prog.Sim.forUp (I := fun _ _ => True) trivial fun sy _ b1 b2 _ =>
    Prog.Sim.forUp (I := fun _ _ => True) trivial fun sx _ c1 c2 _ => ?_
  have ha := lap_nb z0 z1 a1 a2
  have hbb := lap_nb y0 y1 b1 b2
  have hc := lap_nb x0 x1 c1 c2
  have hr' := lap_row ha.1 ha.2.1 hbb.1 hbb.2.1 x0 x1
  have hr'' := lap_row ha.1 ha.2.1 hbb.1 hbb.2.1 hc.1 hc.2.1
  have e1 : ((iz + sz) * ny + (iy + sy)) * nx + ix = (iz * ny + iy) * nx + ix + (sz * ny + sy) * nx := by ring
  have e2 : ((iz + sz) * ny + (iy + sy)) * nx + (ix + sx) = (iz * ny + iy) * nx + ix + (sz * ny + sy) * nx + sx := by ring
  have e3 : (iz + sz) * ny = iz * ny + sz * ny := by ring
  refine sim_ck ⟨by omega, by omega⟩ (sim_ck ⟨by omega, by omega⟩ (sim_ck ⟨by omega, by omega⟩ (sim_ck ⟨by omega, by omega⟩
    (sim_ck ⟨by omega, by omega⟩ ?_))))
  unfold lapEntry
  refine Prog.Sim.bind (Q := fun _ => True) (Prog.Sim.ite (fun _ => ?_) fun _ => Prog.Sim.write id) fun _ _ =>
    Prog.Sim.bind (Prog.Sim.write id) fun _ _ => .ret _ trivial
  exact Prog.Sim.bind (Prog.Sim.write id) fun _ _ => Prog.Sim.bind (Prog.Sim.write id) fun _ _ => Prog.Sim.bind (Prog.Sim.write id) fun _ _ =>
    Prog.Sim.write id

omit hx hy px py pz hb in
theorem sim_parMap {sz : CArr → Int} {a : CArr} {n : Nat} {g : CTy R a → CTy R a} : Script.Sim (fun _ => False) m0 (parMap sz a n g) (parMap sz a n g) :=
  .phase _ _ (fun _ _ => True) _ _ _ _ (fun _ _ => Prog.Sim.refl _) fun _ _ => .done _

omit hx hy px py pz hb in
theorem sim_make1Based {sz : CArr → Int} {n : Nat} {o : Opt} : Script.Sim (fun _ => False) m0 (make1Based sz k n o) (make1Based sz k n o) := by
  unfold make1Based
  refine Script.Sim.seq (Prog.Sim.refl _) fun b _ => ?_
  split
  · exact .done _
  · refine Script.Sim.seq (Prog.Sim.refl _) fun z _ => ?_
    unfold shiftIndices
    refine Script.Sim.bind sim_parMap fun _ => Script.Sim.bind sim_parMap fun _ => ?_
    split
    · exact sim_parMap
    · exact .done _

theorem sim_laplacian [One R] [Div R] {d o : R} {base : Int} :
    Script.Sim (fun _ => False) m0 (laplacianC k nx ny nz d o base : Script (CTy R) Unit) (laplacian k nx ny nz d o base) := by
  unfold laplacianC laplacian
  refine Script.Sim.seq (sim_lapCount hx hy px py pz hb) fun idx _ => ?_
  refine .phase _ _ (fun _ _ => True) _ _ _ _ (fun u hu => Prog.Sim.forUp' fun ix h1 h2 => ?_) fun _ _ => ?_
  · have h3 : u / ny < nz := Nat.div_lt_of_lt_mul (by rw [Nat.mul_comm]; exact hu)
    have h4 : u % ny < ny := Nat.mod_lt _ (by omega)
    exact sim_lapRow hx hy px py pz hb (Int.natCast_nonneg _) (by exact_mod_cast h3) (Int.natCast_nonneg _) (by exact_mod_cast h4) h1 h2
  · split
    · exact sim_make1Based
    · exact Script.Sim.seq (Prog.Sim.refl _) fun _ _ => .done _

end
end SpMP
