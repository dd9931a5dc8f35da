import Verif.P2P
import Verif.CsrMem
import Verif.Spec.Sweep
/-
Scheduled sweeps over the rows of a matrix: instance of the point-to-point execution for row kernels that
update one entry of a vector. The vector being updated is `vec 1`, the flag array taskFinished is `itmp 0`.
-/

namespace SpMP
open Spec

variable {R : Type}

/-- Memory `m0` with the first `n` entries of the vector `vec 1` replaced by `y`. -/
def withY (m0 : Mem (CTy R)) (n : Nat) (y : Nat → R) : Mem (CTy R)
  | .vec 1, i => if 0 ≤ i ∧ i < n then some (y i.toNat) else m0 (.vec 1) i
  | a, i => m0 a i

theorem withY_other (m0 : Mem (CTy R)) (n : Nat) (y : Nat → R) {a : CArr} (h : a ≠ .vec 1) :
    withY m0 n y a = m0 a := by
  funext i
  cases a with
  | vec k =>
    match k with
    | 0 => rfl
    | 1 => exact absurd rfl h
    | k + 2 => rfl
  | _ => rfl

theorem withY_vec (m0 : Mem (CTy R)) (n : Nat) (y : Nat → R) {i : Nat} (h : i < n) :
    withY m0 n y (.vec 1) (i : Int) = some (y i) := by
  simp [withY, h]

theorem withY_set (m0 : Mem (CTy R)) (n : Nat) (y : Nat → R) {r : Nat} (h : r < n) (v : R) :
    (withY m0 n y).set (.vec 1) (r : Int) v = withY m0 n (updV y r v) := by
  funext a i
  by_cases ha : a = .vec 1
  · subst ha
    rw [Mem.set_same]
    by_cases hi : i = (r : Int)
    · subst hi; rw [if_pos rfl, withY_vec _ _ _ h]; simp [updV]
    · rw [if_neg hi]
      simp only [withY]
      split
      · next h0 =>
        have : i.toNat ≠ r := by omega
        simp [updV, this]
      · rfl
  · rw [Mem.set_other _ _ _ _ _ ha, withY_other _ _ _ ha, withY_other _ _ _ ha]

/-- Cells a row kernel may write: its own entry. -/
def rowW (r : Nat) (a : CArr) (i : Int) : Prop := a = .vec 1 ∧ i = (r : Int)

/-- Cells a row kernel may read: everything except the flags and, of the updated vector, its own entry and those of
its stored neighbours. -/
def rowR (nbr : Nat → Nat → Prop) (r : Nat) (a : CArr) (i : Int) : Prop :=
  (a ≠ .vec 1 ∧ a ≠ .itmp 0) ∨ (a = .vec 1 ∧ ∃ c : Nat, i = (c : Int) ∧ (c = r ∨ nbr r c))

/-- `body r` is code that recomputes entry `r` as `f r y`, reading only stored neighbours of row `r` from the
vector `y` of length `n`; the other arrays hold what they hold in `m0`. -/
def IsKernel (sz : CArr → Int) (m0 : Mem (CTy R)) (m n : Nat) (nbr : Nat → Nat → Prop)
    (body : Nat → Prog (CTy R) Unit) (f : Nat → (Nat → R) → R) : Prop :=
  ∀ r, r < m → ∀ y : Nat → R, wp sz (rowW r) (rowR nbr r) (body r) (withY m0 n y)
    (fun _ m' => m' = withY m0 n (updV y r (f r y)))

/-- The P2P instance. -/
def sweepP2P (tasksOf rowsOf parents : Nat → List Nat) (body : Nat → Prog (CTy R) Unit) : P2P (CTy R) where
  tasksOf := tasksOf
  rowsOf := rowsOf
  parents := parents
  body := body
  fa := .itmp 0
  one := (1 : Int)
  isSet := fun v : Int => v != 0

/-- Scheduled execution of a kernel equals the sequential sweep, in every interleaving. `ord` lists the rows in
sequential order (`pos` is its inverse); conflicting rows must be ordered by the schedule. -/
theorem sweep_correct {sz : CArr → Int} {T m n : Nat} {rank : Nat → Nat} {tasksOf rowsOf parents : Nat → List Nat}
    {body : Nat → Prog (CTy R) Unit} {f : Nat → (Nat → R) → R} {nbr : Nat → Nat → Prop}
    {m0 : Mem (CTy R)} {y0 : Nat → R} {ord pos : Nat → Nat}
    (hv : (sweepP2P tasksOf rowsOf parents body).Valid T rank)
    (hrows : ∀ t r, t < T → r ∈ (sweepP2P tasksOf rowsOf parents body).rowsT t → r < m)
    (hcover : ∀ r, r < m → ∃ t, t < T ∧ r ∈ (sweepP2P tasksOf rowsOf parents body).rowsT t)
    (hord : ∀ k, k < m → ord k < m ∧ pos (ord k) = k) (hpos : ∀ r, r < m → pos r < m ∧ ord (pos r) = r)
    (hk : IsKernel sz m0 m n nbr body f)
    (hdep : ∀ q r, q < m → r < m → pos q < pos r → (nbr r q ∨ nbr q r) →
      (sweepP2P tasksOf rowsOf parents body).RowBefore T q r)
    (hsz : ∀ t b, t < T → b ∈ tasksOf t → (b : Int) < sz (.itmp 0))
    (hflags : ∀ t b, t < T → b ∈ tasksOf t → m0 (.itmp 0) (b : Int) = some (0 : Int))
    (hy : ∀ i : Nat, i < n → m0 (.vec 1) (i : Int) = some (y0 i)) :
    P2POk sz (sweepP2P tasksOf rowsOf parents body) T
      (fun m' => (∀ i : Nat, i < n → m' (.vec 1) (i : Int) = some (sweep f ord m y0 i)) ∧
        ∀ (a : CArr) (i : Int), a ≠ .itmp 0 → ¬ (a = .vec 1 ∧ 0 ≤ i ∧ i < n) → m' a i = m0 a i)
      m0 := by
  have hq : (sweepP2P tasksOf rowsOf parents body).SeqRun sz T m pos rowW (rowR nbr)
      (fun k => withY m0 n (sweep f ord k y0)) := by
    refine ⟨?_, ?_, ?_, ?_, ?_, ?_⟩
    · intro t r ht hr; exact (hpos r (hrows t r ht hr)).1
    · intro t q u r ht hu hq hr he
      have h1 := (hpos q (hrows t q ht hq)).2
      have h2 := (hpos r (hrows u r hu hr)).2
      rw [he] at h1; exact h1.symm.trans h2
    · intro k hk
      obtain ⟨t, ht, hr⟩ := hcover (ord k) (hord k hk).1
      exact ⟨t, ord k, ht, hr, (hord k hk).2⟩
    · intro t r ht hr
      have hrm := hrows t r ht hr
      have := hk r hrm (sweep f ord (pos r) y0)
      refine wp_mono this ?_
      intro _ m' hm'
      rw [hm']
      show _ = withY m0 n (sweep f ord (pos r + 1) y0)
      simp only [sweep, (hpos r hrm).2]
    · intro r i
      refine ⟨?_, ?_⟩
      · rintro ⟨h, _⟩; cases h
      · rintro (⟨_, h⟩ | ⟨h, _⟩)
        · exact h rfl
        · cases h
    · intro t q u r a i ht hu hq hr hlt hconf
      have hqm := hrows t q ht hq
      have hrm := hrows u r hu hr
      have hne : q ≠ r := by rintro rfl; omega
      refine hdep q r hqm hrm hlt ?_
      rcases hconf with ⟨⟨e1, e2⟩, h⟩ | ⟨⟨e1, e2⟩, h⟩
      · subst e1
        rcases h with h | ⟨_, h⟩
        · rcases h with ⟨h, _⟩ | ⟨_, c, h1, h2⟩
          · exact absurd rfl h
          · have hc : c = q := by omega
            subst hc
            rcases h2 with h2 | h2
            · exact absurd h2 hne
            · exact Or.inl h2
        · exact absurd (by omega) hne
      · subst e1
        rcases h with h | ⟨_, h⟩
        · rcases h with ⟨h, _⟩ | ⟨_, c, h1, h2⟩
          · exact absurd rfl h
          · have hc : c = r := by omega
            subst hc
            rcases h2 with h2 | h2
            · exact absurd h2.symm hne
            · exact Or.inr h2
        · exact absurd (by omega) hne
  refine P2POk.mono (p2p_correct (m := m0) hv hq (by rfl) hsz ?_ ?_) ?_
  · intro t b ht hb; exact ⟨(0 : Int), hflags t b ht hb, rfl⟩
  · intro a i ha
    show m0 a i = withY m0 n (sweep f ord 0 y0) a i
    by_cases hv1 : a = .vec 1
    · subst hv1
      simp only [withY, sweep]
      split
      · next h =>
        obtain ⟨j, rfl⟩ := Int.eq_ofNat_of_zero_le h.1
        rw [hy j (by omega)]; simp
      · rfl
    · rw [withY_other _ _ _ hv1]
  · intro m' h
    refine ⟨?_, ?_⟩
    · intro i hi
      rw [h (.vec 1) i (by simp [sweepP2P])]
      exact withY_vec _ _ _ hi
    · intro a i ha hni
      rw [h a i ha]
      by_cases hv1 : a = .vec 1
      · subst hv1
        show withY m0 n _ (.vec 1) i = _
        simp only [withY]
        rw [if_neg (by intro hh; exact hni ⟨rfl, hh⟩)]
      · rw [withY_other _ _ _ hv1]

end SpMP
