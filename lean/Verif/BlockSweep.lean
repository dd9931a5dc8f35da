import Verif.SchedExec
/-
Scheduled execution of row code that updates a block of cells per row (all entries of a factor row, say), in place of one vector entry.
The array being updated is `vec 1`, the flag array taskFinished is `itmp 0`.
-/

namespace SpMP
open Spec

variable {R : Type} [Races CArr]

/-- The sequential loop over rows `0 .. k-1` of functions on the whole array. -/
def blockSweep (f : Nat → (Nat → R) → (Nat → R)) : Nat → (Nat → R) → (Nat → R)
  | 0, y => y
  | k + 1, y => f k (blockSweep f k y)

/-- Cells row `r` may write: the ones it owns. -/
def blkW (own : Nat → Nat → Prop) (r : Nat) (a : CArr) (i : Int) : Prop := a = .vec 1 ∧ ∃ c : Nat, i = (c : Int) ∧ own r c

/-- Cells row `r` may read: everything except the flags and, of the updated array, its own cells and those of its neighbours. -/
def blkR (own nbr : Nat → Nat → Prop) (r : Nat) (a : CArr) (i : Int) : Prop :=
  (a ≠ .vec 1 ∧ a ≠ .itmp 0) ∨ (a = .vec 1 ∧ ∃ c : Nat, i = (c : Int) ∧ (own r c ∨ ∃ q, nbr r q ∧ own q c))

/-- `body r` turns the array `y` of length `n` into `f r y`, writing only own cells and reading only own cells and neighbours' cells. -/
def IsBlockKernel (sz : CArr → Int) (m0 : Mem (CTy R)) (m n : Nat) (own nbr : Nat → Nat → Prop)
    (body : Nat → Prog (CTy R) Unit) (f : Nat → (Nat → R) → (Nat → R)) : Prop :=
  ∀ r, r < m → ∀ y : Nat → R, wp sz (blkW own r) (blkR own nbr r) (body r) (withY m0 n y) (fun _ m' => m' = withY m0 n (f r y))

theorem block_exec {S : Schedule} {sz : CArr → Int} {m0 : Mem (CTy R)} {n : Nat} {own nbr : Nat → Nat → Prop}
    {body : Nat → Prog (CTy R) Unit} {f : Nat → (Nat → R) → (Nat → R)} {lvl : Nat → Nat} {y0 : Nat → R}
    (hS : S.Tiling) (hl : S.Levelled lvl) (hT : 1 ≤ S.T)
    (hown : ∀ q r c, own q c → own r c → q = r)
    (hcov : S.CoversFwd nbr)
    (hk : ∀ m1 : Mem (CTy R), (∀ a, a ≠ .itmp 0 → m1 a = m0 a) → IsBlockKernel sz m1 S.m n own nbr body f)
    (hsz : (S.ntasks : Int) ≤ sz (.itmp 0))
    (hy : ∀ i : Nat, i < n → m0 (.vec 1) (i : Int) = some (y0 i)) :
    RunsTo sz S (sweepP2P (fwdTasks S) (fwdRows S) S.parF body) m0 (OnlyY m0 n (blockSweep f S.m y0)) := by
  unfold RunsTo
  refine Script.Ok.mono (clearFlags_ok hT hsz) ?_
  rintro _ m1 ⟨hf, hr⟩
  have hk1 := hk m1 hr
  have hrows : ∀ t r, t < S.T → r ∈ (sweepP2P (fwdTasks S) (fwdRows S) S.parF body).rowsT t → r < S.m :=
    fun t r ht h => fwd_rows_lt hS ht h
  have hq : (sweepP2P (fwdTasks S) (fwdRows S) S.parF body).SeqRun sz S.T S.m (fun r => r) (blkW own) (blkR own nbr)
      (fun k => withY m1 n (blockSweep f k y0)) := by
    refine ⟨?_, ?_, ?_, ?_, ?_, ?_⟩
    · intro t r ht hr; exact hrows t r ht hr
    · intro t q u r _ _ _ _ he; exact he
    · intro k hk
      obtain ⟨t, ht, h⟩ := fwd_cover hS hk
      exact ⟨t, k, ht, h, rfl⟩
    · intro t r ht hr
      exact hk1 r (hrows t r ht hr) (blockSweep f r y0)
    · intro r i
      refine ⟨?_, ?_⟩
      · rintro ⟨h, _⟩; cases h
      · rintro (⟨_, h⟩ | ⟨h, _⟩)
        · exact h rfl
        · cases h
    · intro t q u r a i ht hu hq hr hlt hconf
      have hqm := hrows t q ht hq
      have hrm := hrows u r hu hr
      have hne : q ≠ r := by rintro rfl; exact Nat.lt_irrefl _ hlt
      have hn : nbr r q ∨ nbr q r := by
        rcases hconf with ⟨⟨e1, c, e2, ho⟩, h⟩ | ⟨⟨e1, c, e2, ho⟩, h⟩
        · subst e1
          rcases h with (⟨h, _⟩ | ⟨_, c', h1, h2⟩) | ⟨_, c', h1, h2⟩
          · exact absurd rfl h
          · have hc : c' = c := by omega
            subst hc
            rcases h2 with h2 | ⟨q', h3, h4⟩
            · exact absurd (hown _ _ _ ho h2) hne
            · have := hown _ _ _ ho h4
              subst this; exact Or.inl h3
          · have hc : c' = c := by omega
            subst hc; exact absurd (hown _ _ _ ho h2) hne
        · subst e1
          rcases h with (⟨h, _⟩ | ⟨_, c', h1, h2⟩) | ⟨_, c', h1, h2⟩
          · exact absurd rfl h
          · have hc : c' = c := by omega
            subst hc
            rcases h2 with h2 | ⟨q', h3, h4⟩
            · exact absurd (hown _ _ _ ho h2).symm hne
            · have := hown _ _ _ ho h4
              subst this; exact Or.inr h3
          · have hc : c' = c := by omega
            subst hc; exact absurd (hown _ _ _ ho h2).symm hne
      obtain ⟨a, ha, hqa⟩ := exists_rowIn hS hqm
      obtain ⟨b, hb, hrb⟩ := exists_rowIn hS hrm
      obtain ⟨t, ht, hat⟩ := fwdTasks_cover hS ha
      obtain ⟨u, hu, hbu⟩ := fwdTasks_cover hS hb
      exact Or.inl ⟨t, u, a, b, ht, hu, hat, hbu, (mem_fwdRows ha).2 hqa, (mem_fwdRows hb).2 hrb,
        fwd_taskBefore hS (hcov q r a b hlt hrm hn hqa hrb)⟩
  refine P2POk.mono (p2p_correct (m := m1) (fwd_valid hS hl) hq (by rfl) ?_ ?_ ?_) ?_
  · intro t b ht hb
    have := fwdTasks_lt hS ht hb
    show (b : Int) < sz (.itmp 0)
    omega
  · intro t b ht hb; exact ⟨(0 : Int), hf b (fwdTasks_lt hS ht hb), rfl⟩
  · intro a i ha
    show m1 a i = withY m1 n (blockSweep f 0 y0) a i
    by_cases hv1 : a = .vec 1
    · subst hv1
      simp only [withY, blockSweep]
      split
      · next h =>
        obtain ⟨j, rfl⟩ := Int.eq_ofNat_of_zero_le h.1
        rw [hr _ (by simp), hy j (by omega)]; simp
      · rfl
    · rw [withY_other _ _ _ hv1]
  · intro m' h
    refine ⟨?_, ?_⟩
    · intro i hi
      rw [h (.vec 1) i (by simp [sweepP2P])]
      exact withY_vec _ _ _ hi
    · intro a i ha hni
      rw [h a i ha]
      by_cases hv1 : a = .vec 1
      · subst hv1
        show withY m1 n _ (.vec 1) i = _
        simp only [withY]
        rw [if_neg (by intro hh; exact hni ⟨rfl, hh⟩), hr _ (by simp)]
      · rw [withY_other _ _ _ hv1, hr a ha]

theorem onlyY_of_withY (m0 : Mem (CTy R)) (n : Nat) (y : Nat → R) : OnlyY m0 n y (withY m0 n y) := by
  refine ⟨fun i hi => withY_vec _ _ _ hi, ?_⟩
  intro a i _ h
  by_cases hv1 : a = .vec 1
  · subst hv1
    simp only [withY]
    rw [if_neg (by intro h'; exact h ⟨rfl, h'⟩)]
  · rw [withY_other _ _ _ hv1]

/-- The sequential loop over the rows with the same code. -/
theorem blockLoop_ok {sz : CArr → Int} {m0 : Mem (CTy R)} {m n : Nat} {own nbr : Nat → Nat → Prop}
    {body : Nat → Prog (CTy R) Unit} {f : Nat → (Nat → R) → (Nat → R)} {y0 : Nat → R} {bodyI : Int → Prog (CTy R) Unit}
    (hbody : ∀ k : Nat, bodyI (k : Int) = body k) (hk : IsBlockKernel sz m0 m n own nbr body f) (hy : ∀ i : Nat, i < n → m0 (.vec 1) (i : Int) = some (y0 i)) (Q : Unit → Mem (CTy R) → Prop)
    (hQ : ∀ m', m' = withY m0 n (blockSweep f m y0) → Q () m') :
    wp sz (fun _ _ => True) (fun _ _ => True) (Prog.forUp (ty := CTy R) 0 (m : Int) () fun i _ => bodyI i) m0 Q := by
  have h0 : m0 = withY m0 n y0 := by
    funext a i
    by_cases hv1 : a = .vec 1
    · subst hv1
      simp only [withY]
      split
      · next h =>
        obtain ⟨j, rfl⟩ := Int.eq_ofNat_of_zero_le h.1
        rw [hy j (by omega)]; simp
      · rfl
    · rw [withY_other _ _ _ hv1]
  refine wp_forUp (I := fun i _ mm => ∃ k : Nat, i = (k : Int) ∧ k ≤ m ∧ mm = withY m0 n (blockSweep f k y0)) ?_ ?_ ?_
  · exact ⟨0, rfl, by omega, h0⟩
  · rintro i _ mm h1 h2 ⟨k, rfl, hk1, rfl⟩
    have := hk k (by omega) (blockSweep f k y0)
    rw [hbody]
    refine wp_mono (wp_relax this (fun _ _ _ => trivial) (fun _ _ _ => trivial)) ?_
    rintro _ m' rfl
    exact ⟨k + 1, by push_cast; rfl, by omega, rfl⟩
  · rintro _ mm ⟨k, h1, h2, rfl⟩
    have : k = m := by omega
    subst this
    exact hQ _ rfl

end SpMP
