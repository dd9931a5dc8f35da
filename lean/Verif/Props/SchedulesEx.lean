import Verif.Props.Schedules
/-
A concrete schedule and matrix meeting the hypotheses of the theorems in Props/Schedules.lean:
four rows, two threads. Row 2 uses row 0 and row 3 uses row 1; thread 0 runs rows 0, 3 and thread 1 runs rows 1, 2,
so both second tasks wait for the other thread.
-/

namespace SpMP.Props
open SpMP SpMP.Spec

/-- Lower triangular 4x4 matrix: row 2 = (0,3), row 3 = (1,2). -/
def exL : Csr Int where
  m := 4
  n := 4
  ptr := fun i => [0, 0, 0, 1, 2].getD i 2
  col := fun j => [0, 1].getD j 0
  val := fun j => [3, 2].getD j 0

theorem exL_wf : exL.WF := by
  refine ⟨rfl, ?_, ?_⟩
  · intro i hi
    have hi : i < 4 := hi
    match i, hi with
    | 0, _ => decide
    | 1, _ => decide
    | 2, _ => decide
    | 3, _ => decide
  · intro j hj
    have hj : j < 2 := hj
    match j, hj with
    | 0, _ => decide
    | 1, _ => decide

/-- Tasks 0, 1 on thread 0 (rows 0, 3), tasks 2, 3 on thread 1 (rows 1, 2). -/
def exS : Schedule where
  T := 2
  ntasks := 4
  m := 4
  threadB := fun t => t * 2
  taskB := fun k => k
  perm := fun p => [0, 3, 1, 2].getD p 0
  parF := fun k => [[], [2], [], [0]].getD k []
  parB := fun k => [[3], [], [1], []].getD k []

theorem exS_tiling : exS.Tiling := by
  refine ⟨rfl, ?_, rfl, rfl, ?_, rfl, ?_, ?_⟩
  · intro t _; show t * 2 ≤ (t + 1) * 2; omega
  · intro k _; exact Nat.le_succ k
  · decide
  · have : ∀ i : Fin 4, ∀ j : Fin 4, exS.perm i = exS.perm j → i = j := by decide
    intro i j hi hj h
    exact congrArg Fin.val (this ⟨i, hi⟩ ⟨j, hj⟩ h)

/-- Levels of the four tasks. -/
def exLvl (k : Nat) : Nat := k % 2

theorem exS_levelled : exS.Levelled exLvl := by
  refine ⟨?_, ?_, ?_⟩
  · rintro a b ⟨t, ht, h1, h2, h3, h4⟩ hlt
    have h1 : t * 2 ≤ a := h1
    have h4 : b < (t + 1) * 2 := h4
    unfold exLvl; omega
  · intro b p hb hp
    have hb : b < 4 := hb
    match b, hb with
    | 0, _ => simp [exS] at hp
    | 1, _ => have hp : p = 2 := by simpa [exS] using hp
              subst hp; decide
    | 2, _ => simp [exS] at hp
    | 3, _ => have hp : p = 0 := by simpa [exS] using hp
              subst hp; decide
  · intro b p hb hp
    have hb : b < 4 := hb
    match b, hb with
    | 0, _ => have hp : p = 3 := by simpa [exS] using hp
              subst hp; decide
    | 1, _ => simp [exS] at hp
    | 2, _ => have hp : p = 1 := by simpa [exS] using hp
              subst hp; decide
    | 3, _ => simp [exS] at hp

theorem exL_nbr {r c : Nat} (h : exL.Nbr r c) : (r = 2 ∧ c = 0) ∨ (r = 3 ∧ c = 1) := by
  obtain ⟨j, ⟨hr, h1, h2⟩, rfl⟩ := h
  have hr : r < 4 := hr
  match r, hr with
  | 0, _ => have h2 : j < 0 := h2
            omega
  | 1, _ => have h2 : j < 0 := h2
            omega
  | 2, _ => have h2 : j < 1 := h2
            have : j = 0 := by omega
            subst this; exact Or.inl ⟨rfl, rfl⟩
  | 3, _ => have h1 : 1 ≤ j := h1
            have h2 : j < 2 := h2
            have : j = 1 := by omega
            subst this; exact Or.inr ⟨rfl, rfl⟩

theorem exS_row {k r : Nat} (h : exS.RowIn k r) : k < 4 ∧ r = exS.perm k := by
  obtain ⟨p, ⟨h0, h1, h2⟩, h3⟩ := h
  have h1 : k ≤ p := h1
  have h2 : p < k + 1 := h2
  have : p = k := by omega
  subst this; exact ⟨h0, h3.symm⟩

theorem exS_dep {q r a b : Nat} (hlt : q < r) (hn : exL.Nbr r q ∨ exL.Nbr q r) (ha : exS.RowIn a q)
    (hb : exS.RowIn b r) : (a = 0 ∧ b = 3) ∨ (a = 2 ∧ b = 1) := by
  obtain ⟨ha', rfl⟩ := exS_row ha
  obtain ⟨hb', rfl⟩ := exS_row hb
  have hh : (exS.perm b = 2 ∧ exS.perm a = 0) ∨ (exS.perm b = 3 ∧ exS.perm a = 1) := by
    rcases hn with h | h
    · exact exL_nbr h
    · rcases exL_nbr h with ⟨h1, h2⟩ | ⟨h1, h2⟩
      · omega
      · omega
  have : ∀ a : Fin 4, ∀ b : Fin 4, (exS.perm b = 2 ∧ exS.perm a = 0) ∨ (exS.perm b = 3 ∧ exS.perm a = 1) →
      (a.val = 0 ∧ b.val = 3) ∨ (a.val = 2 ∧ b.val = 1) := by decide
  exact this ⟨a, ha'⟩ ⟨b, hb'⟩ hh

theorem exS_coversFwd : exS.CoversFwd exL.Nbr := by
  intro q r a b hlt hr hn ha hb
  rcases exS_dep hlt hn ha hb with ⟨rfl, rfl⟩ | ⟨rfl, rfl⟩
  · exact .parent (by decide) (by simp [exS])
  · exact .parent (by decide) (by simp [exS])

theorem exS_coversBwd : exS.CoversBwd exL.Nbr := by
  intro q r a b hlt hr hn ha hb
  rcases exS_dep hlt hn ha hb with ⟨rfl, rfl⟩ | ⟨rfl, rfl⟩
  · exact .parent (by decide) (by simp [exS])
  · exact .parent (by decide) (by simp [exS])

theorem exS_barriered : exS.Barriered 2 exL.Nbr := by
  refine ⟨fun t _ => rfl, ?_⟩
  intro q r a b hlt hr hn ha hb
  rcases exS_dep hlt hn ha hb with ⟨rfl, rfl⟩ | ⟨rfl, rfl⟩ <;> decide

/-- Memory with matrix `A` (object 0), right-hand side, inverse diagonal and start vector. -/
def solverMem (base : Nat) (A : Csr Int) (b idg y0 : Nat → Int) : Mem (CTy Int) := fun a i =>
  match a with
  | .vec 0 => if 0 ≤ i ∧ i < A.m then some (b i.toNat) else none
  | .vec 1 => if 0 ≤ i ∧ i < A.n then some (y0 i.toNat) else none
  | .idiag 0 => if 0 ≤ i ∧ i < A.m then some (idg i.toNat) else none
  | a => csrMem 0 base A (fun _ => 0) (fun _ => 0) a i

theorem solverMem_ok (base : Nat) (A : Csr Int) (b idg y0 : Nat → Int) :
    SolverMem (solverMem base A b idg y0) base A b idg := by
  refine ⟨⟨?_, ?_⟩, ?_, ?_, ?_⟩
  · intro i hi; exact (csrMem_pat 0 base A (fun _ => 0) (fun _ => 0)).rowptr i hi
  · intro i hi; exact (csrMem_pat 0 base A (fun _ => 0) (fun _ => 0)).colidx i hi
  · intro i hi; exact (csrMem_val 0 base A (fun _ => 0) (fun _ => 0)) i hi
  · intro i hi; simp [solverMem, hi]
  · intro i hi; simp [solverMem, hi]

/-- The hypotheses of C33-C36 hold for the example, for every base, right-hand side and start vector. -/
theorem exSetup (base : Nat) (b idg y0 : Nat → Int) :
    SolveSetup exS (fun _ => 4) (solverMem base exL b idg y0) base exL b idg y0 where
  wf := exL_wf
  rows_le := by decide
  rows := rfl
  team := by decide
  tiling := exS_tiling
  mem := solverMem_ok _ _ _ _ _
  y := by
    intro i hi
    show (if 0 ≤ (i : Int) ∧ (i : Int) < exL.n then some (y0 (i : Int).toNat) else none) = _
    simp [hi]
  size_y := by decide
  size_flags := by decide

example (b idg y0 : Nat → Int) :
    Live (fun _ => 4) exS (forwardExec (R := Int) exS 1 .gs) (solverMem 1 exL b idg y0) :=
  (C35_no_deadlock (exSetup 1 b idg y0) exS_levelled exS_coversFwd exS_coversBwd .gs).1

/-- Subtractions of integers may be exchanged. -/
theorem int_subExchange : SubExchange Int := fun s a b => by omega

/-- Forward solve of the example: right-hand side (1,1,1,1), unit diagonal gives (1,1,-2,-1). -/
example : (List.range 4).map (sweep (rowUpdate exL (fun _ => 1) (fun _ => 1) .solve false) forwardOrd 4 (fun _ => 0)) =
    [1, 1, -2, -1] := by decide

example (b idg y0 : Nat → Int) :
    (barrierFrom (fun _ => 4) 2 (fwdPhase exS) (rowKernel 0 .solve false) 0 2).Ok (solverMem 0 exL b idg y0)
      (fun _ m' => OnlyY (solverMem 0 exL b idg y0) 4 (sweep (rowUpdate exL b idg .solve false) forwardOrd 4 y0) m') :=
  (C36_barrier (exSetup 0 b idg y0) exS_barriered .solve).2.1

/-- The example matrix reordered by the schedule's permutation: new rows 0..3 are old rows 0, 3, 1, 2. -/
def exL' : Csr Int where
  m := 4
  n := 4
  ptr := fun i => [0, 0, 1, 1, 2].getD i 2
  col := fun j => [2, 0].getD j 0
  val := fun j => [2, 3].getD j 0

theorem exL'_permuted : PermutedBy exS.perm exL exL' := by
  refine ⟨rfl, rfl, rfl, exS_tiling.perm, ?_⟩
  intro i hi
  have hi : i < 4 := hi
  match i, hi with
  | 0, _ => decide
  | 1, _ => decide
  | 2, _ => decide
  | 3, _ => decide

theorem exL'_wf : exL'.WF := by
  refine ⟨rfl, ?_, ?_⟩
  · intro i hi
    have hi : i < 4 := hi
    match i, hi with
    | 0, _ => decide
    | 1, _ => decide
    | 2, _ => decide
    | 3, _ => decide
  · intro j hj
    have hj : j < 2 := hj
    match j, hj with
    | 0, _ => decide
    | 1, _ => decide

/-- The hypotheses of C38 hold for the example. -/
example (b idg y0 : Nat → Int) :
    RunsTo (fun _ => 4) exS (forwardExec (R := Int) (noPerm exS) 1 .solve)
      (solverMem 1 exL' (fun i => b (exS.perm i)) (fun i => idg (exS.perm i)) (fun i => y0 (exS.perm i)))
      (OnlyY (solverMem 1 exL' (fun i => b (exS.perm i)) (fun i => idg (exS.perm i)) (fun i => y0 (exS.perm i))) 4
        (fun i => sweep (rowUpdate exL b idg .solve false) forwardOrd 4 y0 (exS.perm i))) := by
  refine (C38_reordered int_subExchange exL'_permuted exS_tiling ?_ exS_levelled .solve).1 exS_coversFwd
  refine ⟨exL'_wf, by decide, rfl, by decide, ?_, solverMem_ok _ _ _ _ _, ?_, by decide, by decide⟩
  · exact ⟨rfl, exS_tiling.threadB_mono, rfl, rfl, exS_tiling.taskB_mono, rfl, ⟨fun _ h => h, fun _ _ _ _ h => h⟩⟩
  · intro i hi
    show (if 0 ≤ (i : Int) ∧ (i : Int) < exL'.n then some (y0 (exS.perm (i : Int).toNat)) else none) = _
    simp [hi]

end SpMP.Props
