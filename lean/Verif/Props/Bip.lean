import Verif.BipMain
import Verif.Sched
import Mathlib.Tactic.IntervalCases
/-
Property theorems C46 (bfsBipartite).
-/

namespace SpMP.Props
open SpMP SpMP.Spec

variable {R : Type}

/-- C46, every team and every interleaving, when the matrix has fewer columns than rows or no row
stores every column: no undefined behaviour, rowPerm/rowInversePerm are inverse permutations of the rows, colPerm/colInversePerm of the
columns, and the matrices are unchanged. `kA`, `kT` are the objects of A and AT. Missing: a matrix with at least as many columns as rows
and a full row, and 1×1 with one thread, which are false (`C46_dense_row_false`, `C46_one_by_one_false`). -/
theorem C46_room_partial {sz : CArr → Int} {T kA kT base : Nat} {A AT : Csr R} {m0 : Mem (CTy R)} (wfA : A.WF) (wfT : AT.WF)
    (htr : PatTranspose A AT) (hT : 1 ≤ T) (hbig : 2 ≤ T * max A.m A.n) (hroom : A.n < A.m ∨ ∀ r, r < A.m → ∃ c, c < A.n ∧ ¬ Stores A r c)
    (hA : HoldsPat m0 kA base A) (hAT : HoldsPat m0 kT base AT) :
    (bfsBipartite sz (fun s => if s = 0 then kA else kT) base T (fun s => if s = 0 then A.m else A.n)).Ok m0 (fun _ m =>
      (∃ rowPerm rowInv, InversePerms A.m rowPerm rowInv ∧ (∀ r : Nat, r < A.m → m (bipPrm 0) (r : Int) = some (rowPerm r : Int)) ∧
        ∀ p : Nat, p < A.m → m (bipInv 0) (p : Int) = some (rowInv p : Int)) ∧
      (∃ colPerm colInv, InversePerms A.n colPerm colInv ∧ (∀ c : Nat, c < A.n → m (bipPrm 1) (c : Int) = some (colPerm c : Int)) ∧
        ∀ p : Nat, p < A.n → m (bipInv 1) (p : Int) = some (colInv p : Int)) ∧
      ∀ a i, (∀ j, a ≠ .itmp j) → m a i = m0 a i) := by
  let M : Nat → Csr R := fun s => if s = 0 then A else AT
  have two : ∀ {P : Nat → Prop}, P 0 → P 1 → ∀ y, y < 2 → P y := by
    intro P h0 h1 y hy
    rcases (by omega : y = 0 ∨ y = 1) with rfl | rfl
    · exact h0
    · exact h1
  have hM : BipPair M := ⟨two wfA wfT, two htr.rows.symm htr.cols⟩
  have hS : BipSame M := by
    refine two ?_ ?_
    · intro x j hj; exact (htr.entries x (A.col j)).1 ⟨j, hj, rfl⟩
    · intro x j hj; exact (htr.entries (AT.col j) x).2 ⟨j, hj, rfl⟩
  have hfit : ∀ i, i < A.m → ∀ l : List Nat, l.Nodup → (∀ x ∈ l, ∃ j, A.InRow i j ∧ A.col j = x) → l.length < max A.m A.n := by
    intro i hi l hl hx
    have hlt : ∀ x ∈ l, x < A.n := by
      intro x hxl
      obtain ⟨j, h1, rfl⟩ := hx x hxl
      exact wfA.col_lt _ (h1.lt_nnz wfA)
    rcases hroom with h | h
    · have := nodup_len_le hl hlt; omega
    · obtain ⟨c, hc, hn⟩ := h i hi
      have := nodup_len_le (n := A.n) (List.nodup_cons.2 ⟨fun hcl => hn (hx c hcl), hl⟩) (fun x hxl => by
        rcases List.mem_cons.1 hxl with rfl | hxl
        · exact hc
        · exact hlt x hxl)
      rw [List.length_cons] at this
      omega
  refine Script.Ok.mono (bfsBipartite_ok (M := M) hM hS hT (n := fun s => if s = 0 then A.m else A.n) (k := fun s => if s = 0 then kA else kT)
    (two rfl htr.rows.symm) hbig hfit (two hA hAT)) ?_
  rintro _ m ⟨h1, h2⟩
  have h3 := h1 1 (by omega)
  have e : (M 1).m = A.n := htr.rows
  rw [e] at h3
  exact ⟨h1 0 (by omega), h3, h2⟩

/-! ### Non-vacuity -/

/-- A memory with two matrices. -/
def csrMem2 (kA kT base : Nat) (A AT : Csr R) : Mem (CTy R) :=
  fun a i => (csrMem kA base A (fun _ => 0) (fun _ => 0) a i).or (csrMem kT base AT (fun _ => 0) (fun _ => 0) a i)

theorem csrMem2_fst (kA kT base : Nat) (A AT : Csr R) : HoldsPat (csrMem2 kA kT base A AT) kA base A := by
  have h := csrMem_pat kA base A (fun _ => 0) (fun _ => 0)
  exact ⟨fun i hi => by unfold csrMem2; rw [h.rowptr i hi]; rfl, fun i hi => by unfold csrMem2; rw [h.colidx i hi]; rfl⟩

theorem csrMem2_snd {kA kT : Nat} (hk : kA ≠ kT) (base : Nat) (A AT : Csr R) : HoldsPat (csrMem2 kA kT base A AT) kT base AT := by
  have h := csrMem_pat kT base AT (fun _ => 0) (fun _ => 0)
  have e1 : ∀ i, csrMem kA base A (fun _ => 0) (fun _ => 0) (.rowptr kT) i = none := fun i => if_neg (fun h => hk h.1.symm)
  have e2 : ∀ i, csrMem kA base A (fun _ => 0) (fun _ => 0) (.colidx kT) i = none := fun i => if_neg (fun h => hk h.1.symm)
  exact ⟨fun i hi => by unfold csrMem2; rw [e1, h.rowptr i hi]; rfl, fun i hi => by unfold csrMem2; rw [e2, h.colidx i hi]; rfl⟩

theorem stores_ofRows {m n : Nat} {rows : Nat → List (Nat × R)} {d : R} {r c : Nat} :
    Stores (Csr.ofRows m n rows d) r c ↔ r < m ∧ c ∈ (rows r).map Prod.fst := by
  constructor
  · rintro ⟨j, ⟨h1, h2, h3⟩, h4⟩
    have h1 : r < m := h1
    refine ⟨h1, ?_⟩
    have : ((Csr.ofRows m n rows d).col j, (Csr.ofRows m n rows d).val j) ∈ (Csr.ofRows m n rows d).row r := Csr.mem_row.2 ⟨j, h2, h3, rfl⟩
    rw [Csr.ofRows_row h1] at this
    rw [← h4]
    exact List.mem_map_of_mem this
  · rintro ⟨h1, h2⟩
    obtain ⟨x, hx, rfl⟩ := List.mem_map.1 h2
    rw [← Csr.ofRows_row (rows := rows) (n := n) (d := d) h1] at hx
    obtain ⟨j, h3, h4, h5⟩ := Csr.mem_row.1 hx
    exact ⟨j, ⟨h1, h3, h4⟩, by rw [← h5]⟩

/-- A matrix of three rows and four columns: row 0 = {1, 3}, row 1 empty, row 2 = {0, 1}; column 2 is empty. -/
def bipA : Csr Int := Csr.ofRows 3 4 (fun i => match i with | 0 => [(1, 1), (3, 1)] | 2 => [(0, 1), (1, 1)] | _ => []) 0
def bipAT : Csr Int := Csr.ofRows 4 3 (fun i => match i with | 0 => [(2, 1)] | 1 => [(0, 1), (2, 1)] | 3 => [(0, 1)] | _ => []) 0

theorem bipA_transpose : PatTranspose bipA bipAT := by
  refine ⟨rfl, rfl, fun r c => ?_⟩
  unfold bipA bipAT
  rw [stores_ofRows, stores_ofRows]
  constructor
  · rintro ⟨h1, h2⟩
    interval_cases r <;> simp at h2 <;> rcases h2 with rfl | rfl <;> decide
  · rintro ⟨h1, h2⟩
    interval_cases c <;> simp at h2
    · subst h2; decide
    · rcases h2 with rfl | rfl <;> decide
    · subst h2; decide

/-- The hypotheses of `C46_room_partial` hold for it, with two threads and base 1. -/
example : bipA.WF ∧ bipAT.WF ∧ PatTranspose bipA bipAT ∧ 2 ≤ 2 * max bipA.m bipA.n ∧ (∀ r, r < bipA.m → ∃ c, c < bipA.n ∧ ¬ Stores bipA r c) ∧
    HoldsPat (csrMem2 0 1 1 bipA bipAT) 0 1 bipA ∧ HoldsPat (csrMem2 0 1 1 bipA bipAT) 1 1 bipAT := by
  refine ⟨?_, ?_, bipA_transpose, by decide, ?_, csrMem2_fst _ _ _ _ _, csrMem2_snd (by decide) _ _ _⟩
  · refine Csr.ofRows_wf ?_
    intro i hi p hp
    interval_cases i <;> simp at hp <;> rcases hp with rfl | rfl <;> decide
  · refine Csr.ofRows_wf ?_
    intro i hi p hp
    interval_cases i <;> simp at hp
    · subst hp; decide
    · rcases hp with rfl | rfl <;> decide
    · subst hp; decide
  · intro r hr
    refine ⟨2, by decide, ?_⟩
    unfold bipA
    rw [stores_ofRows]
    rintro ⟨_, h⟩
    change r < 3 at hr
    interval_cases r <;> simp at h

/-! ### Where the property fails -/

/-- A full matrix of two rows and columns. -/
def bipFull : Csr Int := Csr.ofRows 2 2 (fun i => match i with | 0 => [(0, 1), (1, 1)] | 1 => [(0, 1), (1, 1)] | _ => []) 0

theorem bipFull_wf : bipFull.WF := by
  refine Csr.ofRows_wf ?_
  intro i hi p hp
  interval_cases i <;> simp at hp <;> rcases hp with rfl | rfl <;> decide

theorem bipFull_transpose : PatTranspose bipFull bipFull := by
  refine ⟨rfl, rfl, fun r c => ?_⟩
  unfold bipFull
  rw [stores_ofRows, stores_ofRows]
  constructor
  all_goals
    rintro ⟨h1, h2⟩
    first
      | interval_cases r <;> simp at h2 <;> rcases h2 with rfl | rfl <;> decide
      | interval_cases c <;> simp at h2 <;> rcases h2 with rfl | rfl <;> decide

set_option maxRecDepth 100000 in
/-- A full 2×2 matrix, one thread: the first row claims both columns, and the sum after the second is written to `rowptrs[2]` of an array
of two elements. -/
theorem C46_dense_row_false :
    ¬ (∀ (sz : CArr → Int) (A AT : Csr Int) (m0 : Mem (CTy Int)), A.WF → AT.WF → PatTranspose A AT → 2 ≤ A.m → 2 ≤ A.n → HoldsPat m0 0 0 A → HoldsPat m0 1 0 AT →
      (bfsBipartite (R := Int) sz (fun s => if s = 0 then 0 else 1) 0 1 (fun s => if s = 0 then A.m else A.n)).Ok m0 (fun _ _ => True)) := by
  intro h
  let m0 : Mem (CTy Int) := csrMem2 0 1 0 bipFull bipFull
  have h1 := (h (fun _ => 9) bipFull bipFull m0 bipFull_wf bipFull_wf bipFull_transpose (Nat.le_refl 2) (Nat.le_refl 2) (csrMem2_fst _ _ _ _ _)
    (csrMem2_snd (by decide) _ _ _)).not_runUB
  have h3 : (bfsBipartite (R := Int) (fun _ => 9) (fun s => if s = 0 then 0 else 1) 0 1 (fun s => if s = 0 then bipFull.m else bipFull.n)).runUB m0 = true := by
    decide +kernel
  rw [h3] at h1
  cases h1

/-- One row and one column, one thread: `rowptrs[1]` of an array of one element is written. -/
theorem C46_one_by_one_false :
    ¬ (∀ (sz : CArr → Int) (A AT : Csr Int) (m0 : Mem (CTy Int)), A.WF → AT.WF → PatTranspose A AT → 1 ≤ A.m → HoldsPat m0 0 0 A → HoldsPat m0 1 0 AT →
      (bfsBipartite (R := Int) sz (fun s => if s = 0 then 0 else 1) 0 1 (fun s => if s = 0 then A.m else A.n)).Ok m0 (fun _ _ => True)) := by
  intro h
  let A : Csr Int := Csr.ofRows 1 1 (fun i => match i with | 0 => [(0, 1)] | _ => []) 0
  have hwf : A.WF := by
    refine Csr.ofRows_wf ?_
    intro i hi p hp
    interval_cases i
    simp at hp
    subst hp; decide
  have htr : PatTranspose A A := by
    refine ⟨rfl, rfl, fun r c => ?_⟩
    rw [stores_ofRows, stores_ofRows]
    constructor
    · rintro ⟨h1, h2⟩
      interval_cases r
      simp at h2
      subst h2; decide
    · rintro ⟨h1, h2⟩
      interval_cases c
      simp at h2
      subst h2; decide
  let m0 : Mem (CTy Int) := csrMem2 0 1 0 A A
  have h1 := (h (fun _ => 9) A A m0 hwf hwf htr (Nat.le_refl 1) (csrMem2_fst _ _ _ _ _) (csrMem2_snd (by decide) _ _ _)).not_runUB
  have h3 : (bfsBipartite (R := Int) (fun _ => 9) (fun s => if s = 0 then 0 else 1) 0 1 (fun s => if s = 0 then 1 else 1)).runUB m0 = true := by
    decide +kernel
  rw [show A.m = 1 from rfl, show A.n = 1 from rfl, h3] at h1
  cases h1

end SpMP.Props
