import Verif.BlockSweep
import Verif.RowsMem
import Verif.Spec.Ilu
import Verif.Spec.Level
import Verif.Base
/-
ILU(0) of the preconditioned solver example (/repo/test/pcg.cpp:136-235). The matrix is CSR object 0, the array lu is `vec 1`,
taskFinished is `itmp 0`. Row and diagonal pointers, which nothing writes, are read once per use instead of in every loop test.
-/

namespace SpMP
open Spec

set_option linter.unusedSectionVars false

variable {R : Type} [Sub R] [Mul R] [Div R] [Races CArr]

/-- pcg.cpp:160-167, 218-225 the merge of the rest of row `row` with the rest of row `c`:
`while (k1 < rowptr[row+1] && k2 < rowptr[c+1])`. The first argument bounds the number of iterations; the caller passes
the sum of the two lengths plus one, and running out of it would be an error. -/
def iluMerge (base : Nat) (hi1 hi2 : Int) (tmp : R) : Nat → Int → Int → Prog (CTy R) Unit
  | 0, _, _ => Prog.fail
  | fuel + 1, k1, k2 =>
    if k1 < hi1 ∧ k2 < hi2 then do
      let c1 ← Prog.read (ty := CTy R) (.colidx 0) (k1 - base)
      let c2 ← Prog.read (ty := CTy R) (.colidx 0) (k2 - base)
      if (c1 : Int) < c2 then iluMerge base hi1 hi2 tmp fuel (k1 + 1) k2
      else if (c2 : Int) < c1 then iluMerge base hi1 hi2 tmp fuel k1 (k2 + 1)
      else do
        let a ← Prog.read (ty := CTy R) (.vec 1) (k1 - base)
        let b ← Prog.read (ty := CTy R) (.vec 1) (k2 - base)
        Prog.write (ty := CTy R) (.vec 1) (k1 - base) (a - tmp * b)
        iluMerge base hi1 hi2 tmp fuel (k1 + 1) (k2 + 1)
    else pure ()

/-- pcg.cpp:153-158, 211-216 one entry left of the diagonal: `c = colidx[j]; tmp = lu[j] /= lu[diagptr[c]]; k1 = j + 1;
k2 = diagptr[c] + 1;` and the merge. -/
def iluEntry (base : Nat) (hi : Int) (j : Int) : Prog (CTy R) Unit := do
  let c ← Prog.read (ty := CTy R) (.colidx 0) (j - base)
  let dc ← Prog.read (ty := CTy R) (.diagptr 0) ((c : Int) - base)
  let a ← Prog.read (ty := CTy R) (.vec 1) (j - base)
  let x ← Prog.read (ty := CTy R) (.vec 1) ((dc : Int) - base)
  Prog.write (ty := CTy R) (.vec 1) (j - base) (a / x)
  let hi2 ← Prog.read (ty := CTy R) (.rowptr 0) ((c : Int) - base + 1)
  iluMerge base hi hi2 (a / x) ((hi - (j + 1)).toNat + ((hi2 : Int) - (dc + 1)).toNat + 1) (j + 1) (dc + 1)

/-- pcg.cpp:209-227 row `row - base = r` of the parallel factorisation: `for (j = rowptr[row]; j < diagptr[row]; ++j)`. -/
def iluRow (base : Nat) (r : Nat) : Prog (CTy R) Unit := do
  let lo ← Prog.read (ty := CTy R) (.rowptr 0) r
  let d ← Prog.read (ty := CTy R) (.diagptr 0) r
  let hi ← Prog.read (ty := CTy R) (.rowptr 0) (r + 1)
  Prog.forUp (ty := CTy R) (lo : Int) (d : Int) () fun j _ => iluEntry base hi j

/-- pcg.cpp:152-168 row `i` of the sequential factorisation. The pointers are shifted by the base but `i` runs from 0, so with base 1
row `i` reads index `i - 1`. -/
def iluRowRef (base : Nat) (i : Int) : Prog (CTy R) Unit := do
  let lo ← Prog.read (ty := CTy R) (.rowptr 0) (i - base)
  let d ← Prog.read (ty := CTy R) (.diagptr 0) (i - base)
  let hi ← Prog.read (ty := CTy R) (.rowptr 0) (i - base + 1)
  Prog.forUp (ty := CTy R) (lo : Int) (d : Int) () fun j _ => iluEntry base hi j

/-- pcg.cpp:147-150, 187-190 `for (i = base; i < nnz + base; i++) lu[i] = values[i]`, shared between the threads. -/
def iluInit (sz : CArr → Int) (nnz : Nat) : Script (CTy R) Unit := copyArr sz (.vec 1) (.values 0) rfl nnz

/-- pcg.cpp:136-169 the sequential factorisation. -/
def ilu0Ref (sz : CArr → Int) (base m nnz : Nat) : Script (CTy R) Unit :=
  (iluInit sz nnz).bind fun _ =>
  .seq sz (Prog.forUp (ty := CTy R) 0 (m : Int) () fun i _ => iluRowRef base i) fun _ => .done ()

/-- pcg.cpp:191-231 the task loop of the parallel factorisation. -/
def iluExec (S : Schedule) (base : Nat) : P2P (CTy R) := sweepP2P (fwdTasks S) (fwdRows S) S.parF (iluRow base)

/-! ### The merge -/

theorem findCol_nil (A : Csr R) {lo hi c : Nat} (h : hi ≤ lo) : findCol A lo hi c = none := by
  unfold findCol
  have : hi - lo = 0 := by omega
  rw [this]; rfl

theorem findCol_cons (A : Csr R) {lo hi c : Nat} (h : lo < hi) :
    findCol A lo hi c = if A.col lo = c then some lo else findCol A (lo + 1) hi c := by
  unfold findCol
  have : hi - lo = (hi - (lo + 1)) + 1 := by omega
  rw [this, List.range'_succ, List.find?_cons]
  by_cases hc : A.col lo = c
  · simp [hc]
  · simp [hc]

theorem findCol_some {A : Csr R} {lo hi c k : Nat} (h : findCol A lo hi c = some k) : lo ≤ k ∧ k < hi ∧ A.col k = c := by
  unfold findCol at h
  have h1 := List.mem_of_find?_eq_some h
  have h2 := List.find?_some h
  rw [List.mem_range'_1] at h1
  simp at h2
  omega

theorem findCol_none {A : Csr R} {lo hi c : Nat} (h : ∀ k, lo ≤ k → k < hi → A.col k ≠ c) : findCol A lo hi c = none := by
  cases hf : findCol A lo hi c with
  | none => rfl
  | some k => obtain ⟨h1, h2, h3⟩ := findCol_some hf; exact absurd h3 (h k h1 h2)

/-- What the merge computes: positions `k1 .. hi1-1` change where `k2 .. hi2-1` has the same column. -/
def mergeF (A : Csr R) (hi1 hi2 : Nat) (tmp : R) (k1 k2 : Nat) (y : Nat → R) : Nat → R := fun k =>
  if k1 ≤ k ∧ k < hi1 then
    match findCol A k2 hi2 (A.col k) with
    | some k' => y k - tmp * y k'
    | none => y k
  else y k

theorem mergeF_done {A : Csr R} {hi1 hi2 : Nat} {tmp : R} {k1 k2 : Nat} {y : Nat → R} (h : ¬ (k1 < hi1 ∧ k2 < hi2)) :
    mergeF A hi1 hi2 tmp k1 k2 y = y := by
  funext k
  unfold mergeF
  split
  · next h1 =>
    rw [findCol_nil A (by omega)]
  · rfl

/-- Columns increase on a range of positions. -/
def SortedOn (A : Csr R) (lo hi : Nat) : Prop := ∀ j j', lo ≤ j → j < j' → j' < hi → A.col j < A.col j'

theorem mergeF_left {A : Csr R} {hi1 hi2 : Nat} {tmp : R} {k1 k2 : Nat} {y : Nat → R} (h2 : SortedOn A k2 hi2) (hk2 : k2 < hi2)
    (h : A.col k1 < A.col k2) : mergeF A hi1 hi2 tmp (k1 + 1) k2 y = mergeF A hi1 hi2 tmp k1 k2 y := by
  funext k
  unfold mergeF
  by_cases hk : k1 + 1 ≤ k ∧ k < hi1
  · rw [if_pos hk, if_pos (by omega)]
  · rw [if_neg hk]
    split
    · next h1 =>
      have : k = k1 := by omega
      subst this
      rw [findCol_none]
      intro k' g1 g2
      rcases Nat.eq_or_lt_of_le g1 with g | g
      · subst g; omega
      · have := h2 k2 k' (Nat.le_refl _) g g2; omega
    · rfl

theorem mergeF_right {A : Csr R} {hi1 hi2 : Nat} {tmp : R} {k1 k2 : Nat} {y : Nat → R} (h1 : SortedOn A k1 hi1) (hk2 : k2 < hi2)
    (h : A.col k2 < A.col k1) : mergeF A hi1 hi2 tmp k1 (k2 + 1) y = mergeF A hi1 hi2 tmp k1 k2 y := by
  funext k
  unfold mergeF
  by_cases hk : k1 ≤ k ∧ k < hi1
  · rw [if_pos hk, if_pos hk, findCol_cons A hk2, if_neg]
    rcases Nat.eq_or_lt_of_le hk.1 with g | g
    · subst g; omega
    · have := h1 k1 k (Nat.le_refl _) g hk.2; omega
  · rw [if_neg hk, if_neg hk]

theorem mergeF_eq {A : Csr R} {hi1 hi2 : Nat} {tmp : R} {k1 k2 : Nat} {y : Nat → R} (h1 : SortedOn A k1 hi1) (hk1 : k1 < hi1) (hk2 : k2 < hi2)
    (hd : hi2 ≤ k1) (h : A.col k1 = A.col k2) :
    mergeF A hi1 hi2 tmp (k1 + 1) (k2 + 1) (updV y k1 (y k1 - tmp * y k2)) = mergeF A hi1 hi2 tmp k1 k2 y := by
  funext k
  unfold mergeF
  by_cases hk : k1 + 1 ≤ k ∧ k < hi1
  · rw [if_pos hk, if_pos (by omega), findCol_cons A hk2, if_neg (by have := h1 k1 k (Nat.le_refl _) (by omega) hk.2; omega)]
    have hne : k ≠ k1 := by omega
    cases hf : findCol A (k2 + 1) hi2 (A.col k) with
    | none => simp [updV, hne]
    | some k' =>
      obtain ⟨_, g, _⟩ := findCol_some hf
      have hne' : k' ≠ k1 := by omega
      simp [updV, hne, hne']
  · rw [if_neg hk]
    by_cases he : k = k1
    · subst he
      rw [if_pos (by omega), findCol_cons A hk2, if_pos h.symm]
      simp [updV]
    · rw [if_neg (by omega)]; simp [updV, he]

/-- Memory of a factorisation: pattern and diagonal pointers. -/
structure IluMem (m0 : Mem (CTy R)) (base : Nat) (A : Csr R) (dp : Nat → Nat) : Prop where
  pat : HoldsPat m0 0 base A
  diag : ∀ i : Nat, i < A.m → m0 (.diagptr 0) (i : Int) = some ((dp i : Int) + base)

theorem iluMerge_wp {sz : CArr → Int} {m0 : Mem (CTy R)} {base : Nat} {A : Csr R} {i c : Nat} {W Rd : CArr → Int → Prop} {hi1 hi2 : Nat} {tmp : R}
    (hA : HoldsPat m0 0 base A) (hn1 : hi1 ≤ A.nnz) (hn2 : hi2 ≤ A.nnz)
    (hsz : (A.nnz : Int) ≤ sz (.vec 1)) (hrd : ∀ k, Rd (.colidx 0) k) :
    ∀ (fuel k1 k2 : Nat) (y : Nat → R) (Q : Unit → Mem (CTy R) → Prop), (hi1 - k1) + (hi2 - k2) < fuel →
      SortedOn A k1 hi1 → SortedOn A k2 hi2 → hi2 ≤ k1 →
      (∀ k : Nat, k1 ≤ k → k < hi1 → W (.vec 1) (k : Int) ∧ Rd (.vec 1) (k : Int)) → (∀ k : Nat, k2 ≤ k → k < hi2 → Rd (.vec 1) (k : Int)) →
      Q () (withY m0 A.nnz (mergeF A hi1 hi2 tmp k1 k2 y)) →
      wp sz W Rd (iluMerge base ((hi1 : Int) + base) ((hi2 : Int) + base) tmp fuel ((k1 : Int) + base) ((k2 : Int) + base)) (withY m0 A.nnz y) Q := by
  intro fuel
  induction fuel with
  | zero => intro k1 k2 y Q h; omega
  | succ fuel ih =>
    intro k1 k2 y Q hf s1 s2 hd hw hr hQ
    unfold iluMerge
    by_cases hk : k1 < hi1 ∧ k2 < hi2
    · rw [if_pos (by omega)]
      obtain ⟨hk1, hk2⟩ := hk
      have e1 : ((k1 : Int) + base) - base = (k1 : Int) := by omega
      have e2 : ((k2 : Int) + base) - base = (k2 : Int) := by omega
      have e3 : ((k1 : Int) + base) + 1 = ((k1 + 1 : Nat) : Int) + base := by push_cast; omega
      have e4 : ((k2 : Int) + base) + 1 = ((k2 + 1 : Nat) : Int) + base := by push_cast; omega
      rw [e1, e2, e3, e4]
      refine wp_rd ((A.col k1 : Int) + base) (hrd _) (by rw [withY_other _ _ _ (by simp)]; exact hA.colidx k1 (by omega)) ?_
      refine wp_rd ((A.col k2 : Int) + base) (hrd _) (by rw [withY_other _ _ _ (by simp)]; exact hA.colidx k2 (by omega)) ?_
      have t1 : SortedOn A (k1 + 1) hi1 := fun j j' a => s1 j j' (by omega)
      have t2 : SortedOn A (k2 + 1) hi2 := fun j j' a => s2 j j' (by omega)
      by_cases c1 : A.col k1 < A.col k2
      · have q1 : (A.col k1 : Int) + base < (A.col k2 : Int) + base := by omega
        rw [if_pos q1]
        refine ih _ _ _ _ (by omega) t1 s2 (by omega) (fun k g1 g2 => hw k (by omega) g2) hr ?_
        rw [mergeF_left s2 hk2 c1]; exact hQ
      · have q1 : ¬ (A.col k1 : Int) + base < (A.col k2 : Int) + base := by omega
        rw [if_neg q1]
        by_cases c2 : A.col k2 < A.col k1
        · have q2 : (A.col k2 : Int) + base < (A.col k1 : Int) + base := by omega
          rw [if_pos q2]
          refine ih _ _ _ _ (by omega) s1 t2 (by omega) hw (fun k g1 g2 => hr k (by omega) g2) ?_
          rw [mergeF_right s1 hk2 c2]; exact hQ
        · have q2 : ¬ (A.col k2 : Int) + base < (A.col k1 : Int) + base := by omega
          rw [if_neg q2]
          refine wp_rd (y k1) (hw k1 (Nat.le_refl _) hk1).2 (withY_vec _ _ _ (by omega)) ?_
          refine wp_rd (y k2) (hr k2 (Nat.le_refl _) hk2) (withY_vec _ _ _ (by omega)) ?_
          refine wp_wr (hw k1 (Nat.le_refl _) hk1).1 ⟨by omega, by omega⟩ ?_
          rw [withY_set _ _ _ (by omega)]
          refine ih _ _ _ _ (by omega) t1 t2 (by omega) (fun k g1 g2 => hw k (by omega) g2) (fun k g1 g2 => hr k (by omega) g2) ?_
          rw [mergeF_eq s1 hk1 hk2 hd (by omega)]; exact hQ
    · rw [if_neg (by omega), wp_pure]
      rw [mergeF_done hk] at hQ; exact hQ

/-! ### A row -/

theorem iluEntry_wp {sz : CArr → Int} {m0 : Mem (CTy R)} {base : Nat} {A : Csr R} {dp ep : Nat → Nat} {i j : Nat} {y : Nat → R}
    (hwf : A.WF) (hsp : SplitRows A dp ep) (hs : ∀ i, i < A.m → A.RowSorted i)
    (hm : IluMem m0 base A dp) (hsz : (A.nnz : Int) ≤ sz (.vec 1)) (hi : i < A.m) (hj1 : A.ptr i ≤ j) (hj2 : j < dp i) (Q : Unit → Mem (CTy R) → Prop)
    (hQ : Q () (withY m0 A.nnz (elimEntry A dp i y j))) :
    wp sz (blkW A.InRow i) (blkR A.InRow A.Nbr i) (iluEntry base ((A.ptr (i + 1) : Int) + base) ((j : Int) + base)) (withY m0 A.nnz y) Q := by
  have hbi := hsp.bounds i hi
  have hrow : A.InRow i j := ⟨hi, hj1, by omega⟩
  have hjn := hrow.lt_nnz hwf
  have hci := hsp.lower i j hi hj1 hj2
  have hbc := hsp.bounds (A.col j) (by omega)
  have hn : A.ptr (i + 1) ≤ A.nnz := hwf.ptr_le_nnz (by omega)
  have hcp : A.ptr (A.col j + 1) ≤ A.ptr i := hwf.ptr_mono (by omega) (by omega)
  have hnb : A.Nbr i (A.col j) := ⟨j, hrow, rfl⟩
  have e1 : ((j : Int) + base) - base = (j : Int) := by omega
  have e2 : ((A.col j : Int) + base) - base = (A.col j : Int) := by omega
  have e3 : ((dp (A.col j) : Int) + base) - base = (dp (A.col j) : Int) := by omega
  have e4 : ((j : Int) + base) + 1 = ((j + 1 : Nat) : Int) + base := by push_cast; omega
  have e5 : ((dp (A.col j) : Int) + base) + 1 = ((dp (A.col j) + 1 : Nat) : Int) + base := by push_cast; omega
  unfold iluEntry
  rw [e1, e4]
  refine wp_rd ((A.col j : Int) + base) (Or.inl ⟨by simp, by simp⟩) (by rw [withY_other _ _ _ (by simp)]; exact hm.pat.colidx j hjn) ?_
  rw [e2]
  refine wp_rd ((dp (A.col j) : Int) + base) (Or.inl ⟨by simp, by simp⟩) (by rw [withY_other _ _ _ (by simp)]; exact hm.diag _ (by omega)) ?_
  rw [e3, e5]
  refine wp_rd (y j) (Or.inr ⟨rfl, j, rfl, Or.inl hrow⟩) (withY_vec _ _ _ hjn) ?_
  refine wp_rd (y (dp (A.col j))) (Or.inr ⟨rfl, dp (A.col j), rfl, Or.inr ⟨A.col j, hnb, by omega, hbc.1, by omega⟩⟩) (withY_vec _ _ _ (by omega)) ?_
  refine wp_wr ⟨rfl, j, rfl, hrow⟩ ⟨by omega, by omega⟩ ?_
  rw [withY_set _ _ _ hjn]
  refine wp_rd ((A.ptr (A.col j + 1) : Int) + base) (Or.inl ⟨by simp, by simp⟩) ?_ ?_
  · rw [withY_other _ _ _ (by simp)]
    have := hm.pat.rowptr (A.col j + 1) (by omega)
    push_cast at this; exact this
  refine iluMerge_wp (i := i) (c := A.col j) hm.pat hn (by omega) hsz (fun k => Or.inl ⟨by simp, by simp⟩) _ _ _ _ _ (by omega) ?_ ?_ (by omega) ?_ ?_ ?_
  · intro p p' g1 g2 g3; exact hs i hi p p' (by omega) g2 g3
  · intro p p' g1 g2 g3; exact hs (A.col j) (by omega) p p' (by omega) g2 g3
  · intro k g1 g2
    have : A.InRow i k := ⟨hi, by omega, g2⟩
    exact ⟨⟨rfl, k, rfl, this⟩, Or.inr ⟨rfl, k, rfl, Or.inl this⟩⟩
  · intro k g1 g2
    exact Or.inr ⟨rfl, k, rfl, Or.inr ⟨A.col j, hnb, by omega, by omega, g2⟩⟩
  · have : mergeF A (A.ptr (i + 1)) (A.ptr (A.col j + 1)) (y j / y (dp (A.col j))) (j + 1) (dp (A.col j) + 1)
        (updV y j (y j / y (dp (A.col j)))) = elimEntry A dp i y j := by
      funext k
      unfold mergeF elimEntry elimAt
      by_cases hk : k = j
      · subst hk
        rw [if_neg (by omega), if_pos rfl]; simp [updV]
      · rw [if_neg hk]
        by_cases hk2 : j + 1 ≤ k ∧ k < A.ptr (i + 1)
        · rw [if_pos hk2, if_pos (by omega)]
          cases hf : findCol A (dp (A.col j) + 1) (A.ptr (A.col j + 1)) (A.col k) with
          | none => simp [updV, hk]
          | some k' =>
            obtain ⟨_, g, _⟩ := findCol_some hf
            have hne' : k' ≠ j := by omega
            simp [updV, hk, hne']
        · rw [if_neg hk2, if_neg (by omega)]; simp [updV, hk]
    rw [this]; exact hQ

theorem iluRow_block {sz : CArr → Int} {m0 : Mem (CTy R)} {base : Nat} {A : Csr R} {dp ep : Nat → Nat}
    (hwf : A.WF) (hsp : SplitRows A dp ep) (hs : ∀ i, i < A.m → A.RowSorted i)
    (hm : IluMem m0 base A dp) (hsz : (A.nnz : Int) ≤ sz (.vec 1)) :
    IsBlockKernel sz m0 A.m A.nnz A.InRow A.Nbr (iluRow base) (elimRow A dp) := by
  intro r hr y
  have hb := hsp.bounds r hr
  unfold iluRow
  refine wp_rd ((A.ptr r : Int) + base) (Or.inl ⟨by simp, by simp⟩) (by rw [withY_other _ _ _ (by simp)]; exact hm.pat.rowptr r (by omega)) ?_
  refine wp_rd ((dp r : Int) + base) (Or.inl ⟨by simp, by simp⟩) (by rw [withY_other _ _ _ (by simp)]; exact hm.diag r hr) ?_
  refine wp_rd ((A.ptr (r + 1) : Int) + base) (Or.inl ⟨by simp, by simp⟩) ?_ ?_
  · rw [withY_other _ _ _ (by simp)]
    have := hm.pat.rowptr (r + 1) (by omega)
    push_cast at this; exact this
  refine wp_forUp (I := fun i _ mm => ∃ k : Nat, i = (k : Int) + base ∧ A.ptr r ≤ k ∧ k ≤ dp r ∧
      mm = withY m0 A.nnz ((List.range' (A.ptr r) (k - A.ptr r)).foldl (elimEntry A dp r) y)) ?_ ?_ ?_
  · exact ⟨A.ptr r, rfl, Nat.le_refl _, hb.1, by simp⟩
  · rintro i _ mm h1 h2 ⟨k, rfl, hk, hk2, rfl⟩
    refine iluEntry_wp hwf hsp hs hm hsz hr hk (by omega) _ ⟨k + 1, by push_cast; omega, by omega, by omega, ?_⟩
    have e : k + 1 - A.ptr r = (k - A.ptr r) + 1 := by omega
    rw [e, List.range'_concat, List.foldl_append]
    simp only [List.foldl_cons, List.foldl_nil]
    have : A.ptr r + 1 * (k - A.ptr r) = k := by omega
    rw [this]
  · rintro _ mm ⟨k, hk1, hk2, hk3, rfl⟩
    have : k = dp r := by omega
    subst this
    rfl

theorem blockSweep_ilu0 (A : Csr R) (dp : Nat → Nat) (n : Nat) (y : Nat → R) : blockSweep (elimRow A dp) n y = ilu0 A dp n y := by
  induction n with
  | zero => rfl
  | succ n ih => show elimRow A dp n _ = elimRow A dp n _; rw [ih]

end SpMP
