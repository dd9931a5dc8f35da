import Verif.Coo
/-
Property theorems C11, C12 (COO conversion, companion quicksort).
-/

namespace SpMP.Props
open SpMP SpMP.Spec

variable {R : Type}

/-- C11, dcoo2csr (sorting requested, any output base `ob`): the object `k` holds a matrix B of the dimensions of the list whose
row `i` is a permutation of the pairs listed for row `i`, ordered by column, with row pointers from `ob` to `nnz + ob`; if
diagptr is allocated, it points at a diagonal entry of every row that has one, and with separate diagonal data idiag/diag hold
the inverse and the value of that entry; nothing outside the object changes. -/
theorem C11_dcoo2csr [One R] [Div R] {sz : CArr → Int} {k ob : Nat} {C : Coo R} {dp sep : Bool} {m0 : Mem (CTy R)}
    (hwf : C.WF) (hc : HoldsCoo m0 C)
    (hs : (C.m : Int) + 1 ≤ sz (.rowptr k)) (hsc : (C.nnz : Int) ≤ sz (.colidx k)) (hsv : (C.nnz : Int) ≤ sz (.values k))
    (hsd : dp = true → (C.m : Int) ≤ sz (.diagptr k))
    (hss : sep = true → (C.m : Int) ≤ sz (.idiag k) ∧ (C.m : Int) ≤ sz (.diag k)) :
    (dcoo2csr sz k C.m C.nnz ob dp sep).Ok m0 (fun _ m => ∃ B : Csr R,
      B.m = C.m ∧ B.n = C.n ∧ B.WF ∧ HoldsPat m k ob B ∧ HoldsVal m k B ∧
      (∀ i, i < C.m → (B.row i).Perm (C.rowList i) ∧ (B.row i).Pairwise fun x y => x.1 ≤ y.1) ∧
      m (.rowptr k) 0 = some (ob : Int) ∧ m (.rowptr k) (C.m : Int) = some ((C.nnz : Int) + ob) ∧
      (dp = true → ∀ i j, B.InRow i j → B.col j = i →
        ∃ j', B.InRow i j' ∧ B.col j' = i ∧ m (.diagptr k) (i : Int) = some ((j' : Int) + ob) ∧
          (sep = true → m (.idiag k) (i : Int) = some (1 / B.val j') ∧ m (.diag k) (i : Int) = some (B.val j'))) ∧
      ∀ a i, ¬ a.ofObj k → m a i = m0 a i) := by
  refine Script.Ok.mono (dcoo2csr_ok hwf hc hs hsc hsv hsd hss) ?_
  rintro _ m ⟨B, hB, hp, hv, hd, hf⟩
  have hm : B.m = C.m := hB.m
  refine ⟨B, hm, hB.n, hB.wf, hp, hv, ?_, ?_, ?_, hd, hf⟩
  · intro i hi
    have e : C.toCsr.row i = C.rowList i := Csr.ofRows_row hi
    have h1 := hB.perm i hi
    rw [e] at h1
    exact ⟨h1, hB.ordered i hi⟩
  · have h := hp.rowptr 0 (Nat.zero_le _)
    rw [hB.wf.ptr_zero] at h
    rw [show (ob : Int) = ((0 : Nat) : Int) + ob by omega]; exact h
  · have h := hp.rowptr C.m (by omega)
    rw [hB.ptr] at h
    rw [h, show C.toCsr.ptr C.m = C.nnz from C.toCsr_nnz hwf]

/-- C11, coo2csr without sorting: row `i` is the list of the pairs listed for row `i`, in list order. -/
theorem C11_coo2csr_unsorted {sz : CArr → Int} {k ob : Nat} {C : Coo R} {m0 : Mem (CTy R)} (hwf : C.WF) (hc : HoldsCoo m0 C)
    (hs : (C.m : Int) + 1 ≤ sz (.rowptr k)) (hsc : (C.nnz : Int) ≤ sz (.colidx k)) (hsv : (C.nnz : Int) ≤ sz (.values k)) :
    (coo2csr sz k C.m C.nnz false ob).Ok m0 (fun _ m => ∃ B : Csr R,
      B.m = C.m ∧ B.n = C.n ∧ B.WF ∧ HoldsPat m k ob B ∧ HoldsVal m k B ∧ (∀ i, i < C.m → B.row i = C.rowList i) ∧
      ∀ a i, a ≠ .rowptr k → a ≠ .colidx k → a ≠ .values k → m a i = m0 a i) := by
  refine Script.Ok.mono (coo2csr_ok hwf hc hs hsc hsv) ?_
  rintro _ m ⟨B, hB, hp, hv, hf⟩
  rw [if_neg (by simp)] at hB
  subst hB
  exact ⟨_, rfl, rfl, C.toCsr_wf hwf, hp, hv, fun i hi => Csr.ofRows_row hi, hf⟩

/-- A 3x3 coordinate list out of order, with a duplicate, an empty row and two diagonal entries. -/
def exampleCoo : Coo Int where
  m := 3
  n := 3
  nnz := 5
  row := fun l => [2, 0, 2, 0, 2].getD l 0
  col := fun l => [2, 1, 0, 0, 2].getD l 0
  val := fun l => [7, 8, 9, 4, 5].getD l 0

theorem exampleCoo_wf : exampleCoo.WF := by
  intro l hl
  have : l < 5 := hl
  have : l = 0 ∨ l = 1 ∨ l = 2 ∨ l = 3 ∨ l = 4 := by omega
  rcases this with rfl | rfl | rfl | rfl | rfl <;> decide

/-- A memory that holds the coordinate list. -/
def cooMem (C : Coo R) : Mem (CTy R)
  | .itmp 0, i => if i < C.nnz ∧ 0 ≤ i then some ((C.row i.toNat : Int) + 1) else none
  | .itmp 1, i => if i < C.nnz ∧ 0 ≤ i then some ((C.col i.toNat : Int) + 1) else none
  | .vec 0, i => if i < C.nnz ∧ 0 ≤ i then some (C.val i.toNat) else none
  | _, _ => none

theorem cooMem_holds (C : Coo R) : HoldsCoo (cooMem C) C := by
  intro l hl
  have h : (l : Int) < C.nnz ∧ (0 : Int) ≤ l := by omega
  exact ⟨if_pos h, if_pos h, if_pos h⟩

example : exampleCoo.rowList 2 = [(2, 7), (0, 9), (2, 5)] := by decide

example : (dcoo2csr (fun _ => 5) 0 exampleCoo.m exampleCoo.nnz (1 : Nat) true true).Ok (cooMem exampleCoo) (fun _ m =>
    m (.rowptr 0) 3 = some (6 : Int)) :=
  Script.Ok.mono (C11_dcoo2csr exampleCoo_wf (cooMem_holds _) (by decide) (by decide) (by decide) (fun _ => by decide)
    (fun _ => by decide)) (by rintro _ m ⟨B, _, _, _, _, _, _, _, h, _⟩; exact h)

/-- C12: qsort(idx, w, left, right), for every key array, value array and range `lo .. hi-1` (possibly empty), terminates without
an access outside the range (`W`/`Rd` are just the cells of the range) and leaves keys and values `kf'`, `vf'` in the range:
the pairs are a permutation of the initial ones, the keys are non-decreasing, and every cell outside the range is unchanged. -/
theorem C12_qsort {sz : CArr → Int} {k lo hi : Nat} {kf : Nat → Int} {vf : Nat → R} {m : Mem (CTy R)}
    (h : ∀ i : Nat, lo ≤ i → i < hi → m (.colidx k) (i : Int) = some (kf i) ∧ m (.values k) (i : Int) = some (vf i))
    (hs : (hi : Int) ≤ sz (.colidx k) ∧ (hi : Int) ≤ sz (.values k)) :
    wp sz (KVCell k lo hi) (KVCell k lo hi) (qsortKV k (hi - lo) (lo : Int) ((hi : Int) - 1)) m fun _ m' =>
      ∃ (kf' : Nat → Int) (vf' : Nat → R),
        (∀ i : Nat, lo ≤ i → i < hi → m' (.colidx k) (i : Int) = some (kf' i) ∧ m' (.values k) (i : Int) = some (vf' i)) ∧
        ((List.range' lo (hi - lo)).map fun i => (kf' i, vf' i)).Perm ((List.range' lo (hi - lo)).map fun i => (kf i, vf i)) ∧
        (∀ x y, lo ≤ x → x ≤ y → y < hi → kf' x ≤ kf' y) ∧
        ∀ a x, ¬ KVCell k lo hi a x → m' a x = m a x := by
  refine wp_qsortKV (hi - lo) (Nat.le_refl _) h (fun _ _ h => h) (fun _ _ h => h) hs ?_
  intro σ m' hw hkv hso hf
  refine ⟨kf ∘ σ, vf ∘ σ, hkv, ?_, hso, hf⟩
  by_cases hl : lo ≤ hi
  · have := (range'_perm (σ := σ) (p := lo) (len := hi - lo)
      (by rw [show lo + (hi - lo) = hi by omega]; exact hw)).map fun i => (kf i, vf i)
    rw [List.map_map] at this
    exact this
  · rw [show hi - lo = 0 by omega]; exact List.Perm.refl _

example : wp (fun _ => 9) (KVCell 0 1 5) (KVCell 0 1 5) (qsortKV (R := Nat) 0 4 1 4)
    (fun a i => match a with
      | .colidx 0 => some (7 - i)
      | .values 0 => some i.toNat
      | _ => none) fun _ m' => ∃ v : Nat, m' (.values 0) 3 = some v := by
  refine wp_mono (C12_qsort (lo := 1) (hi := 5) (kf := fun i => 7 - i) (vf := fun i => i) ?_ (by decide)) ?_
  · intro i _ _; exact ⟨rfl, rfl⟩
  · rintro _ m ⟨kf, vf, h, _⟩
    exact ⟨_, (h 3 (by omega) (by omega)).2⟩

end SpMP.Props
