import Verif.Script
import Verif.Spec.Basic
import Mathlib.Data.Fintype.Card
import Mathlib.Data.Fintype.EquivFin
import Mathlib.Data.List.Sort
/-
Model of the permutation and vector-reordering helpers in /repo/Utils.cpp:95-243.
-/

namespace SpMP
open Spec

theorem isPermFn_surj {n : Nat} {f : Nat → Nat} (h : IsPermFn n f) : ∀ j, j < n → ∃ i, i < n ∧ f i = j := by
  have inj : Function.Injective (fun i : Fin n => (⟨f i, h.1 i i.2⟩ : Fin n)) := by
    intro a b hab
    have : f a = f b := by simpa using congrArg Fin.val hab
    exact Fin.ext (h.2 a b a.2 b.2 this)
  have surj := Finite.injective_iff_surjective.mp inj
  intro j hj
  obtain ⟨i, hi⟩ := surj ⟨j, hj⟩
  exact ⟨i, i.2, by simpa using congrArg Fin.val hi⟩

/-- Arrays of the reordering helpers. -/
inductive VArr where
  | perm | inv
  | vec (k : Nat)
deriving DecidableEq

/-- Element types: `perm`/`inv` are int arrays, the vectors have elements in `R` (double or int in the code). -/
@[reducible] def VTy (R : Type) : VArr → Type
  | .perm => Int
  | .inv => Int
  | .vec _ => R

set_option linter.unusedSectionVars false

variable {R : Type} [Races VArr]

/-- All arrays have `n` elements. -/
def vSize (n : Nat) : VArr → Int := fun _ => n

/-- Utils.cpp:95-101 getInversePerm: `#pragma omp parallel for inversePerm[perm[i]] = i`. -/
def getInversePerm (n : Nat) : Script (VTy R) Unit :=
  .phase (vSize n) n (fun i => do
    let p : Int ← Prog.read (ty := VTy R) .perm i
    Prog.write (ty := VTy R) .inv p (i : Int)) fun _ => .done ()

/-- Utils.cpp:130-136 isInversePerm, the loop from index `i` with `k` iterations left. -/
def isInversePermLoop : Nat → Int → Prog (VTy R) Bool
  | 0, _ => pure true
  | k + 1, i => do
    let p : Int ← Prog.read (ty := VTy R) .perm i
    let v : Int ← Prog.read (ty := VTy R) .inv p
    if v ≠ i then pure false else isInversePermLoop k (i + 1)

/-- Utils.cpp:130-136 isInversePerm. -/
def isInversePerm (len : Nat) : Script (VTy R) Bool :=
  Script.seq (vSize len) (isInversePermLoop len 0) .done

/-- Utils.cpp:103-128 isPerm, release build (NDEBUG: the `assert(false)` lines vanish), as a function of the
array contents. `std::sort` = `List.insertionSort` (any sorting of an int list gives the same result); `std::unique` leaves the length unchanged iff no two adjacent
elements of the sorted copy are equal. The printf lines are dropped. -/
def isPermScan : Int → List Int → Bool
  | _, [] => true
  | i, x :: xs => if x = i - 1 then false else if x ≠ i then false else isPermScan (i + 1) xs

/-- `std::unique(l) == l.end()`: no two neighbours are equal. -/
def noAdjacentEqual : List Int → Bool
  | x :: y :: l => x ≠ y && noAdjacentEqual (y :: l)
  | _ => true

/-- Utils.cpp:103-128 isPerm. -/
def isPerm (perm : List Int) : Bool :=
  let temp := perm.insertionSort (· ≤ ·)
  if noAdjacentEqual temp then true else isPermScan 0 temp

/-- Utils.cpp:138-145 CopyVector(dst, src). -/
def copyVector (dst src n : Nat) :
    Script (VTy R) Unit :=
  .phase (vSize n) n (fun i => do
    let v ← Prog.read (ty := VTy R) (.vec src) i
    Prog.write (ty := VTy R) (.vec dst) i v) fun _ => .done ()

/-- Utils.cpp:147-160 reorderVectorOutOfPlace_(dst, src, perm); `usePerm = false` is the `perm == NULL` case. -/
def reorderOutOfPlace (usePerm : Bool) (dst src n : Nat) : Script (VTy R) Unit :=
  if usePerm then
    .phase (vSize n) n (fun i => do
      let p : Int ← Prog.read (ty := VTy R) .perm i
      Prog.assert (0 ≤ p ∧ p < n)
      let v ← Prog.read (ty := VTy R) (.vec src) i
      Prog.write (ty := VTy R) (.vec dst) p v) fun _ => .done ()
  else copyVector dst src n

/-- Utils.cpp:172-185 reorderVectorOutOfPlaceWithInversePerm_(dst, src, inversePerm). -/
def reorderOutOfPlaceInv (usePerm : Bool) (dst src n : Nat) : Script (VTy R) Unit :=
  if usePerm then
    .phase (vSize n) n (fun i => do
      let p : Int ← Prog.read (ty := VTy R) .inv i
      Prog.assert (0 ≤ p ∧ p < n)
      let v ← Prog.read (ty := VTy R) (.vec src) p
      Prog.write (ty := VTy R) (.vec dst) i v) fun _ => .done ()
  else copyVector dst src n

/-- Utils.cpp:215-221 / 231-236 reorderVector(v, perm): `v` is array `(.vec 0)`, scratch is `(.vec 2)`. -/
def reorderVector (usePerm : Bool) (n : Nat) : Script (VTy R) Unit :=
  if usePerm then
    (reorderOutOfPlace (R := R) true 2 0 n).bind fun _ =>
      copyVector (R := R) 0 2 n
  else .done ()

/-- Utils.cpp:223-229 / 238-243 reorderVectorWithInversePerm(v, inversePerm). -/
def reorderVectorInv (usePerm : Bool) (n : Nat) : Script (VTy R) Unit :=
  if usePerm then
    (reorderOutOfPlaceInv (R := R) true 2 0 n).bind fun _ =>
      copyVector (R := R) 0 2 n
  else .done ()

/-! ### Proofs -/

theorem getInversePerm_ok (n : Nat) (p : Nat → Nat) (hp : IsPermFn n p) (m : Mem (VTy R))
    (hm : ∀ i : Nat, i < n → m .perm (i : Int) = some (p i : Int)) :
    (getInversePerm (R := R) n).Ok m (fun _ m' =>
      (∀ i : Nat, i < n → m' .inv (p i : Int) = some (i : Int)) ∧ ∀ a, a ≠ .inv → m' a = m a) := by
  refine par_rule
    (W := fun t a i => a = .inv ∧ i = (p t : Int))
    (R := fun t a i => a = .perm ∨ (a = .inv ∧ i = (p t : Int)))
    (Q := fun t _ m' => m' .inv (p t : Int) = some (t : Int)) ?_ ?_ ?_
  · rintro t u a i ht hu htu ⟨rfl, rfl⟩ (h | ⟨_, h⟩)
    · cases h
    · exact htu (hp.2 t u ht hu (by omega))
  · intro t ht
    simp only [wp_bind, wp_read, wp_write, true_or, true_and]
    have := hp.1 t ht
    exact ⟨_, hm t ht, rfl, by omega, by simp only [vSize]; omega, by simp⟩
  · intro _ m' hq hf
    refine ⟨?_, ?_⟩
    · intro i hi
      obtain ⟨mt, h1, h2⟩ := hq i hi
      rw [h2 _ _ (Or.inr ⟨rfl, rfl⟩)]; exact h1
    · intro a ha; funext i; exact hf a i (by rintro t _ ⟨h, _⟩; exact ha h)

theorem wp_isInversePermLoop {n : Nat} {p q : Nat → Nat} {m : Mem (VTy R)}
    (hp : ∀ i, i < n → p i < n)
    (hm : ∀ i : Nat, i < n → m .perm (i : Int) = some (p i : Int))
    (hq : ∀ i : Nat, i < n → m .inv (i : Int) = some (q i : Int)) :
    ∀ (k i : Nat), i + k = n → wp (vSize n) (fun _ _ => True) (fun _ _ => True)
      (isInversePermLoop (R := R) k i) m
      (fun r m' => m' = m ∧ (r = true ↔ ∀ j, i ≤ j → j < n → q (p j) = j)) := by
  intro k
  induction k with
  | zero => intro i h; simp only [isInversePermLoop, wp_pure]
            exact ⟨trivial, by simp; intro j h1 h2; omega⟩
  | succ k ih =>
    intro i h
    simp only [isInversePermLoop, wp_bind, wp_read, true_and]
    have hpi := hp i (by omega)
    refine ⟨_, hm i (by omega), _, hq (p i) hpi, ?_⟩
    rw [wp_ite]
    constructor
    · intro hne
      rw [wp_pure]; refine ⟨rfl, ?_⟩
      simp only [Bool.false_eq_true, false_iff]
      intro hall
      exact hne (by have := hall i (by omega) (by omega); show ((q (p i) : Nat) : Int) = i; rw [this])
    · intro heq
      have heq' : q (p i) = i := by
        have : ((q (p i) : Nat) : Int) = i := Classical.byContradiction heq
        omega
      have e : (i : Int) + 1 = ((i + 1 : Nat) : Int) := by omega
      rw [e]
      refine wp_mono (ih (i + 1) (by omega)) ?_
      rintro r m' ⟨h1, h2⟩
      refine ⟨h1, h2.trans ⟨?_, ?_⟩⟩
      · intro hall j h3 h4
        by_cases hj : j = i
        · rw [hj]; exact heq'
        · exact hall j (by omega) h4
      · intro hall j h3 h4; exact hall j (by omega) h4

theorem isInversePerm_ok (n : Nat) (p q : Nat → Nat) (hp : ∀ i, i < n → p i < n) (m : Mem (VTy R))
    (hm : ∀ i : Nat, i < n → m .perm (i : Int) = some (p i : Int))
    (hq : ∀ i : Nat, i < n → m .inv (i : Int) = some (q i : Int)) :
    (isInversePerm (R := R) n).Ok m (fun r m' => m' = m ∧ (r = true ↔ ∀ j, j < n → q (p j) = j)) := by
  refine seq_rule (wp_mono (wp_isInversePermLoop hp hm hq n 0 (by omega)) ?_)
  rintro r m' ⟨h1, h2⟩
  exact ⟨h1, h2.trans ⟨fun h j hj => h j (by omega) hj, fun h j _ hj => h j hj⟩⟩

theorem copyVector_ok (dst src : Nat) (hne : dst ≠ src)
    (n : Nat) (v : Nat → R) (m : Mem (VTy R))
    (hv : ∀ i : Nat, i < n → m (.vec src) (i : Int) = some (v i)) :
    (copyVector dst src n).Ok m (fun _ m' =>
      (∀ i : Nat, i < n → m' (.vec dst) (i : Int) = some (v i)) ∧ ∀ a, a ≠ .vec dst → m' a = m a) := by
  refine par_rule
    (W := fun t a i => a = .vec dst ∧ i = (t : Int))
    (R := fun t a i => a = .vec src ∨ (a = .vec dst ∧ i = (t : Int)))
    (Q := fun t _ m' => m' (.vec dst) (t : Int) = some (v t)) ?_ ?_ ?_
  · rintro t u a i ht hu htu ⟨rfl, rfl⟩ (h | ⟨_, h⟩)
    · exact hne (by injection h)
    · exact htu (by omega)
  · intro t ht
    simp only [wp_bind, wp_read, wp_write, true_or, true_and]
    refine ⟨_, hv t ht, by omega, by simp only [vSize]; omega, ?_⟩
    simp
  · intro _ m' hq hf
    refine ⟨?_, ?_⟩
    · intro i hi
      obtain ⟨mt, h1, h2⟩ := hq i hi
      rw [h2 _ _ (Or.inr ⟨rfl, rfl⟩)]; exact h1
    · intro a ha; funext i; exact hf a i (by rintro t _ ⟨h, _⟩; exact ha h)

theorem reorderOutOfPlace_ok (dst src : Nat) (hne : dst ≠ src)
    (n : Nat) (p : Nat → Nat) (hp : IsPermFn n p) (v : Nat → R) (m : Mem (VTy R))
    (hm : ∀ i : Nat, i < n → m .perm (i : Int) = some (p i : Int))
    (hv : ∀ i : Nat, i < n → m (.vec src) (i : Int) = some (v i)) :
    (reorderOutOfPlace true dst src n).Ok m (fun _ m' =>
      (∀ i : Nat, i < n → m' (.vec dst) (p i : Int) = some (v i)) ∧ ∀ a, a ≠ .vec dst → m' a = m a) := by
  refine par_rule
    (W := fun t a i => a = .vec dst ∧ i = (p t : Int))
    (R := fun t a i => a = .vec src ∨ a = .perm ∨ (a = .vec dst ∧ i = (p t : Int)))
    (Q := fun t _ m' => m' (.vec dst) (p t : Int) = some (v t)) ?_ ?_ ?_
  · rintro t u a i ht hu htu ⟨rfl, rfl⟩ (h | h | ⟨_, h⟩)
    · exact hne (by injection h)
    · cases h
    · exact htu (hp.2 t u ht hu (by omega))
  · intro t ht
    have := hp.1 t ht
    simp only [wp_bind, wp_read, wp_write, wp_assert, true_or, or_true, true_and]
    refine ⟨_, hm t ht, ⟨by omega, by omega⟩, _, hv t ht, rfl, by omega, by simp only [vSize]; omega, ?_⟩
    simp
  · intro _ m' hq hf
    refine ⟨?_, ?_⟩
    · intro i hi
      obtain ⟨mt, h1, h2⟩ := hq i hi
      rw [h2 _ _ (Or.inr (Or.inr ⟨rfl, rfl⟩))]; exact h1
    · intro a ha; funext i; exact hf a i (by rintro t _ ⟨h, _⟩; exact ha h)

theorem reorderOutOfPlaceInv_ok (dst src : Nat) (hne : dst ≠ src)
    (n : Nat) (q : Nat → Nat) (hqr : ∀ i, i < n → q i < n) (v : Nat → R) (m : Mem (VTy R))
    (hm : ∀ i : Nat, i < n → m .inv (i : Int) = some (q i : Int))
    (hv : ∀ i : Nat, i < n → m (.vec src) (i : Int) = some (v i)) :
    (reorderOutOfPlaceInv true dst src n).Ok m (fun _ m' =>
      (∀ i : Nat, i < n → m' (.vec dst) (i : Int) = some (v (q i))) ∧ ∀ a, a ≠ .vec dst → m' a = m a) := by
  refine par_rule
    (W := fun t a i => a = .vec dst ∧ i = (t : Int))
    (R := fun t a i => a = .vec src ∨ a = .inv ∨ (a = .vec dst ∧ i = (t : Int)))
    (Q := fun t _ m' => m' (.vec dst) (t : Int) = some (v (q t))) ?_ ?_ ?_
  · rintro t u a i ht hu htu ⟨rfl, rfl⟩ (h | h | ⟨_, h⟩)
    · exact hne (by injection h)
    · cases h
    · exact htu (by omega)
  · intro t ht
    have := hqr t ht
    simp only [wp_bind, wp_read, wp_write, wp_assert, true_or, or_true, true_and]
    refine ⟨_, hm t ht, ⟨by omega, by omega⟩, _, hv (q t) this, by omega,
      by simp only [vSize]; omega, ?_⟩
    simp
  · intro _ m' hq hf
    refine ⟨?_, ?_⟩
    · intro i hi
      obtain ⟨mt, h1, h2⟩ := hq i hi
      rw [h2 _ _ (Or.inr (Or.inr ⟨rfl, rfl⟩))]; exact h1
    · intro a ha; funext i; exact hf a i (by rintro t _ ⟨h, _⟩; exact ha h)

theorem reorderVector_ok (n : Nat) (p : Nat → Nat) (hp : IsPermFn n p) (v : Nat → R) (m : Mem (VTy R))
    (hm : ∀ i : Nat, i < n → m .perm (i : Int) = some (p i : Int))
    (hv : ∀ i : Nat, i < n → m (.vec 0) (i : Int) = some (v i)) :
    (reorderVector (R := R) true n).Ok m (fun _ m' =>
      (∀ i : Nat, i < n → m' (.vec 0) (p i : Int) = some (v i)) ∧
      ∀ a, a ≠ (.vec 0) → a ≠ (.vec 2) → m' a = m a) := by
  unfold reorderVector
  rw [if_pos rfl, Script.ok_bind]
  refine Script.Ok.mono (reorderOutOfPlace_ok 2 0 (by decide) n p hp v m hm hv) ?_
  rintro _ m1 ⟨h1, h2⟩
  -- contents of tmp as a function
  have hsurj := isPermFn_surj hp
  let w : Nat → Option R := fun j => m1 (.vec 2) (j : Int)
  have hw : ∀ j, j < n → ∃ x, w j = some x := by
    intro j hj; obtain ⟨i, hi, rfl⟩ := hsurj j hj; exact ⟨_, h1 i hi⟩
  by_cases hn : n = 0
  · subst hn
    refine Script.Ok.mono (copyVector_ok 0 2 (by decide) 0 (fun i => v i) m1
      (by intro i hi; omega)) ?_
    rintro _ m2 ⟨_, h4⟩
    exact ⟨by intro i hi; omega, fun a ha ha' => by rw [h4 a ha, h2 a ha']⟩
  let w' : Nat → R := fun j => (w j).getD (v 0)
  refine Script.Ok.mono (copyVector_ok 0 2 (by decide) n w' m1 ?_) ?_
  · intro i hi; obtain ⟨x, hx⟩ := hw i hi
    show m1 (.vec 2) (i : Int) = some ((w i).getD (v 0))
    rw [hx]; exact hx
  · rintro _ m2 ⟨h3, h4⟩
    refine ⟨?_, fun a ha ha' => by rw [h4 a ha, h2 a ha']⟩
    intro i hi
    rw [h3 (p i) (hp.1 i hi)]
    have : w (p i) = some (v i) := h1 i hi
    show some ((w (p i)).getD (v 0)) = _
    rw [this]; rfl

theorem reorderVectorInv_ok (n : Nat) (q : Nat → Nat) (hqr : ∀ i, i < n → q i < n) (v : Nat → R)
    (m : Mem (VTy R))
    (hm : ∀ i : Nat, i < n → m .inv (i : Int) = some (q i : Int))
    (hv : ∀ i : Nat, i < n → m (.vec 0) (i : Int) = some (v i)) :
    (reorderVectorInv (R := R) true n).Ok m (fun _ m' =>
      (∀ i : Nat, i < n → m' (.vec 0) (i : Int) = some (v (q i))) ∧
      ∀ a, a ≠ (.vec 0) → a ≠ (.vec 2) → m' a = m a) := by
  unfold reorderVectorInv
  rw [if_pos rfl, Script.ok_bind]
  refine Script.Ok.mono (reorderOutOfPlaceInv_ok 2 0 (by decide) n q hqr v m hm hv) ?_
  rintro _ m1 ⟨h1, h2⟩
  refine Script.Ok.mono (copyVector_ok 0 2 (by decide) n (fun i => v (q i)) m1 h1) ?_
  rintro _ m2 ⟨h3, h4⟩
  exact ⟨h3, fun a ha ha' => by rw [h4 a ha, h2 a ha']⟩

/-! isPerm -/

theorem noAdjacentEqual_of_nodup : ∀ {l : List Int}, l.Nodup → noAdjacentEqual l = true
  | [], _ => rfl
  | [_], _ => rfl
  | x :: y :: l, h => by
    simp only [List.nodup_cons, List.mem_cons, not_or] at h
    simp only [noAdjacentEqual, ne_eq, Bool.and_eq_true, decide_eq_true_eq]
    exact ⟨h.1.1, noAdjacentEqual_of_nodup (by simp [List.nodup_cons, h.2])⟩

theorem nodup_of_noAdjacentEqual : ∀ {l : List Int}, l.Pairwise (· ≤ ·) → noAdjacentEqual l = true → l.Nodup
  | [], _, _ => List.nodup_nil
  | [_], _, _ => by simp
  | x :: y :: l, hs, h => by
    simp only [noAdjacentEqual, ne_eq, Bool.and_eq_true, decide_eq_true_eq] at h
    have hs' := hs
    rw [List.pairwise_cons] at hs'
    have ih := nodup_of_noAdjacentEqual hs'.2 h.2
    rw [List.nodup_cons]
    refine ⟨?_, ih⟩
    intro hmem
    rcases List.mem_cons.mp hmem with hxy | hxl
    · exact h.1 hxy
    · have h1 := hs'.1 y (by simp)
      have h2 := (List.pairwise_cons.mp hs'.2).1 x hxl
      exact h.1 (by omega)

theorem isPermScan_true : ∀ {l : List Int} {i : Int}, isPermScan i l = true → l.Nodup ∧ ∀ x ∈ l, i ≤ x
  | [], _, _ => by simp
  | x :: xs, i, h => by
    simp only [isPermScan] at h
    split at h
    · cases h
    split at h
    · cases h
    · next h1 h2 =>
      have hx : x = i := by omega
      obtain ⟨ih1, ih2⟩ := isPermScan_true h
      refine ⟨?_, ?_⟩
      · rw [List.nodup_cons]
        refine ⟨?_, ih1⟩
        intro hm; have := ih2 x hm; omega
      · intro y hy
        rcases List.mem_cons.mp hy with h | h
        · omega
        · have := ih2 y h; omega

theorem isPerm_iff_nodup (l : List Int) : isPerm l = true ↔ l.Nodup := by
  have hperm := List.perm_insertionSort (· ≤ ·) l
  have hsort : (l.insertionSort (· ≤ ·)).Pairwise (· ≤ ·) := List.pairwise_insertionSort (· ≤ ·) l
  unfold isPerm
  rw [← hperm.nodup_iff]
  simp only
  split
  · next h => simp only [true_iff]; exact nodup_of_noAdjacentEqual hsort h
  · next h =>
    constructor
    · intro hs; exact (isPermScan_true hs).1
    · intro hn; exact absurd (noAdjacentEqual_of_nodup hn) h

end SpMP
