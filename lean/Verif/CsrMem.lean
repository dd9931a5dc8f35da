import Verif.Partition
import Verif.Spec.Basic
import Verif.Spec.Csr
/-
The arrays of class CSR (/repo/CSR.hpp:44-71) and what it means that they hold a given matrix.
-/

namespace SpMP
open Spec

/-- Arrays: the members of the CSR object number `k`, plus integer scratch arrays and dense vectors. -/
inductive CArr where
  | rowptr (k : Nat) | colidx (k : Nat) | values (k : Nat)
  | diagptr (k : Nat) | extptr (k : Nat) | idiag (k : Nat) | diag (k : Nat)
  | itmp (k : Nat) | vec (k : Nat)
deriving DecidableEq

/-- `int` arrays and `double` arrays (values in `R`). -/
@[reducible] def CTy (R : Type) : CArr → Type
  | .rowptr _ => Int
  | .colidx _ => Int
  | .values _ => R
  | .diagptr _ => Int
  | .extptr _ => Int
  | .idiag _ => R
  | .diag _ => R
  | .itmp _ => Int
  | .vec _ => R

set_option linter.unusedSectionVars false

variable {R : Type} [Races CArr]

/-- CSR object `k` stores the pattern of `A` with index base `base` (rowptr and colidx). -/
structure HoldsPat (mem : Mem (CTy R)) (k base : Nat) (A : Csr R) : Prop where
  rowptr : ∀ i, i ≤ A.m → mem (.rowptr k) (i : Int) = some ((A.ptr i : Int) + base)
  colidx : ∀ j, j < A.nnz → mem (.colidx k) (j : Int) = some ((A.col j : Int) + base)

/-- CSR object `k` stores the values of `A`. -/
def HoldsVal (mem : Mem (CTy R)) (k : Nat) (A : Csr R) : Prop :=
  ∀ j, j < A.nnz → mem (.values k) (j : Int) = some (A.val j)

/-- A memory containing only CSR object `k`, holding `A` with base `base`, diagonal pointers `dp` and external
pointers `ep` (used to show that hypotheses can be met). -/
def csrMem (k base : Nat) (A : Csr R) (dp ep : Nat → Nat) : Mem (CTy R)
  | .rowptr j, i => if j = k ∧ 0 ≤ i ∧ i ≤ A.m then some ((A.ptr i.toNat : Int) + base) else none
  | .colidx j, i => if j = k ∧ 0 ≤ i ∧ i < A.nnz then some ((A.col i.toNat : Int) + base) else none
  | .values j, i => if j = k ∧ 0 ≤ i ∧ i < A.nnz then some (A.val i.toNat) else none
  | .diagptr j, i => if j = k ∧ 0 ≤ i ∧ i < A.m then some ((dp i.toNat : Int) + base) else none
  | .extptr j, i => if j = k ∧ 0 ≤ i ∧ i < A.m then some ((ep i.toNat : Int) + base) else none
  | _, _ => none

theorem csrMem_pat (k base : Nat) (A : Csr R) (dp ep : Nat → Nat) :
    HoldsPat (csrMem k base A dp ep) k base A := by
  refine ⟨?_, ?_⟩
  · intro i hi; simp [csrMem, hi]
  · intro j hj; simp [csrMem, hj]

theorem csrMem_val (k base : Nat) (A : Csr R) (dp ep : Nat → Nat) :
    HoldsVal (csrMem k base A dp ep) k A := by
  intro j hj; simp [csrMem, hj]

/-- `#pragma omp parallel for: for (i = 0; i < n; ++i) a[i] = g(a[i])`. -/
def parMap (sz : CArr → Int) (a : CArr) (n : Nat) (g : CTy R a → CTy R a) : Script (CTy R) Unit :=
  .phase sz n (fun i => do
    let v ← Prog.read (ty := CTy R) a i
    Prog.write (ty := CTy R) a i (g v)) fun _ => .done ()

theorem parMap_ok {sz : CArr → Int} {a : CArr} {n : Nat} {g : CTy R a → CTy R a} {m : Mem (CTy R)}
    (hsz : (n : Int) ≤ sz a) (hinit : ∀ i : Nat, i < n → ∃ v, m a (i : Int) = some v) :
    (parMap sz a n g).Ok m (fun _ m' =>
      (∀ i : Nat, i < n → m' a (i : Int) = (m a (i : Int)).map g) ∧
      (∀ i : Int, ¬ (0 ≤ i ∧ i < n) → m' a i = m a i) ∧ ∀ b, b ≠ a → m' b = m b) := by
  refine par_rule
    (W := fun t b i => b = a ∧ i = (t : Int)) (R := fun t b i => b = a ∧ i = (t : Int))
    (Q := fun t _ m' => m' a (t : Int) = (m a (t : Int)).map g) ?_ ?_ ?_
  · rintro t u b i ht hu htu ⟨rfl, rfl⟩ ⟨_, h⟩; omega
  · intro t ht
    simp only [wp_bind, wp_read, wp_write, true_and, and_self]
    obtain ⟨v, hv⟩ := hinit t ht
    refine ⟨v, hv, by omega, by omega, ?_⟩
    rw [hv]; simp
  · intro _ m' hq hf
    refine ⟨?_, ?_, ?_⟩
    · intro i hi
      obtain ⟨mt, h1, h2⟩ := hq i hi
      rw [h2 _ _ ⟨rfl, rfl⟩]; exact h1
    · intro i hi; exact hf a i (by rintro t ht ⟨_, h⟩; omega)
    · intro b hb; funext i; exact hf b i (by rintro t _ ⟨h, _⟩; exact hb h)

end SpMP
