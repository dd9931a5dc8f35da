import Verif.Bfs
import Verif.RcmGet
import Verif.Permute
import Verif.CsrMetrics
import Verif.SpMV
/-
The use of the reorderings (/repo/test/reordering_test.cpp:97-118, 186-245): compute a permutation, permute the matrix with it,
measure the bandwidth and multiply the permuted matrix with a vector.

Object `k` is A, `k2` is APerm, `k'` holds the row pointers of the components. The arrays perm and inversePerm are `bfsPrm` and `bfsInv`;
permute has its own names for them (`itmp 1` and `itmp 0`). Not modelled: the repetitions of the product for timing, flushLlc, what is
printed besides the bandwidths, the checks isPerm, whose answers are ignored, and the release of the matrices. The vector `x` has values
here; the program multiplies with the uninitialised contents of a new array.
-/
namespace SpMP
open Spec

set_option linter.unusedSectionVars false

variable {R : Type} [Races CArr]

/-- enum Option (test/reordering_test.cpp:76-81). -/
inductive ReordOption where
  | bfs | rcmNoSource | rcm

/-- The arguments that do not depend on the option: team, objects, number of rows, PAR_THR, optional arrays of A, debug build, the
library's sort and the distribution of the loops in getRCMPermutation. -/
structure ReordArgs where
  T : Nat
  k : Nat
  k' : Nat
  k2 : Nat
  base : Nat
  m : Nat
  thr : Nat
  o : Opt
  dbg : Bool
  srt : List (Int × Int) → List (Int × Int)
  asg : RcmAsg
  tr : RedTree

/-- The permutation of an option (test/reordering_test.cpp:206-217); the third argument of getRCMPermutation is true by default. -/
def reordPerm (sz : CArr → Int) (r : ReordArgs) : ReordOption → Script (CTy R) Unit
  | .bfs => bfsPermutation sz r.T r.k r.k' r.base r.m r.thr
  | .rcmNoSource => getRcm sz r.T r.k r.k' r.m r.thr r.o false r.srt r.asg
  | .rcm => getRcm sz r.T r.k r.k' r.m r.thr r.o true r.srt r.asg

/-- The arrays perm and inversePerm under the names that permute uses for its arguments columnPerm and rowInversePerm
(test/reordering_test.cpp:228). A call passes pointers; here the contents are copied, one element per iteration. -/
def passPerms (sz : CArr → Int) (m : Nat) : Script (CTy R) Unit :=
  .phase (fun a => if a = .itmp 0 ∨ a = .itmp 1 then (m : Int) else sz a) m (fun i => do
    let q ← Prog.read (ty := CTy R) bfsInv (i : Int)
    let p ← Prog.read (ty := CTy R) bfsPrm (i : Int)
    Prog.write (ty := CTy R) (.itmp 0) (i : Int) ((q : Int))
    Prog.write (ty := CTy R) (.itmp 1) (i : Int) ((p : Int))) fun _ => .done ()

/-- What follows the permutation: permute, the bandwidth and the product `vec y := APerm * vec x`
(test/reordering_test.cpp:228-240). -/
def reordUse [CommRing R] [DecidableEq R] (sz : CArr → Int) (r : ReordArgs) (y x tmp : Nat) : Script (CTy R) Int :=
  (passPerms sz r.m).bind fun _ =>
  (permute sz r.T r.k r.k2 r.m r.o r.dbg true false).bind fun _ =>
  (getBandwidth sz r.T r.k2 r.m r.tr).bind fun b =>
  (multiplyWithVector sz r.T r.k2 r.m false y x y tmp 1 0 0).bind fun _ => .done b

/-- One option (test/reordering_test.cpp:189-245). -/
def reordOne [CommRing R] [DecidableEq R] (sz : CArr → Int) (r : ReordArgs) (y x tmp : Nat) (op : ReordOption) : Script (CTy R) Int :=
  (reordPerm sz r op).bind fun _ => reordUse sz r y x tmp

/-- The options one after the other; the bandwidths (test/reordering_test.cpp:189-245). -/
def reordLoop [CommRing R] [DecidableEq R] (sz : CArr → Int) (r : ReordArgs) (y x tmp : Nat) : List ReordOption → Script (CTy R) (List Int)
  | [] => .done []
  | op :: l => (reordOne sz r y x tmp op).bind fun b => (reordLoop sz r y x tmp l).bind fun bs => .done (b :: bs)

/-- main of test/reordering_test.cpp (lines 103, 118, 189-245): the bandwidth of A, A times x, and the three options. -/
def reordMain [CommRing R] [DecidableEq R] (sz : CArr → Int) (r : ReordArgs) (y x tmp : Nat) : Script (CTy R) (Int × List Int) :=
  (getBandwidth sz r.T r.k r.m r.tr).bind fun b =>
  (multiplyWithVector sz r.T r.k r.m false y x y tmp 1 0 0).bind fun _ =>
  (reordLoop sz r y x tmp [.bfs, .rcmNoSource, .rcm]).bind fun bs => .done (b, bs)

theorem passPerms_ok {sz : CArr → Int} {n : Nat} {perm inv : Nat → Nat} {m : Mem (CTy R)}
    (hp : ∀ x : Nat, x < n → m bfsPrm (x : Int) = some (perm x : Int))
    (hi : ∀ x : Nat, x < n → m bfsInv (x : Int) = some (inv x : Int)) :
    (passPerms sz n).Ok m (fun _ m' => (∀ i : Nat, i < n → m' (.itmp 0) (i : Int) = some (inv i : Int)) ∧
      (∀ i : Nat, i < n → m' (.itmp 1) (i : Int) = some (perm i : Int)) ∧ ∀ a, a ≠ .itmp 0 → a ≠ .itmp 1 → m' a = m a) := by
  unfold passPerms
  refine par_rule
    (W := fun t b i => (b = .itmp 0 ∧ i = (t : Int)) ∨ (b = .itmp 1 ∧ i = (t : Int)))
    (R := fun t b i => b = bfsInv ∨ b = bfsPrm ∨ (b = .itmp 0 ∧ i = (t : Int)) ∨ (b = .itmp 1 ∧ i = (t : Int)))
    (Q := fun t _ m' => m' (.itmp 0) (t : Int) = some (inv t : Int) ∧ m' (.itmp 1) (t : Int) = some (perm t : Int)) ?_ ?_ ?_
  · rintro t u b i ht hu htu (⟨rfl, rfl⟩ | ⟨rfl, rfl⟩) (h | h | ⟨h, h'⟩ | ⟨h, h'⟩)
    all_goals first | (cases h; done) | omega
  · intro t ht
    rw [wp_bind]
    refine wp_read.2 ⟨Or.inl rfl, _, hi t ht, ?_⟩
    rw [wp_bind]
    refine wp_read.2 ⟨Or.inr (Or.inl rfl), _, hp t ht, ?_⟩
    rw [wp_bind]
    refine wp_write.2 ⟨Or.inl ⟨rfl, rfl⟩, by omega, by simpa using ht, ?_⟩
    refine wp_write.2 ⟨Or.inr ⟨rfl, rfl⟩, by omega, by simpa using ht, ?_⟩
    refine ⟨?_, Mem.get_same _ _ _ _⟩
    rw [Mem.set_other _ _ _ _ _ (by simp)]
    exact Mem.get_same _ _ _ _
  · intro _ m' hQ hf
    refine Script.ok_done_of ⟨?_, ?_, ?_⟩
    · intro i hi
      obtain ⟨mt, g1, g2⟩ := hQ i hi
      rw [g2 _ _ (Or.inr (Or.inr (Or.inl ⟨rfl, rfl⟩)))]; exact g1.1
    · intro i hi
      obtain ⟨mt, g1, g2⟩ := hQ i hi
      rw [g2 _ _ (Or.inr (Or.inr (Or.inr ⟨rfl, rfl⟩)))]; exact g1.2
    · intro a ha0 ha1
      funext i
      refine hf a i ?_
      rintro t _ (⟨h, _⟩ | ⟨h, _⟩)
      · exact ha0 h
      · exact ha1 h

end SpMP
