import Verif.Bip
import Verif.Permute
import Verif.Transpose
import Verif.CsrMetrics
import Verif.SpMV
import Verif.BinFile
/-
main of /repo/test/BFSBipartite_test.cpp:34-123: the bipartite breadth-first numbering of a matrix and its transpose, and its use.

Objects: `k` is A, `kT` is AT, `k2` is APerm, `k3` is ATPerm. The arrays rowPerm, rowInversePerm, colPerm, colInversePerm are
`bipPrm 0`, `bipInv 0`, `bipPrm 1`, `bipInv 1`; permute has its own names for the two it is given (`itmp 1` and `itmp 0`). Not modelled:
reading the file (C68), storing the permuted matrix (C17), the repetitions of the products for timing, flushLlc, and what is printed
besides the bandwidths and the widths. The vector `x` has values here; the program starts with the uninitialised contents of a new array.
-/
namespace SpMP

set_option linter.unusedSectionVars false

variable {R : Type} [Races CArr]

/-- Team, objects, base, sizes of A, whether A has diagonal pointers, whether it has inverse diagonals, debug build, how the runtime
distributes the last loop of the two calls of transpose and in which order it combines the results of the reductions. -/
structure BipArgs where
  T : Nat
  k : Nat
  kT : Nat
  k2 : Nat
  k3 : Nat
  base : Nat
  m : Nat
  n : Nat
  diagptr : Bool
  idiag : Bool
  dbg : Bool
  asg : Nat → Int × Int
  asg' : Nat → Int × Int
  tr : RedTree

/-- What is printed for a matrix and its transpose (test/BFSBipartite_test.cpp:48-49, 93-94): bandwidth and the two average widths. -/
structure BipPrint where
  bandwidth : Int
  width : Rat
  widthT : Rat

/-- Printing and the two products `vec y := M * vec x`, `vec x := MT * vec y` for the objects `a` = M and `b` = MT
(test/BFSBipartite_test.cpp:48-76 and 93-119). -/
def bipMeasure [CommRing R] [DecidableEq R] (sz : CArr → Int) (r : BipArgs) (y x tmp a b : Nat) : Script (CTy R) BipPrint :=
  (getBandwidth sz r.T a r.m r.tr).bind fun bw =>
  (getAverageWidth sz r.T a r.m false r.tr).bind fun w =>
  (getAverageWidth sz r.T b r.n false r.tr).bind fun wT =>
  (multiplyWithVector sz r.T a r.m false y x y tmp 1 0 0).bind fun _ =>
  (multiplyWithVector sz r.T b r.n false x y x tmp 1 0 0).bind fun _ => .done ⟨bw, w, wT⟩

/-- The arrays colPerm and rowInversePerm under the names of the arguments of permute (test/BFSBipartite_test.cpp:86). A call passes
pointers; here the contents are copied. -/
def bipPass (sz : CArr → Int) (m n : Nat) : Script (CTy R) Unit :=
  .phase (fun a => if a = .itmp 0 then (m : Int) else sz a) m (fun i => do
    let q ← Prog.read (ty := CTy R) (bipInv 0) (i : Int)
    Prog.write (ty := CTy R) (.itmp 0) (i : Int) ((q : Int))) fun _ =>
  .phase (fun a => if a = .itmp 1 then (n : Int) else sz a) n (fun c => do
    let p ← Prog.read (ty := CTy R) (bipPrm 1) (c : Int)
    Prog.write (ty := CTy R) (.itmp 1) (c : Int) ((p : Int))) fun _ => .done ()

/-- The permutations, the permuted matrix and its transpose (test/BFSBipartite_test.cpp:78-87). A->diagptr is released and set to NULL
before permute (line 85), so permute and the second transpose see no diagonal pointers. -/
def bipReorder (sz : CArr → Int) (r : BipArgs) : Script (CTy R) Unit :=
  (bfsBipartite sz (fun s => if s = 0 then r.k else r.kT) r.base r.T (fun s => if s = 0 then r.m else r.n)).bind fun _ =>
  (bipPass sz r.m r.n).bind fun _ =>
  (permute sz r.T r.k r.k2 r.m ⟨true, false, r.idiag, false, false⟩ r.dbg true false).bind fun _ =>
  transpose sz r.T r.k2 r.k3 r.base r.m r.n true false r.asg'

/-- main (test/BFSBipartite_test.cpp:41-122). -/
def bipMain [CommRing R] [DecidableEq R] (sz : CArr → Int) (r : BipArgs) (y x tmp : Nat) : Script (CTy R) (BipPrint × BipPrint) :=
  (transpose sz r.T r.k r.kT r.base r.m r.n true r.diagptr r.asg).bind fun _ =>
  (bipMeasure sz r y x tmp r.k r.kT).bind fun p =>
  (bipReorder sz r).bind fun _ =>
  (bipMeasure sz r y x tmp r.k2 r.k3).bind fun p' => .done (p, p')

theorem bipPass_ok {sz : CArr → Int} {n n' : Nat} {inv perm : Nat → Nat} {m : Mem (CTy R)}
    (hi : ∀ x : Nat, x < n → m (bipInv 0) (x : Int) = some (inv x : Int))
    (hp : ∀ x : Nat, x < n' → m (bipPrm 1) (x : Int) = some (perm x : Int)) :
    (bipPass sz n n').Ok m (fun _ m' => (∀ i : Nat, i < n → m' (.itmp 0) (i : Int) = some (inv i : Int)) ∧
      (∀ i : Nat, i < n' → m' (.itmp 1) (i : Int) = some (perm i : Int)) ∧ ∀ a, a ≠ .itmp 0 → a ≠ .itmp 1 → m' a = m a) := by
  unfold bipPass
  refine par_rule
    (W := fun t b i => b = .itmp 0 ∧ i = (t : Int)) (R := fun t b i => b = bipInv 0 ∨ (b = .itmp 0 ∧ i = (t : Int)))
    (Q := fun t _ m' => m' (.itmp 0) (t : Int) = some (inv t : Int)) ?_ ?_ ?_
  · rintro t u b i ht hu htu ⟨rfl, rfl⟩ (h | ⟨h, h'⟩)
    · cases h
    · omega
  · intro t ht
    rw [wp_bind]
    refine wp_read.2 ⟨Or.inl rfl, _, hi t ht, ?_⟩
    refine wp_write.2 ⟨⟨rfl, rfl⟩, by omega, by simpa using ht, Mem.get_same _ _ _ _⟩
  intro _ m1 hQ1 hf1
  have g0 : ∀ i : Nat, i < n → m1 (.itmp 0) (i : Int) = some (inv i : Int) := by
    intro i hi
    obtain ⟨mt, g1, g2⟩ := hQ1 i hi
    rw [g2 _ _ (Or.inr ⟨rfl, rfl⟩)]; exact g1
  have f1 : ∀ a, a ≠ .itmp 0 → m1 a = m a := fun a ha => funext fun i => hf1 a i (by rintro t _ ⟨h, _⟩; exact ha h)
  refine par_rule
    (W := fun t b i => b = .itmp 1 ∧ i = (t : Int)) (R := fun t b i => b = bipPrm 1 ∨ (b = .itmp 1 ∧ i = (t : Int)))
    (Q := fun t _ m' => m' (.itmp 1) (t : Int) = some (perm t : Int)) ?_ ?_ ?_
  · rintro t u b i ht hu htu ⟨rfl, rfl⟩ (h | ⟨h, h'⟩)
    · cases h
    · omega
  · intro t ht
    rw [wp_bind]
    refine wp_read.2 ⟨Or.inl rfl, _, by rw [f1 _ (by simp)]; exact hp t ht, ?_⟩
    refine wp_write.2 ⟨⟨rfl, rfl⟩, by omega, by simpa using ht, Mem.get_same _ _ _ _⟩
  intro _ m2 hQ2 hf2
  have f2 : ∀ a, a ≠ .itmp 1 → m2 a = m1 a := fun a ha => funext fun i => hf2 a i (by rintro t _ ⟨h, _⟩; exact ha h)
  refine Script.ok_done_of ⟨?_, ?_, ?_⟩
  · intro i hi; rw [f2 _ (by simp)]; exact g0 i hi
  · intro i hi
    obtain ⟨mt, g1, g2⟩ := hQ2 i hi
    rw [g2 _ _ (Or.inr ⟨rfl, rfl⟩)]; exact g1
  · intro a a0 a1; rw [f2 a a1, f1 a a0]

end SpMP
