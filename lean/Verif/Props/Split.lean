import Verif.SplitLU
import Verif.Props.Linear
/-
Property theorem C20 (splitLU).
-/

namespace SpMP.Props
open SpMP SpMP.Spec

variable {R : Type}

/-- Memory `m` with the inverse diagonal of object `k` holding `f`. -/
def withIdiag (m : Mem (CTy R)) (k n : Nat) (f : Nat → R) : Mem (CTy R)
  | .idiag j, i => if j = k ∧ 0 ≤ i ∧ i < n then some (f i.toNat) else m (.idiag j) i
  | a, i => m a i

theorem withIdiag_pat {m : Mem (CTy R)} {v n : Nat} {f : Nat → R} {k b : Nat} {A : Csr R} (h : HoldsPat m k b A) :
    HoldsPat (withIdiag m v n f) k b A := ⟨h.rowptr, h.colidx⟩

theorem withIdiag_get {m : Mem (CTy R)} {v n : Nat} {f : Nat → R} {c : Nat} (h : c < n) :
    withIdiag m v n f (.idiag v) (c : Int) = some (f c) := by
  show (if v = v ∧ 0 ≤ (c : Int) ∧ (c : Int) < n then some (f (c : Int).toNat) else m (.idiag v) c) = _
  rw [if_pos ⟨rfl, by omega, by omega⟩]; rfl

/-- C20 except for base-1 matrices with external pointers (see `C20_ext_base1_false`): after `splitLU(A, L, U)`, L holds
row by row, in source order, exactly the entries of A strictly left of the diagonal and U those strictly right of it, in A's
index base and with A's inverse diagonal; the external part of a U row starts where its last `ptr (i+1) - ep i` entries start;
nothing else (in particular no array of A) changes. `ep i` is the position where the external entries of row `i` start; their
columns lie right of the diagonal. -/
theorem C20_splitLU_partial {sz : CArr → Int} {T k kl ku base : Nat} {A : Csr R} {o : Opt} {ep : Nat → Nat}
    {m0 : Mem (CTy R)} (hT : 1 ≤ T) (hk : k ≠ kl ∧ k ≠ ku ∧ kl ≠ ku)
    (hwf : A.WF) (hb : base = 0 ∨ base = 1) (hbe : base = 1 → o.extptr = false)
    (hp : HoldsPat m0 k base A) (hv : HoldsVal m0 k A) (hsz : SizesOk sz k A o)
    (he : HoldsExt m0 k base A o.extptr ep) (hx : ∀ i j, i < A.m → ep i ≤ j → j < A.ptr (i + 1) → i < A.col j)
    (hdp : o.diagptr → ∀ i : Nat, i < A.m → ∃ v, m0 (.diagptr k) (i : Int) = some v)
    (hd : ∀ i : Nat, i < A.m → ∃ v, m0 (.idiag k) (i : Int) = some v) :
    (splitLU sz T k kl ku A.m o).Ok m0 (fun _ m => ∃ L U : Csr R,
      (L.WF ∧ L.m = A.m ∧ L.n = A.n ∧ HoldsPat m kl base L ∧ HoldsVal m kl L ∧
        ∀ i, i < A.m → L.row i = (A.row i).filter (fun x => x.1 < i)) ∧
      (U.WF ∧ U.m = A.m ∧ U.n = A.n ∧ HoldsPat m ku base U ∧ HoldsVal m ku U ∧
        ∀ i, i < A.m → U.row i = (A.row i).filter (fun x => i < x.1)) ∧
      (∀ i : Nat, i < A.m → m (.idiag kl) (i : Int) = m0 (.idiag k) (i : Int) ∧
        m (.idiag ku) (i : Int) = m0 (.idiag k) (i : Int)) ∧
      (o.extptr = true → ∀ i : Nat, i < A.m →
        m (.extptr ku) (i : Int) = some ((U.ptr (i + 1) : Int) - ((A.ptr (i + 1) : Int) - ep i))) ∧
      ∀ a, ¬ a.ofObj kl → ¬ a.ofObj ku → a ≠ .itmp 0 → a ≠ .itmp 1 → m a = m0 a) := by
  refine Script.Ok.mono (splitLU_ok hT hk hwf hb hbe hp hv hsz he hx hdp hd) ?_
  rintro _ m ⟨h1, h2, h3, h4, h5, h6, h7⟩
  exact ⟨lowCsr A, upCsr A, ⟨lowCsr_wf hwf, rfl, rfl, h1, h2, fun i hi => Csr.ofRows_row hi⟩,
    ⟨upCsr_wf hwf, rfl, rfl, h3, h4, fun i hi => Csr.ofRows_row hi⟩, h5, h6, h7⟩

/-- C20 is false for base-1 matrices with external pointers: the conversion to base 0 leaves the external pointers
unconverted, and already the 1x1 matrix (5) without external entries makes the counting loop read `colidx[1]`. -/
theorem C20_ext_base1_false :
    ¬ (∀ (sz : CArr → Int) (A : Csr Int) (m0 : Mem (CTy Int)) (ep : Nat → Nat), A.WF → HoldsPat m0 0 1 A → HoldsVal m0 0 A →
      SizesOk sz 0 A ⟨true, false, true, false, true⟩ → HoldsExt m0 0 1 A true ep →
      (∀ i j, i < A.m → ep i ≤ j → j < A.ptr (i + 1) → i < A.col j) →
      (∀ i : Nat, i < A.m → ∃ v, m0 (.idiag 0) (i : Int) = some v) →
      (splitLU sz 1 0 1 2 A.m ⟨true, false, true, false, true⟩).Ok m0 (fun _ m =>
        ∃ L : Csr Int, L.m = A.m ∧ HoldsPat m 1 1 L ∧ ∀ i, i < A.m → L.row i = (A.row i).filter (fun x => x.1 < i))) := by
  intro h
  let m0 : Mem (CTy Int) := withIdiag (csrMem 0 1 oneCsr (fun _ => 0) (fun _ => 1)) 0 1 (fun _ => 7)
  have h1 := (h (fun _ => 2) oneCsr m0 (fun _ => 1) oneCsr_wf (withIdiag_pat (csrMem_pat 0 1 oneCsr _ _))
    (csrMem_val 0 1 oneCsr (fun _ => 0) (fun _ => 1))
    ⟨by decide, by decide, fun _ => by decide, fun _ => by decide, fun _ => by decide, fun _ => by decide, fun _ => by decide⟩
    ⟨?_, ?_⟩ ?_ ?_).not_runUB
  · have h3 : (splitLU (R := Int) (fun _ => 2) 1 0 1 2 1 ⟨true, false, true, false, true⟩).runUB m0 = true := by rfl
    rw [show oneCsr.m = 1 from rfl, h3] at h1
    cases h1
  · intro _ i hi
    change i < 1 at hi
    obtain rfl : i = 0 := by omega
    rfl
  · refine ⟨by simp, ?_⟩
    intro i hi
    change i < 1 at hi
    obtain rfl : i = 0 := by omega
    exact ⟨by decide, by decide⟩
  · intro i j hi
    change i < 1 at hi
    obtain rfl : i = 0 := by omega
    intro g1 g2
    change j < 1 at g2
    omega
  · intro i hi
    exact ⟨_, withIdiag_get hi⟩

-- a base-1 3x3 matrix on two threads: row 0 = (2,7) (0,5), row 2 = (1,3) (1,4) (2,9)
example : ((splitLU (R := Int) (fun _ => 9) 2 0 1 2 3 ⟨true, false, true, false, false⟩).run
      (withIdiag (csrMem 0 1 exampleCsr (fun _ => 0) (fun _ => 0)) 0 3 (fun i => (i : Int) + 10))).map
      (fun r => ([r.2 (.rowptr 1) 0, r.2 (.rowptr 1) 1, r.2 (.rowptr 1) 2, r.2 (.rowptr 1) 3, r.2 (.colidx 1) 0, r.2 (.values 1) 0,
        r.2 (.colidx 1) 1, r.2 (.values 1) 1, r.2 (.rowptr 2) 3, r.2 (.colidx 2) 0, r.2 (.values 2) 0, r.2 (.idiag 2) 2] :
        List (Option Int))) =
      some [some 1, some 1, some 1, some 3, some 2, some 3, some 2, some 4, some 2, some 3, some 7, some 12] := by rfl

-- external entries: in base 0, wideCsr's only entry (0,1) is external
example : ∃ m0 : Mem (CTy Int), HoldsPat m0 0 0 wideCsr ∧ HoldsVal m0 0 wideCsr ∧ HoldsExt m0 0 0 wideCsr true (fun _ => 0) ∧
    (∀ i j, i < wideCsr.m → 0 ≤ j → j < wideCsr.ptr (i + 1) → i < wideCsr.col j) ∧
    SizesOk (fun _ => 2) 0 wideCsr ⟨true, false, true, false, true⟩ ∧
    (∀ i : Nat, i < wideCsr.m → ∃ v, m0 (.idiag 0) (i : Int) = some v) ∧
    ((splitLU (R := Int) (fun _ => 2) 2 0 1 2 1 ⟨true, false, true, false, true⟩).run m0).map
      (fun r => ([r.2 (.rowptr 1) 1, r.2 (.rowptr 2) 1, r.2 (.extptr 2) 0, r.2 (.colidx 2) 0] : List (Option Int))) =
      some [some 0, some 1, some 0, some 1] := by
  refine ⟨withIdiag (csrMem 0 0 wideCsr (fun _ => 0) (fun _ => 0)) 0 1 (fun _ => 7), withIdiag_pat (csrMem_pat 0 0 wideCsr _ _),
    csrMem_val 0 0 wideCsr (fun _ => 0) (fun _ => 0), ⟨?_, by simp, ?_⟩, ?_,
    ⟨by decide, by decide, fun _ => by decide, fun _ => by decide, fun _ => by decide, fun _ => by decide, fun _ => by decide⟩,
    fun i hi => ⟨_, withIdiag_get hi⟩, by rfl⟩
  · intro _ i hi
    change i < 1 at hi
    obtain rfl : i = 0 := by omega
    rfl
  · intro i hi
    change i < 1 at hi
    obtain rfl : i = 0 := by omega
    exact ⟨by decide, by decide⟩
  · intro i j hi _ _
    change i < 1 at hi
    obtain rfl : i = 0 := by omega
    exact Nat.one_pos

end SpMP.Props
