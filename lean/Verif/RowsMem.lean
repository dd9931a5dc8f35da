import Verif.CsrQuery
import Verif.Base
import Verif.Spec.Rows
/-
Memory that holds a matrix given row by row, and helpers for functions that build CSR objects.
-/

namespace SpMP
open Spec

set_option linter.unusedSectionVars false

variable {R : Type} [Races CArr]

section
variable {A : Type} [DecidableEq A] {ty : A → Type} {α : Type} {sz : A → Int} {W Rd : A → Int → Prop} {m : Mem ty}

theorem wp_rd {a : A} {i : Int} {f : ty a → Prog ty α} {Q : α → Mem ty → Prop} (v : ty a) (h1 : Rd a i)
    (h2 : m a i = some v) (h3 : wp sz W Rd (f v) m Q) : wp sz W Rd (Prog.read a i >>= f) m Q := by
  rw [wp_bind, wp_read]; exact ⟨h1, v, h2, h3⟩

theorem wp_wr {a : A} {i : Int} {v : ty a} {f : Unit → Prog ty α} {Q : α → Mem ty → Prop} (h1 : W a i)
    (h2 : 0 ≤ i ∧ i < sz a) (h3 : wp sz W Rd (f ()) (m.set a i v) Q) :
    wp sz W Rd (Prog.write a i v >>= f) m Q := by
  rw [wp_bind, wp_write]; exact ⟨h1, h2.1, h2.2, h3⟩

theorem wp_wr1 {a : A} {i : Int} {v : ty a} {Q : Unit → Mem ty → Prop} (h1 : W a i)
    (h2 : 0 ≤ i ∧ i < sz a) (h3 : Q () (m.set a i v)) : wp sz W Rd (Prog.write a i v) m Q := by
  rw [wp_write]; exact ⟨h1, h2.1, h2.2, h3⟩

/-- Reading a cell just written. -/
theorem Mem.get_same (m : Mem ty) (a : A) (i : Int) (v : ty a) : m.set a i v a i = some v := by
  rw [Mem.set_same, if_pos rfl]

/-- Reading another cell of the same array. -/
theorem Mem.get_ne (m : Mem ty) (a : A) (i j : Int) (v : ty a) (h : j ≠ i) : m.set a i v a j = m a j := by
  rw [Mem.set_same, if_neg h]

end

/-- Array sizes with the size of one array replaced (a `MALLOC` of `n` elements). -/
def withSize (sz : CArr → Int) (a : CArr) (n : Int) : CArr → Int := fun b => if b = a then n else sz b

@[simp] theorem withSize_same (sz : CArr → Int) (a : CArr) (n : Int) : withSize sz a n a = n := if_pos rfl

theorem withSize_other {sz : CArr → Int} {a b : CArr} {n : Int} (h : b ≠ a) : withSize sz a n b = sz b := if_neg h

/-- From position `s` on, object `k` holds the list of (column, value) pairs `l`, columns with base `base`. -/
def RowAt (m : Mem (CTy R)) (k base s : Nat) (l : List (Nat × R)) : Prop :=
  ∀ (x : Nat) (y : Nat × R), l[x]? = some y → m (.colidx k) ((s : Int) + x) = some ((y.1 : Int) + base) ∧
    m (.values k) ((s : Int) + x) = some y.2

theorem RowAt.nil (m : Mem (CTy R)) (k base s : Nat) : RowAt m k base s [] := by
  intro x y h; simp at h

theorem RowAt.congr {m m' : Mem (CTy R)} {k base s : Nat} {l : List (Nat × R)} (h : RowAt m k base s l)
    (h1 : ∀ i : Int, (s : Int) ≤ i → i < (s : Int) + l.length → m' (.colidx k) i = m (.colidx k) i)
    (h2 : ∀ i : Int, (s : Int) ≤ i → i < (s : Int) + l.length → m' (.values k) i = m (.values k) i) :
    RowAt m' k base s l := by
  intro x y hxy
  have hx : x < l.length := by
    by_contra hc; rw [List.getElem?_eq_none (by omega)] at hxy; cases hxy
  rw [h1 _ (by omega) (by omega), h2 _ (by omega) (by omega)]
  exact h x y hxy

theorem RowAt.snoc {m : Mem (CTy R)} {k base s : Nat} {l : List (Nat × R)} (h : RowAt m k base s l) (c : Nat) (v : R) :
    RowAt ((m.set (.colidx k) ((s : Int) + l.length) ((c : Int) + base)).set (.values k) ((s : Int) + l.length) v)
      k base s (l ++ [(c, v)]) := by
  intro x y hxy
  by_cases hx : x < l.length
  · rw [List.getElem?_append_left hx] at hxy
    have := h x y hxy
    rw [Mem.set_other _ _ _ _ _ (by simp), Mem.set_same, if_neg (by omega), Mem.set_same, if_neg (by omega),
      Mem.set_other _ _ _ _ _ (by simp)]
    exact this
  · have hx' : x = l.length := by
      by_contra hc
      rw [List.getElem?_eq_none (by rw [List.length_append]; simp; omega)] at hxy; cases hxy
    subst hx'
    rw [List.getElem?_append_right (by omega)] at hxy
    simp only [Nat.sub_self, List.getElem?_cons_zero, Option.some.injEq] at hxy
    subst hxy
    rw [Mem.set_other _ _ _ _ _ (by simp), Mem.set_same, if_pos rfl, Mem.set_same, if_pos rfl]
    exact ⟨rfl, rfl⟩

/-- The arrays hold the matrix with rows `rows`. -/
theorem holds_ofRows {m : Mem (CTy R)} {k base mm n : Nat} {rows : Nat → List (Nat × R)} {d : R}
    (h1 : ∀ i : Nat, i ≤ mm → m (.rowptr k) (i : Int) = some ((rowStart rows i : Int) + base))
    (h2 : ∀ i, i < mm → RowAt m k base (rowStart rows i) (rows i)) :
    HoldsPat m k base (Csr.ofRows mm n rows d) ∧ HoldsVal m k (Csr.ofRows mm n rows d) := by
  refine ⟨⟨h1, ?_⟩, ?_⟩
  · intro j hj
    obtain ⟨i, q, g1, g2, rfl⟩ := rowStart_find rows hj
    rw [show (Csr.ofRows mm n rows d).col _ = _ from Csr.ofRows_col g1 g2]
    have := (h2 i g1 q _ (List.getElem?_eq_getElem g2)).1
    push_cast; exact this
  · intro j hj
    obtain ⟨i, q, g1, g2, rfl⟩ := rowStart_find rows hj
    rw [show (Csr.ofRows mm n rows d).val _ = _ from Csr.ofRows_val g1 g2]
    have := (h2 i g1 q _ (List.getElem?_eq_getElem g2)).2
    push_cast; exact this

theorem HoldsPat.rp0 {m : Mem (CTy R)} {k : Nat} {A : Csr R} (h : HoldsPat m k 0 A) {i : Nat} (hi : i ≤ A.m) :
    m (.rowptr k) (i : Int) = some (A.ptr i : Int) := by
  rw [h.rowptr i hi]; congr 1

theorem HoldsPat.rp1 {m : Mem (CTy R)} {k : Nat} {A : Csr R} (h : HoldsPat m k 0 A) {i : Nat} (hi : i < A.m) :
    m (.rowptr k) ((i : Int) + 1) = some (A.ptr (i + 1) : Int) := h.rp0 (i := i + 1) hi

theorem HoldsPat.col0 {m : Mem (CTy R)} {k : Nat} {A : Csr R} (h : HoldsPat m k 0 A) {j : Nat} (hj : j < A.nnz) :
    m (.colidx k) (j : Int) = some (A.col j : Int) := by
  rw [h.colidx j hj]; congr 1

theorem wp_extOf' {sz : CArr → Int} {W Rd : CArr → Int → Prop} {m : Mem (CTy R)} {k base : Nat} {A : Csr R} {ext : Bool}
    {ep : Nat → Nat}
    (hp : HoldsPat m k base A) (he : HoldsExt m k base A ext ep)
    (hR : ∀ i, Rd (.rowptr k) i) (hE : ∀ i, Rd (.extptr k) i) {r : Nat} (hr : r < A.m) {Q : Int → Mem (CTy R) → Prop}
    (hQ : Q ((ep r : Int) + base) m) : wp sz W Rd (extOf k base ext ((r : Int) + base)) m Q := by
  unfold extOf
  cases ext with
  | true =>
    rw [if_pos rfl, wp_read]
    refine ⟨hE _, _, ?_, hQ⟩
    rw [Int.add_sub_cancel]
    exact he.1 rfl r hr
  | false =>
    rw [if_neg (by simp), wp_read]
    refine ⟨hR _, _, ?_, hQ⟩
    rw [show (r : Int) + base + 1 - base = ((r + 1 : Nat) : Int) by omega, he.2.1 rfl r hr]
    exact hp.rowptr (r + 1) (by omega)

end SpMP
