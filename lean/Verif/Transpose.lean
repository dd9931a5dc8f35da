import Verif.RowsMem
import Verif.ConstRule
import Verif.LoopN
import Verif.PrefixSum
import Verif.Spec.Transpose
/-
CSR::transpose (/repo/CSR.cpp:457-629): object `k` = *this, `k'` = AT. The bucket array is the later AT->rowptr, i.e.
`rowptr k'`; pointers shifted by the base are modelled in the index.
-/

namespace SpMP
open Spec

set_option linter.unusedSectionVars false

variable {R : Type} [Races CArr]

/-- CSR.cpp:462-465 transpose_idx. -/
def trIdx (idx dim1 dim2 : Int) : Int := idx % dim1 * dim2 + idx / dim1

/-- CSR.cpp:514-532, thread `t`: its rows, its zeroed bucket row, and the count of its entries per column. -/
def trCount (k k' base m n T t : Nat) : Prog (CTy R) (Int × Int) := do
  let be ← lbPart k m T t
  Prog.forUp (ty := CTy R) 0 (n : Int) () fun i _ => Prog.write (ty := CTy R) (.rowptr k') ((t : Int) * n + i) (0 : Int)
  let lo ← Prog.read (ty := CTy R) (.rowptr k) be.1
  let hi ← Prog.read (ty := CTy R) (.rowptr k) be.2
  Prog.forUp (ty := CTy R) (lo : Int) (hi : Int) () fun j _ => do
    let idx ← Prog.read (ty := CTy R) (.colidx k) (j - base)
    Prog.assert (ty := CTy R) ((base : Int) ≤ idx ∧ (idx : Int) < n + base)
    let v ← Prog.read (ty := CTy R) (.rowptr k') ((t : Int) * n + idx - base)
    Prog.write (ty := CTy R) (.rowptr k') ((t : Int) * n + idx - base) ((v : Int) + 1)
  pure be

/-- CSR.cpp:538-543: prefix sum over the thread's chunk, in column-major order. -/
def trScan (k' n T t : Nat) : Prog (CTy R) Unit :=
  Prog.forUp (ty := CTy R) ((t : Int) * n + 1) (((t : Int) + 1) * n) () fun i _ => do
    let a ← Prog.read (ty := CTy R) (.rowptr k') (trIdx i T n)
    let b ← Prog.read (ty := CTy R) (.rowptr k') (trIdx (i - 1) T n)
    Prog.write (ty := CTy R) (.rowptr k') (trIdx i T n) ((a : Int) + b)

/-- CSR.cpp:546-555 (`omp master`): combine the ends of the chunks. -/
def trMaster (k' n T : Nat) : Prog (CTy R) Unit :=
  Prog.forUp (ty := CTy R) 1 (T : Int) () fun i _ => do
    let a ← Prog.read (ty := CTy R) (.rowptr k') (trIdx (n * (i + 1) - 1) T n)
    let b ← Prog.read (ty := CTy R) (.rowptr k') (trIdx (n * i - 1) T n)
    Prog.write (ty := CTy R) (.rowptr k') (trIdx (n * (i + 1) - 1) T n) ((a : Int) + b)

/-- CSR.cpp:558-566: add the end of the previous chunk. -/
def trAdd (k' n T t : Nat) : Prog (CTy R) Unit :=
  if t > 0 then
    Prog.forUp (ty := CTy R) ((t : Int) * n) (((t : Int) + 1) * n - 1) () fun i _ => do
      let a ← Prog.read (ty := CTy R) (.rowptr k') (trIdx i T n)
      let b ← Prog.read (ty := CTy R) (.rowptr k') (trIdx (n * (t : Int) - 1) T n)
      Prog.write (ty := CTy R) (.rowptr k') (trIdx i T n) ((a : Int) + b)
  else pure ()

/-- CSR.cpp:570-595: place the entries of rows `be`, last to first. -/
def trPlace (k k' base n : Nat) (vals : Bool) (nnz : Int) (t : Nat) (be : Int × Int) : Prog (CTy R) Unit :=
  Prog.forDown (ty := CTy R) (be.2 + base) (be.1 + base) () fun i _ => do
    let hi ← Prog.read (ty := CTy R) (.rowptr k) (i + 1 - base)
    let lo ← Prog.read (ty := CTy R) (.rowptr k) (i - base)
    Prog.forDown (ty := CTy R) (hi : Int) (lo : Int) () fun j _ => do
      let idx ← Prog.read (ty := CTy R) (.colidx k) (j - base)
      let v ← Prog.read (ty := CTy R) (.rowptr k') ((t : Int) * n + idx - base)
      Prog.write (ty := CTy R) (.rowptr k') ((t : Int) * n + idx - base) ((v : Int) - 1)
      let offset ← Prog.read (ty := CTy R) (.rowptr k') ((t : Int) * n + idx - base)
      (if vals then do
        Prog.assert (ty := CTy R) (0 ≤ (offset : Int) ∧ (offset : Int) < nnz)
        let x ← Prog.read (ty := CTy R) (.values k) (j - base)
        Prog.write (ty := CTy R) (.values k') offset x
      else pure () : Prog (CTy R) Unit)
      Prog.write (ty := CTy R) (.colidx k') offset i

/-- CSR.cpp:606-621, thread `t` (its iterations of the `omp for` are `asg t`): everyone stores the last row pointer, then looks
for the diagonal entries of its rows. -/
def trDiag (k' base n : Nat) (nnz : Int) (rg : Int × Int) : Prog (CTy R) Unit := do
  Prog.write (ty := CTy R) (.rowptr k') (n : Int) (nnz + base)
  Prog.forUp (ty := CTy R) (rg.1 + base) (rg.2 + base) () fun i _ => do
    let lo ← Prog.read (ty := CTy R) (.rowptr k') (i - base)
    let hi ← Prog.read (ty := CTy R) (.rowptr k') (i + 1 - base)
    Prog.forUp (ty := CTy R) (lo : Int) (hi : Int) () fun j _ => do
      let c ← Prog.read (ty := CTy R) (.colidx k') (j - base)
      if (c : Int) = i then Prog.write (ty := CTy R) (.diagptr k') (i - base) j else pure ()

/-- CSR.cpp:480-493: the arrays of AT. -/
def trSize (sz : CArr → Int) (k' n T : Nat) (nnz : Int) (vals diag : Bool) : CArr → Int
  | .rowptr j => if j = k' then ((n : Int) + 1) * T else sz (.rowptr j)
  | .colidx j => if j = k' then nnz else sz (.colidx j)
  | .values j => if j = k' ∧ vals = true then nnz else sz (.values j)
  | .diagptr j => if j = k' ∧ diag = true then n else sz (.diagptr j)
  | a => sz a

/-- CSR.cpp:471-629 transpose. `vals`, `diag`: whether `values` and `diagptr` are present; `asg t` is the range of iterations
the runtime gives to thread `t` in the last `omp for`. For `n == 0` the function returns before allocating row pointers.
The debug-only loop that checks the row pointers (502-507) is not modelled. -/
def transpose (sz : CArr → Int) (T k k' base m n : Nat) (vals diag : Bool) (asg : Nat → Int × Int) : Script (CTy R) Unit :=
  Script.seq sz (getNnz k m) fun nnz =>
  let sz' := trSize sz k' n T nnz vals diag
  if n = 0 then .done () else
  .phase sz' T (trCount k k' base m n T) fun be =>
  .phase sz' T (trScan k' n T) fun _ =>
  Script.seq sz' (trMaster k' n T) fun _ =>
  .phase sz' T (trAdd k' n T) fun _ =>
  .phase sz' T (fun t => trPlace k k' base n vals nnz t (be t)) fun _ =>
  (if base > 0 then
    (parMap sz' (.rowptr k') n (fun v : Int => v + base)).bind fun _ =>
    .phase sz' T (fun _ => do
      let v ← Prog.read (ty := CTy R) (.rowptr k') 0
      Prog.assert (ty := CTy R) ((v : Int) = base)) fun _ => .done ()
   else .done () : Script (CTy R) Unit).bind fun _ =>
  (if diag then .phase sz' T (fun t => trDiag k' base n nnz (asg t)) fun _ => .done ()
   else .done () : Script (CTy R) Unit).bind fun _ =>
  Script.seq sz' (Prog.write (ty := CTy R) (.rowptr k') (n : Int) (nnz + base)) fun _ => .done ()

/-! ### Proofs -/

/-- The load-balanced ranges of a team come from one monotone sequence of cuts. -/
theorem cut_fun {f : Int → Int} {T n : Nat} (hT : 1 ≤ T) (hf : ∀ i j, 0 ≤ i → i ≤ j → j ≤ (n : Int) → f i ≤ f j)
    {r : Nat → Int × Int} (h : ∀ t, t < T → CutRng f T n t (r t)) :
    ∃ cut : Nat → Nat, cut 0 = 0 ∧ cut T = n ∧ (∀ t, t < T → r t = ((cut t : Int), (cut (t + 1) : Int))) ∧
      ∀ t u, t ≤ u → u ≤ T → cut t ≤ cut u := by
  let cut : Nat → Nat := fun t => if t < T then (r t).1.toNat else n
  have hcut : ∀ t : Nat, t ≤ T → IsCut f T n t (cut t) := by
    intro t ht
    by_cases h1 : t < T
    · have := (h t h1).1
      have e : (cut t : Int) = (r t).1 := by
        show ((if t < T then (r t).1.toNat else n : Nat) : Int) = _
        rw [if_pos h1]; have := this.1; omega
      rw [e]; exact this
    · obtain rfl : t = T := by omega
      have h2 := (h (t - 1) (by omega)).2
      rw [show ((t - 1 : Nat) : Int) + 1 = t by omega] at h2
      have e : (cut t : Int) = (r (t - 1)).2 := by
        show ((if t < t then (r t).1.toNat else n : Nat) : Int) = _
        rw [if_neg h1]; exact (h2.2.2.2.1 rfl).symm
      rw [e]; exact h2
  refine ⟨cut, ?_, ?_, ?_, ?_⟩
  · have := (hcut 0 (by omega)).2.2.1 rfl; omega
  · show (if T < T then _ else n) = n
    rw [if_neg (by omega)]
  · intro t ht
    have e1 := IsCut.unique (h t ht).1 (hcut t (by omega))
    have e2 := IsCut.unique (h t ht).2 (by
      have := hcut (t + 1) (by omega)
      rw [show ((t + 1 : Nat) : Int) = (t : Int) + 1 by omega] at this; exact this)
    exact Prod.ext e1 e2
  · intro t u h1 h2
    have := IsCut.mono (T := T) (by omega) (by omega) hf (hcut t (by omega)) (hcut u h2) (by omega) (by omega) (by omega)
    omega

section
variable {sz : CArr → Int} {T k k' base n : Nat} {A : Csr R} {vals diag : Bool}

theorem trIdx_cell (c t T n : Nat) (ht : t < T) : trIdx ((c * T + t : Nat) : Int) T n = (t : Int) * n + c := by
  unfold trIdx
  have h1 : (c * T + t) % T = t := by rw [Nat.mul_comm, Nat.mul_add_mod]; exact Nat.mod_eq_of_lt ht
  have h2 : (c * T + t) / T = c := by
    rw [Nat.mul_comm, Nat.mul_add_div (by omega), Nat.div_eq_of_lt ht]; rfl
  rw [← Int.natCast_mod, ← Int.natCast_ediv, h1, h2]

theorem trIdx_nat (i T n : Nat) : trIdx (i : Int) T n = ((i % T * n + i / T : Nat) : Int) := by
  unfold trIdx; push_cast; rfl

theorem trIdx_inj {i j : Nat} (hi : i < n * T) (hj : j < n * T) (h : trIdx (i : Int) T n = trIdx (j : Int) T n) : i = j := by
  have hT : 0 < T := by
    rcases Nat.eq_zero_or_pos T with h | h
    · subst h; simp at hi
    · exact h
  have h1 : i / T < n := Nat.div_lt_of_lt_mul (by rw [Nat.mul_comm]; exact hi)
  have h2 : j / T < n := Nat.div_lt_of_lt_mul (by rw [Nat.mul_comm]; exact hj)
  rw [trIdx_nat, trIdx_nat] at h
  rw [← Nat.div_add_mod i T, ← Nat.div_add_mod j T]
  generalize i / T = a at *
  generalize j / T = b at *
  generalize i % T = c at *
  generalize j % T = d at *
  have := cell_unique (n := n) (t := c) (u := d) (i := a) (j := b) (by omega) (by omega) (by omega) (by omega)
    (by exact_mod_cast h)
  obtain rfl : a = b := by omega
  obtain rfl : c = d := by omega
  rfl

theorem trIdx_range {i : Nat} (hi : i < n * T) : 0 ≤ trIdx (i : Int) T n ∧ trIdx (i : Int) T n < (n : Int) * T := by
  have hT : 0 < T := by
    rcases Nat.eq_zero_or_pos T with h | h
    · subst h; simp at hi
    · exact h
  have h1 : i / T < n := Nat.div_lt_of_lt_mul (by rw [Nat.mul_comm]; exact hi)
  have h2 : i % T < T := Nat.mod_lt _ hT
  rw [trIdx_nat]
  have : (i % T + 1) * n ≤ T * n := Nat.mul_le_mul_right n h2
  rw [Nat.add_mul] at this
  have h3 : i % T * n + i / T < n * T := by rw [Nat.mul_comm n T]; omega
  exact ⟨Int.natCast_nonneg _, by exact_mod_cast h3⟩

/-- Exclusive prefix sums over the buckets in column-major order, in closed form. -/
def trE (A : Csr R) (cut : Nat → Nat) (T i : Nat) : Nat := A.tPtr (i / T) + A.cnt (i / T) (A.ptr (cut (i % T)))

theorem trE_cell (A : Csr R) (cut : Nat → Nat) {T c t : Nat} (ht : t < T) :
    trE A cut T (c * T + t) = A.tPtr c + A.cnt c (A.ptr (cut t)) := by
  unfold trE
  have h1 : (c * T + t) % T = t := by rw [Nat.mul_comm, Nat.mul_add_mod]; exact Nat.mod_eq_of_lt ht
  have h2 : (c * T + t) / T = c := by
    rw [Nat.mul_comm, Nat.mul_add_div (by omega), Nat.div_eq_of_lt ht]; rfl
  rw [h1, h2]

theorem trE_next (hwf : A.WF) {cut : Nat → Nat} (h0 : cut 0 = 0) (hTm : cut T = A.m) {c t : Nat} (ht : t < T) :
    trE A cut T (c * T + t + 1) = A.tPtr c + A.cnt c (A.ptr (cut (t + 1))) := by
  by_cases h : t + 1 < T
  · exact trE_cell A cut h
  · obtain rfl : T = t + 1 := by omega
    have e : c * (t + 1) + t + 1 = (c + 1) * (t + 1) + 0 := by rw [Nat.add_mul]; omega
    rw [e, trE_cell A cut (by omega), h0, hwf.ptr_zero, hTm]
    rw [Csr.tPtr_succ hwf c]; rfl

theorem trE_zero (hwf : A.WF) {cut : Nat → Nat} (h0 : cut 0 = 0) (T : Nat) : trE A cut T 0 = 0 := by
  unfold trE; rw [Nat.zero_div, Nat.zero_mod, h0, hwf.ptr_zero]; rfl

theorem trE_mono (hwf : A.WF) {cut : Nat → Nat} (hT : 1 ≤ T) (h0 : cut 0 = 0) (hTm : cut T = A.m)
    (hmono : ∀ t u, t ≤ u → u ≤ T → cut t ≤ cut u) (i : Nat) : trE A cut T i ≤ trE A cut T (i + 1) := by
  have e : i = i / T * T + i % T := by rw [Nat.mul_comm]; exact (Nat.div_add_mod i T).symm
  have ht : i % T < T := Nat.mod_lt _ hT
  generalize i / T = c at e
  generalize i % T = t at e ht
  subst e
  rw [trE_next hwf h0 hTm ht, trE_cell A cut ht]
  have h1 := hmono t (t + 1) (by omega) (by omega)
  have h2 := hmono (t + 1) T (by omega) (by omega)
  rw [hTm] at h2
  have := A.cnt_mono c (hwf.ptr_mono h1 h2)
  omega

theorem cell_lt {t T n c : Nat} (ht : t < T) (hc : c < n) :
    0 ≤ (t : Int) * n + c ∧ (t : Int) * n + c < ((n : Int) + 1) * T := by
  have h1 : (t + 1) * n ≤ T * n := Nat.mul_le_mul_right n ht
  have h2 : t * n + c < (n + 1) * T := by
    rw [Nat.add_mul] at h1
    rw [Nat.add_mul, Nat.mul_comm n T]; omega
  refine ⟨?_, by exact_mod_cast h2⟩
  have := Int.natCast_nonneg (t * n + c)
  push_cast at this; exact this

theorem _root_.SpMP.Spec.Csr.iptr_mono (A : Csr R) (hwf : A.WF) (base : Nat) (i j : Int) (h1 : 0 ≤ i) (h2 : i ≤ j)
    (h3 : j ≤ (A.m : Int)) : A.iptr base i ≤ A.iptr base j := by
  unfold Csr.iptr
  have := hwf.ptr_mono (i := i.toNat) (j := j.toNat) (by omega) (by omega)
  omega

/-- Cells of thread `t`'s bucket row. -/
def TrRow (k' n t : Nat) (a : CArr) (i : Int) : Prop := a = .rowptr k' ∧ ∃ c : Nat, c < n ∧ i = (t : Int) * n + c

theorem trCount_thread {t : Nat} {m0 : Mem (CTy R)} (hwf : A.WF) (hp : HoldsPat m0 k base A) (hkk : k' ≠ k) (ht : t < T)
    (hsz : ((A.n : Int) + 1) * T ≤ sz (.rowptr k')) :
    wp sz (TrRow k' A.n t) (fun a i => a ≠ .rowptr k' ∨ TrRow k' A.n t a i) (trCount k k' base A.m A.n T t) m0
      (fun r m => CutRng (A.iptr base) T A.m t r ∧ ∃ b e : Nat, r = ((b : Int), (e : Int)) ∧ ∀ c : Nat, c < A.n →
        m (.rowptr k') ((t : Int) * A.n + c) = some ((A.cnt c (A.ptr e) : Int) - A.cnt c (A.ptr b))) := by
  unfold trCount
  rw [wp_bind]
  refine wp_mono (wp_relax (wp_lbPart ht hwf hp.rowptr) (fun _ _ h => h.elim) ?_) ?_
  · rintro a i rfl; exact Or.inl (by simp only [ne_eq, CArr.rowptr.injEq]; omega)
  rintro ⟨b', e'⟩ m ⟨hcut, rfl⟩
  have hcut : CutRng (A.iptr base) T A.m t (b', e') := hcut
  obtain ⟨b, rfl⟩ := Int.eq_ofNat_of_zero_le (show 0 ≤ b' from hcut.1.1)
  obtain ⟨e, rfl⟩ := Int.eq_ofNat_of_zero_le (show 0 ≤ e' from hcut.2.1)
  have heA : e ≤ A.m := Int.ofNat_le.mp hcut.2.2.1
  have hbe : b ≤ e :=
    Int.ofNat_le.mp (IsCut.mono (by omega) (by omega) (A.iptr_mono hwf base) hcut.1 hcut.2 (by omega) (by omega) (by omega))
  rw [wp_bind]
  refine wp_forN (b := 0) (lo := 0) (hi := A.n)
    (fun i _ m' => (∀ c : Nat, c < i → m' (.rowptr k') ((t : Int) * A.n + c) = some (0 : Int)) ∧
      ∀ a j, a ≠ .rowptr k' → m' a j = m a j) (Nat.zero_le _) ⟨fun c hc => by omega, fun _ _ _ => rfl⟩ ?_ ?_ (by simp) (by simp)
  · rintro i _ m' - hi ⟨h1, h2⟩
    rw [Int.add_zero]
    refine wp_wr1 ⟨rfl, i, hi, rfl⟩ ⟨(cell_lt ht hi).1, Int.lt_of_lt_of_le (cell_lt ht hi).2 hsz⟩ ⟨?_, ?_⟩
    · intro c hc
      by_cases he : c = i
      · subst he; exact Mem.get_same _ _ _ _
      · rw [Mem.get_ne _ _ _ _ _ (by omega)]; exact h1 c (by omega)
    · intro a j ha
      exact (congrFun (Mem.set_other _ _ _ _ _ ha) _).trans (h2 a j ha)
  rintro _ m1 ⟨hz, hf⟩
  have hkne : (CArr.rowptr k) ≠ .rowptr k' := by simp only [ne_eq, CArr.rowptr.injEq]; omega
  refine wp_rd _ (Or.inl hkne) ((hf _ _ hkne).trans (hp.rowptr b (by omega))) ?_
  refine wp_rd _ (Or.inl hkne) ((hf _ _ hkne).trans (hp.rowptr e heA)) ?_
  rw [wp_bind]
  have hmono := hwf.ptr_mono hbe heA
  refine wp_forN (b := base) (lo := A.ptr b) (hi := A.ptr e)
    (fun x _ m' => (∀ c : Nat, c < A.n → m' (.rowptr k') ((t : Int) * A.n + c) = some ((A.cnt c x : Int) - A.cnt c (A.ptr b))) ∧
      ∀ a j, a ≠ .rowptr k' → m' a j = m a j) hmono ⟨?_, hf⟩ ?_ ?_ rfl rfl
  · intro c hc; rw [hz c hc, Int.sub_self]
  · rintro x _ m' h1 h2 ⟨g1, g2⟩
    have hx : x < A.nnz := Nat.lt_of_lt_of_le h2 (hwf.ptr_le_nnz heA)
    have hc := hwf.col_lt x hx
    have hci : (CArr.colidx k) ≠ .rowptr k' := by simp
    rw [Int.add_sub_cancel]
    refine wp_rd _ (Or.inl hci) ((g2 _ _ hci).trans (hp.colidx x hx)) ?_
    rw [wp_bind, wp_assert]
    refine ⟨by show (base : Int) ≤ (A.col x : Int) + base ∧ (A.col x : Int) + base < A.n + base; omega, ?_⟩
    have ec : (t : Int) * A.n + ((A.col x : Int) + base) - base = (t : Int) * A.n + A.col x := by omega
    show wp sz _ _ (do
      let v ← Prog.read (ty := CTy R) (.rowptr k') ((t : Int) * A.n + ((A.col x : Int) + base) - base)
      Prog.write (ty := CTy R) (.rowptr k') ((t : Int) * A.n + ((A.col x : Int) + base) - base) ((v : Int) + 1)) _ _
    rw [ec]
    refine wp_rd _ (Or.inr ⟨rfl, _, hc, rfl⟩) (g1 _ hc) ?_
    refine wp_wr1 ⟨rfl, _, hc, rfl⟩ ⟨(cell_lt ht hc).1, Int.lt_of_lt_of_le (cell_lt ht hc).2 hsz⟩ ⟨?_, ?_⟩
    · intro c hc'
      have es : A.cnt c (x + 1) = A.cnt c x + if A.col x = c then 1 else 0 := rfl
      by_cases he : A.col x = c
      · subst he
        rw [Mem.get_same, es, if_pos rfl]
        have : (A.cnt (A.col x) x : Int) - A.cnt (A.col x) (A.ptr b) + 1 =
          ((A.cnt (A.col x) x + 1 : Nat) : Int) - A.cnt (A.col x) (A.ptr b) := by push_cast; omega
        exact congrArg some this
      · rw [Mem.get_ne _ _ _ _ _ (by omega), g1 c hc', es, if_neg he, Nat.add_zero]
    · intro a j ha
      exact (congrFun (Mem.set_other _ _ _ _ _ ha) _).trans (g2 a j ha)
  · rintro _ m' ⟨g1, g2⟩
    rw [wp_pure]
    exact ⟨hcut, b, e, rfl, g1⟩

theorem TrRow.inj {t u : Nat} {a : CArr} {i : Int} (h1 : TrRow k' n t a i) (h2 : TrRow k' n u a i) : t = u := by
  obtain ⟨rfl, c, hc, rfl⟩ := h1
  obtain ⟨_, d, hd, e⟩ := h2
  have := (cell_unique (by omega) (by omega) (by omega) (by omega) e).1
  omega

theorem trCount_ok {m0 : Mem (CTy R)} {α : Type} {Q : α → Mem (CTy R) → Prop} {f : (Nat → Int × Int) → Script (CTy R) α}
    (hwf : A.WF) (hp : HoldsPat m0 k base A) (hkk : k' ≠ k) (hT : 1 ≤ T) (hsz : ((A.n : Int) + 1) * T ≤ sz (.rowptr k'))
    (hf : ∀ (be : Nat → Int × Int) (cut : Nat → Nat) (m : Mem (CTy R)), cut 0 = 0 → cut T = A.m →
      (∀ t u, t ≤ u → u ≤ T → cut t ≤ cut u) → (∀ t, t < T → be t = ((cut t : Int), (cut (t + 1) : Int))) →
      (∀ t c : Nat, t < T → c < A.n → m (.rowptr k') ((t : Int) * A.n + c) =
        some ((A.cnt c (A.ptr (cut (t + 1))) : Int) - A.cnt c (A.ptr (cut t)))) →
      (∀ a i, a ≠ .rowptr k' → m a i = m0 a i) → (f be).Ok m Q) :
    (Script.phase sz T (trCount k k' base A.m A.n T) f).Ok m0 Q := by
  refine par_rule _ _ _ ?_ (fun t ht => trCount_thread hwf hp hkk ht hsz) ?_
  · rintro t u a i ht hu htu h1 (h2 | h2)
    · exact h2 h1.1
    · exact htu (h1.inj h2)
  · intro r m hq hfr
    have hc : ∀ t, t < T → CutRng (A.iptr base) T A.m t (r t) := by
      intro t ht; obtain ⟨mt, ⟨h, _⟩, _⟩ := hq t ht; exact h
    obtain ⟨cut, h0, hTm, hr, hm⟩ := cut_fun hT (A.iptr_mono hwf base) hc
    refine hf r cut m h0 hTm hm hr ?_ ?_
    · intro t c ht hc
      obtain ⟨mt, ⟨_, b, e, hbe, h⟩, hR⟩ := hq t ht
      rw [hr t ht] at hbe
      obtain ⟨e1, e2⟩ := Prod.mk.inj hbe
      rw [hR _ _ (Or.inr ⟨rfl, c, hc, rfl⟩), h c hc, show b = cut t by omega, show e = cut (t + 1) by omega]
    · intro a i ha
      exact hfr a i fun t _ h => ha h.1

/-- The buckets in column-major order. -/
def TrCells (m : Mem (CTy R)) (k' n T : Nat) (X : Nat → Int) : Prop :=
  ∀ i : Nat, i < n * T → m (.rowptr k') (trIdx (i : Int) T n) = some (X i)

/-- Cells of thread `s`'s chunk in column-major order. -/
def TrChunk (k' n T s : Nat) (a : CArr) (j : Int) : Prop :=
  a = .rowptr k' ∧ ∃ i : Nat, s * n ≤ i ∧ i < s * n + n ∧ j = trIdx (i : Int) T n

theorem chunk_lt {s T n i : Nat} (hs : s < T) (hi : i < s * n + n) : i < n * T := by
  have : (s + 1) * n ≤ T * n := Nat.mul_le_mul_right n hs
  rw [Nat.add_mul] at this; rw [Nat.mul_comm n T]; omega

theorem chunk_uniq {s u n i : Nat} (h1 : s * n ≤ i) (h2 : i < s * n + n) (h3 : u * n ≤ i) (h4 : i < u * n + n) : s = u := by
  rcases Nat.lt_trichotomy s u with h | h | h
  · have : (s + 1) * n ≤ u * n := Nat.mul_le_mul_right n h
    rw [Nat.add_mul] at this; omega
  · exact h
  · have : (u + 1) * n ≤ s * n := Nat.mul_le_mul_right n h
    rw [Nat.add_mul] at this; omega

theorem TrChunk.inj {s u : Nat} {a : CArr} {j : Int} (hs : s < T) (hu : u < T) (h1 : TrChunk k' n T s a j)
    (h2 : TrChunk k' n T u a j) : s = u := by
  obtain ⟨rfl, c, g1, g2, rfl⟩ := h1
  obtain ⟨_, d, g3, g4, e⟩ := h2
  obtain rfl := trIdx_inj (chunk_lt hs g2) (chunk_lt hu g4) e
  exact chunk_uniq g1 g2 g3 g4

theorem tr_size {i : Nat} (hi : i < n * T) (hsz : ((n : Int) + 1) * T ≤ sz (.rowptr k')) :
    0 ≤ trIdx (i : Int) T n ∧ trIdx (i : Int) T n < sz (.rowptr k') := by
  have h := trIdx_range hi
  refine ⟨h.1, Int.lt_of_lt_of_le h.2 (Int.le_trans ?_ hsz)⟩
  rw [Int.add_mul]; omega

/-- Updating one bucket. -/
theorem TrCells.upd {m : Mem (CTy R)} {i i' : Nat} (hi : i < n * T) (hi' : i' < n * T) (v : Int) :
    (m.set (.rowptr k') (trIdx (i : Int) T n) v) (.rowptr k') (trIdx (i' : Int) T n) =
      if i' = i then some v else m (.rowptr k') (trIdx (i' : Int) T n) := by
  by_cases h : i' = i
  · subst h; rw [if_pos rfl]; exact Mem.get_same _ _ _ _
  · rw [if_neg h]; exact Mem.get_ne _ _ _ _ _ fun e => h (trIdx_inj hi' hi e)

theorem trScan_ok {m0 : Mem (CTy R)} {E : Nat → Nat} {α : Type} {Q : α → Mem (CTy R) → Prop}
    {f : (Nat → Unit) → Script (CTy R) α} (hn : 0 < n) (hsz : ((n : Int) + 1) * T ≤ sz (.rowptr k'))
    (h0 : TrCells m0 k' n T fun i => (E (i + 1) : Int) - E i)
    (hf : ∀ u m, TrCells m k' n T (fun i => (E (i + 1) : Int) - E (i / n * n)) →
      (∀ a i, a ≠ .rowptr k' → m a i = m0 a i) → (f u).Ok m Q) :
    (Script.phase sz T (trScan k' n T) f).Ok m0 Q := by
  refine par_rule (W := fun s a j => TrChunk k' n T s a j) (R := fun s a j => TrChunk k' n T s a j)
    (Q := fun s _ m => ∀ i, s * n ≤ i → i < s * n + n →
      m (.rowptr k') (trIdx (i : Int) T n) = some ((E (i + 1) : Int) - E (s * n))) ?_ ?_ ?_
  · intro t u a i ht hu htu h1 h2; exact htu (h1.inj ht hu h2)
  · intro s hs
    unfold trScan
    refine wp_forN (b := 0) (lo := s * n + 1) (hi := s * n + n)
      (fun i _ m => ∀ i', s * n ≤ i' → i' < s * n + n → m (.rowptr k') (trIdx (i' : Int) T n) =
        some (if i' < i then (E (i' + 1) : Int) - E (s * n) else (E (i' + 1) : Int) - E i'))
      (by omega) ?_ ?_ ?_ (by push_cast; omega) (by push_cast; rw [Int.add_mul]; omega)
    · intro i' h1 h2
      rw [h0 i' (chunk_lt hs h2)]
      split
      · obtain rfl : i' = s * n := by omega
        rfl
      · rfl
    · intro i _ m h1 h2 hm
      rw [Int.add_zero, show ((i : Int) - 1) = ((i - 1 : Nat) : Int) by omega]
      have r1 := hm i (by omega) h2
      have r2 := hm (i - 1) (by omega) (by omega)
      rw [if_neg (by omega)] at r1
      rw [if_pos (by omega), show i - 1 + 1 = i by omega] at r2
      refine wp_rd _ ⟨rfl, i, by omega, h2, rfl⟩ r1 ?_
      refine wp_rd _ ⟨rfl, i - 1, by omega, by omega, rfl⟩ r2 ?_
      refine wp_wr1 ⟨rfl, i, by omega, h2, rfl⟩ (tr_size (chunk_lt hs h2) hsz) ?_
      intro i' g1 g2
      rw [TrCells.upd (chunk_lt hs h2) (chunk_lt hs g2)]
      by_cases he : i' = i
      · subst he; rw [if_pos rfl, if_pos (by omega)]; congr 1; omega
      · rw [if_neg he, hm i' g1 g2]
        by_cases hl : i' < i
        · rw [if_pos hl, if_pos (by omega)]
        · rw [if_neg hl, if_neg (by omega)]
    · intro _ m hm i h1 h2
      rw [hm i h1 h2, if_pos h2]
  · intro u m hq hfr
    refine hf u m ?_ fun a i ha => hfr a i fun t _ h => ha h.1
    intro i hi
    have hs : i / n < T := Nat.div_lt_of_lt_mul hi
    have g1 : i / n * n ≤ i := Nat.div_mul_le_self i n
    have g2 : i < i / n * n + n := by
      have := Nat.lt_mul_div_succ i hn
      rw [Nat.mul_add, Nat.mul_one, Nat.mul_comm n] at this; exact this
    obtain ⟨mt, h, hR⟩ := hq _ hs
    rw [hR _ _ ⟨rfl, i, g1, g2, rfl⟩]
    exact h i g1 g2

theorem last_div {q n : Nat} (hq : 1 ≤ q) (hn : 0 < n) : (n * q - 1) / n = q - 1 := by
  obtain ⟨q, rfl⟩ : ∃ r, q = r + 1 := ⟨q - 1, by omega⟩
  rw [show n * (q + 1) - 1 = n * q + (n - 1) by rw [Nat.mul_add]; omega, Nat.mul_add_div hn, Nat.div_eq_of_lt (by omega)]
  omega

theorem wp_trMaster {W Rd : CArr → Int → Prop} {m0 : Mem (CTy R)} {E : Nat → Nat} {Q : Unit → Mem (CTy R) → Prop} (hT : 1 ≤ T) (hn : 0 < n)
    (hW : ∀ a i, W a i) (hRd : ∀ a i, Rd a i)
    (hsz : ((n : Int) + 1) * T ≤ sz (.rowptr k')) (hE : E 0 = 0)
    (h0 : TrCells m0 k' n T fun i => (E (i + 1) : Int) - E (i / n * n))
    (hQ : ∀ u m, TrCells m k' n T (fun i => if (i + 1) % n = 0 then (E (i + 1) : Int) else (E (i + 1) : Int) - E (i / n * n)) →
      (∀ a i, a ≠ .rowptr k' → m a i = m0 a i) → Q u m) :
    wp sz W Rd (trMaster k' n T) m0 Q := by
  unfold trMaster
  have hlt : ∀ q, 1 ≤ q → q ≤ T → n * q - 1 < n * T := by
    intro q h1 h2
    have := Nat.mul_le_mul_left n h2
    have := Nat.mul_le_mul_left n h1
    omega
  have hpos : ∀ q, 1 ≤ q → n ≤ n * q := fun q h1 => by have := Nat.mul_le_mul_left n h1; omega
  refine wp_forN (b := 0) (lo := 1) (hi := T)
    (fun q _ m => (∀ i, i < n * T → m (.rowptr k') (trIdx (i : Int) T n) =
        some (if (i + 1) % n = 0 ∧ i / n < q then (E (i + 1) : Int) else (E (i + 1) : Int) - E (i / n * n))) ∧
      ∀ a j, a ≠ .rowptr k' → m a j = m0 a j) hT ⟨?_, fun _ _ _ => rfl⟩ ?_ ?_ (by simp) (by simp)
  · intro i hi
    rw [h0 i hi]
    split
    · rename_i h
      show some ((E (i + 1) : Int) - E (i / n * n)) = _
      have : i / n = 0 := by have := h.2; generalize i / n = q at this; omega
      rw [this, Nat.zero_mul, hE]; simp
    · rfl
  · rintro q _ m h1 h2 ⟨hm, hfr⟩
    rw [Int.add_zero]
    have e1 : (n : Int) * ((q : Int) + 1) - 1 = ((n * (q + 1) - 1 : Nat) : Int) := by
      have := hpos (q + 1) (by omega)
      rw [Int.natCast_sub (by omega)]; push_cast; rfl
    have e2 : (n : Int) * (q : Int) - 1 = ((n * q - 1 : Nat) : Int) := by
      have := hpos q h1
      rw [Int.natCast_sub (by omega)]; push_cast; rfl
    rw [e1, e2]
    have hp1 := hpos (q + 1) (by omega)
    have hp0 := hpos q h1
    have i1 := hlt (q + 1) (by omega) (by omega)
    have i0 := hlt q h1 (by omega)
    have r1 := hm _ i1
    have r0 := hm _ i0
    rw [last_div (by omega) hn, show n * (q + 1) - 1 + 1 = n * (q + 1) by omega, Nat.mul_mod_right, if_neg (by omega)] at r1
    rw [last_div h1 hn, show n * q - 1 + 1 = n * q by omega, Nat.mul_mod_right, if_pos (by omega)] at r0
    refine wp_rd _ (hRd _ _) r1 ?_
    refine wp_rd _ (hRd _ _) r0 ?_
    refine wp_wr1 (hW _ _) (tr_size i1 hsz) ⟨?_, ?_⟩
    · intro i hi
      rw [TrCells.upd i1 hi]
      by_cases he : i = n * (q + 1) - 1
      · subst he
        rw [if_pos rfl, last_div (by omega) hn, show n * (q + 1) - 1 + 1 = n * (q + 1) by omega, Nat.mul_mod_right,
          if_pos (by omega), show (q + 1 - 1) * n = n * q by rw [Nat.mul_comm]; rfl]
        congr 1; omega
      · rw [if_neg he, hm i hi]
        congr 1
        have : (i + 1) % n = 0 → i / n ≠ q := by
          intro g1 g2
          apply he
          obtain ⟨d, hd⟩ := Nat.dvd_of_mod_eq_zero g1
          have : i = n * d - 1 := by omega
          have hd1 : 1 ≤ d := by
            rcases Nat.eq_zero_or_pos d with h | h
            · subst h; omega
            · exact h
          rw [this, last_div hd1 hn] at g2
          rw [this, show d = q + 1 by omega]
        by_cases hc : (i + 1) % n = 0 ∧ i / n < q
        · rw [if_pos hc, if_pos ⟨hc.1, by omega⟩]
        · rw [if_neg hc, if_neg]
          rintro ⟨g1, g2⟩
          have := this g1
          exact hc ⟨g1, by omega⟩
    · intro a j ha
      exact (congrFun (Mem.set_other _ _ _ _ _ ha) _).trans (hfr a j ha)
  · rintro u m ⟨hm, hfr⟩
    refine hQ u m ?_ hfr
    intro i hi
    rw [hm i hi]
    have hs : i / n < T := Nat.div_lt_of_lt_mul hi
    refine congrArg some ?_
    show _ = if (i + 1) % n = 0 then (E (i + 1) : Int) else (E (i + 1) : Int) - E (i / n * n)
    by_cases hc : (i + 1) % n = 0
    · rw [if_pos ⟨hc, hs⟩, if_pos hc]
    · rw [if_neg (fun h => hc h.1), if_neg hc]

theorem trAdd_ok {m0 : Mem (CTy R)} {E : Nat → Nat} {α : Type} {Q : α → Mem (CTy R) → Prop}
    {f : (Nat → Unit) → Script (CTy R) α} (hn : 0 < n) (hsz : ((n : Int) + 1) * T ≤ sz (.rowptr k')) (hE : E 0 = 0)
    (h0 : TrCells m0 k' n T fun i => if (i + 1) % n = 0 then (E (i + 1) : Int) else (E (i + 1) : Int) - E (i / n * n))
    (hf : ∀ u m, TrCells m k' n T (fun i => (E (i + 1) : Int)) →
      (∀ a i, a ≠ .rowptr k' → m a i = m0 a i) → (f u).Ok m Q) :
    (Script.phase sz T (trAdd k' n T) f).Ok m0 Q := by
  have h0 : ∀ i : Nat, i < n * T → m0 (.rowptr k') (trIdx (i : Int) T n) =
      some (if (i + 1) % n = 0 then (E (i + 1) : Int) else (E (i + 1) : Int) - E (i / n * n)) := h0
  have hin : ∀ s i, s * n ≤ i → i + 1 < s * n + n → i / n = s ∧ (i + 1) % n ≠ 0 := by
    intro s i h1 h2
    obtain ⟨d, rfl⟩ : ∃ d, i = n * s + d := ⟨i - n * s, by rw [Nat.mul_comm n s]; omega⟩
    rw [Nat.mul_comm n s] at *
    rw [Nat.mul_comm s n, Nat.mul_add_div hn, Nat.div_eq_of_lt (by omega), Nat.add_assoc, Nat.mul_add_mod,
      Nat.mod_eq_of_lt (by omega)]
    omega
  refine par_rule (W := fun s a j => a = .rowptr k' ∧ ∃ i : Nat, s * n ≤ i ∧ i + 1 < s * n + n ∧ j = trIdx (i : Int) T n)
    (R := fun s a j => a = .rowptr k' ∧ ∃ i : Nat, i < n * T ∧ j = trIdx (i : Int) T n ∧
      ((s * n ≤ i ∧ i + 1 < s * n + n) ∨ (0 < s ∧ i + 1 = s * n)))
    (Q := fun s _ m => ∀ i, s * n ≤ i → i + 1 < s * n + n →
      m (.rowptr k') (trIdx (i : Int) T n) = some (E (i + 1) : Int)) ?_ ?_ ?_
    (by rintro t a j ht ⟨h0, i, h1, h2, h3⟩; exact ⟨h0, i, chunk_lt ht (by omega), h3, Or.inl ⟨h1, h2⟩⟩)
  · rintro t u a j ht hu htu ⟨rfl, i, h1, h2, rfl⟩ ⟨_, i', h3, h4, h5⟩
    obtain rfl := trIdx_inj (chunk_lt ht (by omega)) h3 h4
    rcases h5 with h5 | h5
    · exact htu (chunk_uniq h1 (by omega) h5.1 (by omega))
    · have := (hin t i h1 h2).2
      rw [h5.2] at this
      exact this (Nat.mul_mod_left u n)
  · intro s hs
    unfold trAdd
    split
    · rename_i hs0
      have hsn : n ≤ s * n := Nat.le_mul_of_pos_left n hs0
      refine wp_forN (b := 0) (lo := s * n) (hi := s * n + n - 1)
        (fun i _ m => (∀ i', s * n ≤ i' → i' + 1 < s * n + n → m (.rowptr k') (trIdx (i' : Int) T n) =
          some (if i' < i then (E (i' + 1) : Int) else (E (i' + 1) : Int) - E (s * n))) ∧
          m (.rowptr k') (trIdx ((s * n - 1 : Nat) : Int) T n) = some (E (s * n) : Int))
        (by omega) ⟨?_, ?_⟩ ?_ ?_ (by push_cast; omega)
        (by rw [Int.natCast_sub (by omega)]; push_cast; rw [Int.add_mul]; omega)
      · intro i' h1 h2
        rw [h0 i' (chunk_lt hs (by omega)), if_neg (hin s i' h1 h2).2, (hin s i' h1 h2).1, if_neg (by omega)]
      · rw [h0 _ (chunk_lt hs (by omega)), show s * n - 1 + 1 = s * n by omega, if_pos (Nat.mul_mod_left s n)]
      · rintro i _ m h1 h2 ⟨hm, he⟩
        rw [Int.add_zero]
        have r1 := hm i h1 (by omega)
        rw [if_neg (by omega)] at r1
        refine wp_rd _ ⟨rfl, i, chunk_lt hs (by omega), rfl, Or.inl ⟨h1, by omega⟩⟩ r1 ?_
        rw [show (n : Int) * (s : Int) - 1 = ((s * n - 1 : Nat) : Int) by
          rw [Int.natCast_sub (by omega)]; push_cast; rw [Int.mul_comm]]
        refine wp_rd _ ⟨rfl, s * n - 1, chunk_lt hs (by omega), rfl, Or.inr ⟨hs0, by omega⟩⟩ he ?_
        refine wp_wr1 ⟨rfl, i, h1, by omega, rfl⟩ (tr_size (chunk_lt hs (by omega)) hsz) ⟨?_, ?_⟩
        · intro i' g1 g2
          rw [TrCells.upd (chunk_lt hs (by omega)) (chunk_lt hs (by omega))]
          by_cases he : i' = i
          · subst he; rw [if_pos rfl, if_pos (by omega)]
            have : (E (i' + 1) : Int) - E (s * n) + E (s * n) = E (i' + 1) := by omega
            exact congrArg some this
          · rw [if_neg he, hm i' g1 g2]
            by_cases hl : i' < i
            · rw [if_pos hl, if_pos (by omega)]
            · rw [if_neg hl, if_neg (by omega)]
        · rw [TrCells.upd (chunk_lt hs (by omega)) (chunk_lt hs (by omega)), if_neg (by omega)]; exact he
      · rintro _ m ⟨hm, _⟩ i h1 h2
        rw [hm i h1 h2, if_pos (by omega)]
    · rw [wp_pure]
      intro i h1 h2
      obtain rfl : s = 0 := by omega
      rw [h0 i (chunk_lt hs (by omega)), if_neg (hin 0 i h1 h2).2, (hin 0 i h1 h2).1, Nat.zero_mul, hE]
      simp
  · intro u m hq hfr
    refine hf u m ?_ fun a i ha => hfr a i fun t _ h => ha h.1
    intro i hi
    have hs : i / n < T := Nat.div_lt_of_lt_mul hi
    have g1 : i / n * n ≤ i := Nat.div_mul_le_self i n
    have g2 : i < i / n * n + n := by
      have := Nat.lt_mul_div_succ i hn
      rw [Nat.mul_add, Nat.mul_one, Nat.mul_comm n] at this; exact this
    by_cases hl : i + 1 < i / n * n + n
    · obtain ⟨mt, h, hR⟩ := hq _ hs
      rw [hR _ _ ⟨rfl, i, hi, rfl, Or.inl ⟨g1, hl⟩⟩]
      exact h i g1 hl
    · have e : i + 1 = n * (i / n + 1) := by
        rw [Nat.mul_add, Nat.mul_one, Nat.mul_comm n]; generalize i / n * n = q at *; omega
      have hmod : (i + 1) % n = 0 := by rw [e]; exact Nat.mul_mod_right _ _
      rw [hfr, h0 i hi, if_pos hmod]
      rintro t ht ⟨_, i', h1, h2, h3⟩
      obtain rfl := trIdx_inj hi (chunk_lt ht (by omega)) h3
      exact (hin t i h1 h2).2 hmod

/-- A monotone sequence of cuts covers `0 ..< g T`. -/
theorem cuts_find {g : Nat → Nat} {T j : Nat} (h0 : g 0 = 0) (hj : j < g T) : ∃ t, t < T ∧ g t ≤ j ∧ j < g (t + 1) := by
  induction T with
  | zero => omega
  | succ T ih =>
    by_cases h : j < g T
    · obtain ⟨t, h1, h2⟩ := ih h; exact ⟨t, by omega, h2⟩
    · exact ⟨T, by omega, by omega, hj⟩

variable (k') in
/-- Arrays of AT touched by the parallel part. -/
def TrArr (a : CArr) : Prop := a = .rowptr k' ∨ a = .colidx k' ∨ a = .values k'

/-- Cells written by the placement of positions `lo ..< hi`. -/
def TrOut (A : Csr R) (k' : Nat) (lo hi : Nat) (a : CArr) (i : Int) : Prop :=
  (a = .colidx k' ∨ a = .values k') ∧ ∃ j : Nat, lo ≤ j ∧ j < hi ∧ j < A.nnz ∧ i = (A.tPos j : Int)

/-- State of thread `t` when the positions `x ..< hi` are placed. -/
structure PlaceInv (A : Csr R) (k' base : Nat) (vals : Bool) (t hi : Nat) (m0 m : Mem (CTy R)) (x : Nat) : Prop where
  cells : ∀ c : Nat, c < A.n → m (.rowptr k') ((t : Int) * A.n + c) = some ((A.tPtr c : Int) + A.cnt c x)
  out : ∀ i j, A.InRow i j → x ≤ j → j < hi → m (.colidx k') (A.tPos j : Int) = some ((i : Int) + base) ∧
    (vals = true → m (.values k') (A.tPos j : Int) = some (A.val j))
  frame : ∀ a i, ¬ TrArr k' a → m a i = m0 a i

theorem trPlace_thread {t b e : Nat} {m0 : Mem (CTy R)} (hwf : A.WF) (hp : HoldsPat m0 k base A)
    (hv : vals = true → HoldsVal m0 k A) (hkk : k' ≠ k) (ht : t < T) (hbe : b ≤ e) (heA : e ≤ A.m)
    (hsz : ((A.n : Int) + 1) * T ≤ sz (.rowptr k')) (hcs : (A.nnz : Int) ≤ sz (.colidx k'))
    (hvs : vals = true → (A.nnz : Int) ≤ sz (.values k'))
    (hc : ∀ c : Nat, c < A.n → m0 (.rowptr k') ((t : Int) * A.n + c) = some ((A.tPtr c : Int) + A.cnt c (A.ptr e))) :
    wp sz (fun a i => TrRow k' A.n t a i ∨ TrOut A k' (A.ptr b) (A.ptr e) a i)
      (fun a i => ¬ TrArr k' a ∨ TrRow k' A.n t a i ∨ TrOut A k' (A.ptr b) (A.ptr e) a i)
      (trPlace k k' base A.n vals A.nnz t ((b : Int), (e : Int))) m0
      (fun _ m => PlaceInv A k' base vals t (A.ptr e) m0 m (A.ptr b)) := by
  unfold trPlace
  have hk1 : ¬ TrArr k' (.rowptr k) := by unfold TrArr; simp; omega
  have hk2 : ¬ TrArr k' (.colidx k) := by unfold TrArr; simp; omega
  have hk3 : ¬ TrArr k' (.values k) := by unfold TrArr; simp; omega
  refine wp_forDownN (b := base) (lo := b) (hi := e)
    (fun i _ m => PlaceInv A k' base vals t (A.ptr e) m0 m (A.ptr i)) hbe ⟨hc, fun i j _ h1 h2 => by omega, fun _ _ _ => rfl⟩
    ?_ (fun _ _ h => h) rfl rfl
  intro i _ m hi1 hi2 hI
  have iA : i < A.m := by omega
  have e1 : ((i : Int) + base + 1 - base) = ((i + 1 : Nat) : Int) := by omega
  have e2 : ((i : Int) + base - base) = (i : Int) := by omega
  rw [e1, e2]
  refine wp_rd _ (Or.inl hk1) ((hI.frame _ _ hk1).trans (hp.rowptr (i + 1) iA)) ?_
  refine wp_rd _ (Or.inl hk1) ((hI.frame _ _ hk1).trans (hp.rowptr i (by omega))) ?_
  refine wp_forDownN (b := base) (lo := A.ptr i) (hi := A.ptr (i + 1))
    (fun x _ m => PlaceInv A k' base vals t (A.ptr e) m0 m x) (hwf.ptr_step i iA) hI ?_ (fun _ _ h => h) rfl rfl
  intro x _ m hx1 hx2 hI
  have hrow : A.InRow i x := ⟨iA, hx1, hx2⟩
  have hx := hrow.lt_nnz hwf
  have hcx := hwf.col_lt x hx
  have hxb : A.ptr b ≤ x := Nat.le_trans (hwf.ptr_mono hi1 (by omega)) hx1
  have hxe : x < A.ptr e := Nat.lt_of_lt_of_le hx2 (hwf.ptr_mono (show i + 1 ≤ e by omega) heA)
  have htp := A.tPos_lt hwf hx
  rw [Int.add_sub_cancel]
  refine wp_rd _ (Or.inl hk2) ((hI.frame _ _ hk2).trans (hp.colidx x hx)) ?_
  have ec : (t : Int) * A.n + ((A.col x : Int) + base) - base = (t : Int) * A.n + A.col x := by omega
  have hrowc : TrRow k' A.n t (.rowptr k') ((t : Int) * A.n + A.col x) := ⟨rfl, _, hcx, rfl⟩
  show wp sz _ _ (do
      let v ← Prog.read (ty := CTy R) (.rowptr k') ((t : Int) * A.n + ((A.col x : Int) + base) - base)
      Prog.write (ty := CTy R) (.rowptr k') ((t : Int) * A.n + ((A.col x : Int) + base) - base) ((v : Int) - 1)
      let offset ← Prog.read (ty := CTy R) (.rowptr k') ((t : Int) * A.n + ((A.col x : Int) + base) - base)
      (if vals then do
        Prog.assert (ty := CTy R) (0 ≤ (offset : Int) ∧ (offset : Int) < A.nnz)
        let y ← Prog.read (ty := CTy R) (.values k) (x : Int)
        Prog.write (ty := CTy R) (.values k') offset y
      else pure () : Prog (CTy R) Unit)
      Prog.write (ty := CTy R) (.colidx k') offset ((i : Int) + base)) _ _
  rw [ec]
  refine wp_rd _ (Or.inr (Or.inl hrowc)) (hI.cells _ hcx) ?_
  refine wp_wr (Or.inl hrowc) ⟨(cell_lt ht hcx).1, Int.lt_of_lt_of_le (cell_lt ht hcx).2 hsz⟩ ?_
  refine wp_rd ((A.tPos x : Int)) (Or.inr (Or.inl hrowc)) ?_ ?_
  · rw [Mem.get_same]
    have es : A.cnt (A.col x) (x + 1) = A.cnt (A.col x) x + if A.col x = A.col x then 1 else 0 := rfl
    rw [if_pos rfl] at es
    have : (A.tPtr (A.col x) : Int) + A.cnt (A.col x) (x + 1) - 1 = (A.tPos x : Int) := by
      unfold Csr.tPos; rw [es]; push_cast; omega
    exact congrArg some this
  have hout : ∀ a, a = .colidx k' ∨ a = .values k' → TrOut A k' (A.ptr b) (A.ptr e) a (A.tPos x : Int) :=
    fun a ha => ⟨ha, x, hxb, hxe, hx, rfl⟩
  -- the memory after the bucket update and the value write
  have key : ∀ m1 : Mem (CTy R), m1 (.rowptr k') = (m.set (.rowptr k') ((t : Int) * A.n + A.col x)
        ((A.tPtr (A.col x) : Int) + A.cnt (A.col x) (x + 1) - 1 : Int)) (.rowptr k') →
      m1 (.colidx k') = m (.colidx k') →
      (vals = true → m1 (.values k') (A.tPos x : Int) = some (A.val x) ∧
        ∀ i, i ≠ (A.tPos x : Int) → m1 (.values k') i = m (.values k') i) →
      (∀ a i, ¬ TrArr k' a → m1 a i = m a i) →
      PlaceInv A k' base vals t (A.ptr e) m0 (m1.set (.colidx k') (A.tPos x : Int) ((i : Int) + base : Int)) x := by
    intro m1 h1 h2 h3 h4
    refine ⟨?_, ?_, ?_⟩
    · intro c hc'
      rw [Mem.set_other _ _ _ _ _ (by simp), h1]
      have es : A.cnt c (x + 1) = A.cnt c x + if A.col x = c then 1 else 0 := rfl
      by_cases he : A.col x = c
      · subst he
        rw [Mem.get_same]
        rw [if_pos rfl] at es
        have : (A.tPtr (A.col x) : Int) + A.cnt (A.col x) (x + 1) - 1 = (A.tPtr (A.col x) : Int) + A.cnt (A.col x) x := by
          rw [es]; push_cast; omega
        exact congrArg some this
      · rw [Mem.get_ne _ _ _ _ _ (by omega), hI.cells c hc', es, if_neg he, Nat.add_zero]
    · intro i' j hij g1 g2
      by_cases he : j = x
      · subst he
        obtain rfl : i' = i := by
          rcases Nat.lt_trichotomy i' i with h | h | h
          · have := hwf.ptr_mono (show i' + 1 ≤ i from h) (by omega)
            have := hij.2.2; omega
          · exact h
          · have := hwf.ptr_mono (show i + 1 ≤ i' from h) (by have := hij.1; omega)
            have := hij.2.1; omega
        refine ⟨Mem.get_same _ _ _ _, fun hvv => ?_⟩
        rw [Mem.set_other _ _ _ _ _ (by simp)]
        exact (h3 hvv).1
      · have hne : (A.tPos j : Int) ≠ A.tPos x := fun h => he (A.tPos_inj hwf (hij.lt_nnz hwf) hx (by omega))
        obtain ⟨o1, o2⟩ := hI.out i' j hij (by omega) g2
        refine ⟨?_, fun hvv => ?_⟩
        · rw [Mem.get_ne _ _ _ _ _ hne, h2]; exact o1
        · rw [Mem.set_other _ _ _ _ _ (by simp), (h3 hvv).2 _ hne]; exact o2 hvv
    · intro a i' ha
      rw [Mem.set_other _ _ _ _ _ (by rintro rfl; exact ha (Or.inr (Or.inl rfl))), h4 a i' ha]
      exact hI.frame a i' ha
  have hset : ∀ a i', ¬ TrArr k' a → (m.set (.rowptr k') ((t : Int) * A.n + A.col x)
        ((A.tPtr (A.col x) : Int) + A.cnt (A.col x) (x + 1) - 1 : Int)) a i' = m a i' := fun a i' ha =>
    congrFun (Mem.set_other _ _ _ _ _ (by rintro rfl; exact ha (Or.inl rfl))) _
  cases vals with
  | true =>
    rw [if_pos rfl, wp_bind, wp_bind, wp_assert]
    refine ⟨by show 0 ≤ (A.tPos x : Int) ∧ (A.tPos x : Int) < A.nnz; omega, ?_⟩
    refine wp_rd (A.val x) (Or.inl hk3) ?_ ?_
    · rw [hset _ _ hk3, hI.frame _ _ hk3]; exact hv rfl x hx
    refine wp_wr1 (Or.inr (hout _ (Or.inr rfl))) ⟨by omega, by have := hvs rfl; omega⟩ ?_
    refine wp_wr1 (Or.inr (hout _ (Or.inl rfl))) ⟨by omega, by omega⟩ ?_
    refine key _ ?_ ?_ ?_ ?_
    · exact Mem.set_other _ _ _ _ _ (by simp)
    · rw [Mem.set_other _ _ _ _ _ (by simp), Mem.set_other _ _ _ _ _ (by simp)]
    · intro _
      refine ⟨Mem.get_same _ _ _ _, fun i' hi' => ?_⟩
      rw [Mem.get_ne _ _ _ _ _ hi', Mem.set_other _ _ _ _ _ (by simp)]
    · intro a i' ha
      rw [Mem.set_other _ _ _ _ _ (by rintro rfl; exact ha (Or.inr (Or.inr rfl)))]
      exact hset a i' ha
  | false =>
    rw [if_neg (by simp), wp_bind, wp_pure]
    refine wp_wr1 (Or.inr (hout _ (Or.inl rfl))) ⟨by omega, by omega⟩ ?_
    refine key _ rfl ?_ (fun h => by cases h) hset
    rw [Mem.set_other _ _ _ _ _ (by simp)]

theorem trPlace_ok {m0 : Mem (CTy R)} {cut : Nat → Nat} {be : Nat → Int × Int} {α : Type} {Q : α → Mem (CTy R) → Prop}
    {f : (Nat → Unit) → Script (CTy R) α} (hwf : A.WF) (hp : HoldsPat m0 k base A)
    (hv : vals = true → HoldsVal m0 k A) (hkk : k' ≠ k) (hT : 1 ≤ T) (h0 : cut 0 = 0) (hTm : cut T = A.m)
    (hmono : ∀ t u, t ≤ u → u ≤ T → cut t ≤ cut u) (hbe : ∀ t, t < T → be t = ((cut t : Int), (cut (t + 1) : Int)))
    (hsz : ((A.n : Int) + 1) * T ≤ sz (.rowptr k')) (hcs : (A.nnz : Int) ≤ sz (.colidx k'))
    (hvs : vals = true → (A.nnz : Int) ≤ sz (.values k'))
    (hc : ∀ t c : Nat, t < T → c < A.n →
      m0 (.rowptr k') ((t : Int) * A.n + c) = some ((A.tPtr c : Int) + A.cnt c (A.ptr (cut (t + 1)))))
    (hf : ∀ u m, (∀ c : Nat, c < A.n → m (.rowptr k') (c : Int) = some (A.tPtr c : Int)) →
      (∀ i j, A.InRow i j → m (.colidx k') (A.tPos j : Int) = some ((i : Int) + base) ∧
        (vals = true → m (.values k') (A.tPos j : Int) = some (A.val j))) →
      (∀ a i, ¬ TrArr k' a → m a i = m0 a i) → (f u).Ok m Q) :
    (Script.phase sz T (fun t => trPlace k k' base A.n vals A.nnz t (be t)) f).Ok m0 Q := by
  have hle : ∀ t, t ≤ T → cut t ≤ A.m := fun t ht => hTm ▸ hmono t T ht (Nat.le_refl _)
  have hlast : A.ptr (cut T) = A.nnz := by rw [hTm]; rfl
  refine par_rule
    (W := fun t a i => TrRow k' A.n t a i ∨ TrOut A k' (A.ptr (cut t)) (A.ptr (cut (t + 1))) a i)
    (R := fun t a i => ¬ TrArr k' a ∨ TrRow k' A.n t a i ∨ TrOut A k' (A.ptr (cut t)) (A.ptr (cut (t + 1))) a i)
    (Q := fun t _ m => PlaceInv A k' base vals t (A.ptr (cut (t + 1))) m0 m (A.ptr (cut t))) ?_ ?_ ?_
  · rintro t u a i ht hu htu h1 h2
    have hrc : ∀ {t u : Nat}, TrRow k' A.n t a i → ∀ {lo hi}, TrOut A k' lo hi a i → False := by
      rintro t u ⟨rfl, _⟩ lo hi ⟨h | h, _⟩ <;> simp at h
    rcases h2 with h2 | h2 | h2
    · apply h2
      rcases h1 with h1 | h1
      · exact Or.inl h1.1
      · exact Or.inr h1.1
    · rcases h1 with h1 | h1
      · exact htu (h1.inj h2)
      · exact hrc (u := 0) h2 h1
    · rcases h1 with h1 | h1
      · exact hrc (u := 0) h1 h2
      · obtain ⟨_, j, a1, a2, a3, rfl⟩ := h1
        obtain ⟨_, j', b1, b2, b3, e⟩ := h2
        obtain rfl := A.tPos_inj hwf a3 b3 (by omega)
        rcases Nat.lt_trichotomy t u with h | h | h
        · have := hwf.ptr_mono (hmono (t + 1) u h (by omega)) (hle u (by omega)); omega
        · exact htu h
        · have := hwf.ptr_mono (hmono (u + 1) t h (by omega)) (hle t (by omega)); omega
  · intro t ht
    show wp sz _ _ (trPlace k k' base A.n vals A.nnz t (be t)) m0 _
    rw [hbe t ht]
    exact trPlace_thread hwf hp hv hkk ht (hmono t (t + 1) (by omega) (by omega)) (hle _ (by omega)) hsz hcs hvs
      (fun c hc' => hc t c ht hc')
  · intro u m hq hfr
    refine hf u m ?_ ?_ ?_
    · intro c hcn
      obtain ⟨mt, h, hR⟩ := hq 0 (by omega)
      have := h.cells c hcn
      rw [h0, hwf.ptr_zero] at this
      have e : ((0 : Nat) : Int) * A.n + c = (c : Int) := by simp
      rw [e] at this
      rw [hR _ _ (Or.inr (Or.inl ⟨rfl, c, hcn, e.symm⟩)), this]
      show some ((A.tPtr c : Int) + ((0 : Nat) : Int)) = _
      simp
    · intro i j hij
      have hj := hij.lt_nnz hwf
      obtain ⟨t, ht, g1, g2⟩ := cuts_find (g := fun t => A.ptr (cut t)) (T := T) (j := j)
        (by show A.ptr (cut 0) = 0; rw [h0, hwf.ptr_zero]) (by show j < A.ptr (cut T); omega)
      obtain ⟨mt, h, hR⟩ := hq t ht
      obtain ⟨o1, o2⟩ := h.out i j hij g1 g2
      refine ⟨?_, fun hvv => ?_⟩
      · rw [hR _ _ (Or.inr (Or.inr ⟨Or.inl rfl, j, g1, g2, hj, rfl⟩)), o1]
      · rw [hR _ _ (Or.inr (Or.inr ⟨Or.inr rfl, j, g1, g2, hj, rfl⟩)), o2 hvv]
    · intro a i ha
      refine hfr a i ?_
      rintro t ht (h | h)
      · exact ha (Or.inl h.1)
      · exact ha (Or.inr h.1)

/-- `diagptr k` of each row that has a diagonal entry is the position of one (base included). -/
def DiagAt (m : Mem (CTy R)) (k base : Nat) (B : Csr R) : Prop :=
  ∀ i j, B.InRow i j → B.col j = i → ∃ j', B.InRow i j' ∧ B.col j' = i ∧ m (.diagptr k) (i : Int) = some ((j' : Int) + base)

theorem trDiag_ok {m0 : Mem (CTy R)} {B : Csr R} {asg : Nat → Int × Int} {Q : Unit → Mem (CTy R) → Prop} (hwf : B.WF)
    (htol : Races.tol (CArr.rowptr k') (B.m : Int))
    (hT : 1 ≤ T) (hasg : PartRng T B.m fun t x => x = asg t)
    (hrp : ∀ i : Nat, i < B.m → m0 (.rowptr k') (i : Int) = some ((B.ptr i : Int) + base))
    (hcol : ∀ j : Nat, j < B.nnz → m0 (.colidx k') (j : Int) = some ((B.col j : Int) + base))
    (hsz : (B.m : Int) < sz (.rowptr k')) (hds : (B.m : Int) ≤ sz (.diagptr k'))
    (hQ : ∀ m, HoldsPat m k' base B → DiagAt m k' base B →
      (∀ a i, a ≠ .rowptr k' → a ≠ .diagptr k' → m a i = m0 a i) → Q () m) :
    (Script.phase sz T (fun t => trDiag k' base B.m B.nnz (asg t)) fun _ => .done ()).Ok m0 Q := by
  let S : CArr → Int → Prop := fun a i => a = .rowptr k' ∧ i = (B.m : Int)
  let cv : (a : CArr) → Int → CTy R a := fun a i => match a with
    | .rowptr _ => ((B.nnz : Int) + base : Int)
    | .colidx _ => (0 : Int) | .diagptr _ => (0 : Int) | .extptr _ => (0 : Int) | .itmp _ => (0 : Int)
    | .values _ => B.val 0 | .idiag _ => B.val 0 | .diag _ => B.val 0 | .vec _ => B.val 0
  refine const_rule S cv
    (W := fun t a i => S a i ∨ (a = .diagptr k' ∧ (asg t).1 ≤ i ∧ i < (asg t).2))
    (R := fun t a i => a = .rowptr k' ∨ a = .colidx k' ∨ (a = .diagptr k' ∧ (asg t).1 ≤ i ∧ i < (asg t).2))
    (Q := fun t _ m => (∀ i j : Nat, (asg t).1 ≤ (i : Int) → (i : Int) < (asg t).2 → B.InRow i j → B.col j = i →
        ∃ j', B.InRow i j' ∧ B.col j' = i ∧ m (.diagptr k') (i : Int) = some ((j' : Int) + base)) ∧
      m (.rowptr k') (B.m : Int) = some ((B.nnz : Int) + base)) ?_ ?_ ?_ ?_ (by rintro a i ⟨rfl, rfl⟩; exact htol)
    (by rintro t a i _ (⟨h, _⟩ | h); exacts [Or.inl h, Or.inr (Or.inr h)])
  · rintro t u a i ht hu htu (h1 | ⟨rfl, h1, h2⟩) hs h3
    · exact hs h1
    · rcases h3 with h3 | h3 | ⟨_, h3, h4⟩
      · cases h3
      · cases h3
      · exact htu (hasg.owner ht hu rfl rfl h1 h2 h3 h4)
  · intro t _
    unfold trDiag
    refine .bind (.write fun _ => rfl) fun _ => .forUp fun i _ => .bind (.read _ _) fun lo => .bind (.read _ _) fun hi =>
      .forUp fun j _ => .bind (.read _ _) fun c => .ite (.write fun h => ?_) (.pure _)
    exact absurd h.1 (by simp)
  · intro t ht
    obtain ⟨ha1, ha2⟩ := hasg.range t _ ht rfl
    unfold trDiag
    refine wp_wr (Or.inl ⟨rfl, rfl⟩) ⟨by omega, hsz⟩ ?_
    generalize hm1 : (m0.forget S).set (.rowptr k') (B.m : Int) ((B.nnz : Int) + base : Int) = m1
    have hlast : m1 (.rowptr k') (B.m : Int) = some ((B.nnz : Int) + base) := by subst hm1; exact Mem.get_same _ _ _ _
    have hp1 : HoldsPat m1 k' base B := by
      refine ⟨?_, ?_⟩
      · intro i hi
        by_cases he : i = B.m
        · subst he; exact hlast
        · subst hm1
          rw [Mem.get_ne _ _ _ _ _ (by omega), Mem.forget_of_not (fun h => by have := h.2; omega)]
          exact hrp i (by omega)
      · intro j hj
        subst hm1
        rw [Mem.set_other _ _ _ _ _ (by simp), Mem.forget_of_not (fun h => by have := h.1; simp at this)]
        exact hcol j hj
    refine wp_rows
      (Wr := fun r a i => a = .diagptr k' ∧ i = r - base)
      (Rr := fun r a i => a = .rowptr k' ∨ a = .colidx k' ∨ (a = .diagptr k' ∧ i = r - base))
      (Qr := fun r m => ∀ i j : Nat, r = (i : Int) + base → B.InRow i j → B.col j = i →
        ∃ j', B.InRow i j' ∧ B.col j' = i ∧ m (.diagptr k') (i : Int) = some ((j' : Int) + base)) ?_ ?_ ?_ ?_ ?_
    · rintro r a i h1 h2 ⟨rfl, rfl⟩; exact Or.inr ⟨rfl, by omega, by omega⟩
    · rintro r a i h1 h2 (h | h | ⟨rfl, rfl⟩)
      · exact Or.inl h
      · exact Or.inr (Or.inl h)
      · exact Or.inr (Or.inr ⟨rfl, by omega, by omega⟩)
    · rintro r r' a i h1 h2 h3 h4 hne ⟨rfl, rfl⟩ (h | h | ⟨_, h⟩)
      · cases h
      · cases h
      · omega
    · intro r h1 h2
      obtain ⟨i, rfl⟩ : ∃ i : Nat, r = (i : Int) + base := ⟨(r - base).toNat, by omega⟩
      have hi : i < B.m := by omega
      rw [Int.add_sub_cancel, show ((i : Int) + base + 1 - base) = ((i + 1 : Nat) : Int) by omega]
      refine wp_rd _ (Or.inl rfl) (hp1.rowptr i (by omega)) ?_
      refine wp_rd _ (Or.inl rfl) (hp1.rowptr (i + 1) hi) ?_
      refine wp_forN (b := base) (lo := B.ptr i) (hi := B.ptr (i + 1))
        (fun x _ m => (∀ j, B.ptr i ≤ j → j < x → B.col j = i →
          ∃ j', B.InRow i j' ∧ B.col j' = i ∧ m (.diagptr k') (i : Int) = some ((j' : Int) + base)) ∧
          ∀ a j, a ≠ .diagptr k' → m a j = m1 a j) (hwf.ptr_step i hi) ⟨fun j g1 g2 => by omega, fun _ _ _ => rfl⟩ ?_ ?_ rfl rfl
      · rintro x _ m g1 g2 ⟨hd, hfr⟩
        have hrow : B.InRow i x := ⟨hi, g1, g2⟩
        have hx := hrow.lt_nnz hwf
        rw [Int.add_sub_cancel]
        refine wp_rd _ (Or.inr (Or.inl rfl)) ((hfr _ _ (by simp)).trans (hp1.colidx x hx)) ?_
        by_cases hc : B.col x = i
        · rw [if_pos (by show (B.col x : Int) + base = (i : Int) + base; omega)]
          refine wp_wr1 ⟨rfl, by omega⟩ ⟨by omega, by omega⟩ ⟨?_, ?_⟩
          · intro j _ _ _; exact ⟨x, hrow, hc, Mem.get_same _ _ _ _⟩
          · intro a j ha; exact (congrFun (Mem.set_other _ _ _ _ _ ha) _).trans (hfr a j ha)
        · rw [if_neg (by show ¬ ((B.col x : Int) + base = (i : Int) + base); omega), wp_pure]
          refine ⟨?_, hfr⟩
          intro j k1 k2 k3
          by_cases he : j = x
          · subst he; exact absurd k3 hc
          · exact hd j k1 (by omega) k3
      · rintro _ m ⟨hd, _⟩ i' j h3 hij hc
        obtain rfl : i' = i := by omega
        exact hd j hij.2.1 hij.2.2 hc
    · intro m hq hfr
      refine ⟨?_, ?_⟩
      · intro i j g1 g2 hij hc
        obtain ⟨mt, h, hR⟩ := hq ((i : Int) + base) (by omega) (by omega)
        obtain ⟨j', q1, q2, q3⟩ := h i j rfl hij hc
        refine ⟨j', q1, q2, ?_⟩
        rw [hR _ _ (Or.inr (Or.inr ⟨rfl, by omega⟩))]; exact q3
      · rw [hfr _ _ (by rintro r _ _ ⟨h, _⟩; cases h)]; exact hlast
  · intro r m hq hfr
    have hkeep : ∀ a i, a ≠ .diagptr k' → ¬ S a i → m a i = m0 a i := by
      intro a i ha hs
      refine hfr a i hs ?_
      rintro t _ (h | h)
      · exact hs h
      · exact ha h.1
    refine hQ m ⟨?_, ?_⟩ ?_ ?_
    · intro i hi
      by_cases he : i = B.m
      · subst he
        obtain ⟨mt, ⟨_, h2⟩, _, h3⟩ := hq 0 (by omega)
        exact h3 _ _ ⟨rfl, rfl⟩ _ h2
      · rw [hkeep _ _ (by simp) (fun h => by have := h.2; omega)]; exact hrp i (by omega)
    · intro j hj
      rw [hkeep _ _ (by simp) (fun h => by have := h.1; simp at this)]; exact hcol j hj
    · intro i j hij hc
      obtain ⟨t, ht, g1, g2⟩ := hasg.cover asg (fun _ _ => rfl) (i : Int) (by omega) (by have := hij.1; omega)
      obtain ⟨mt, ⟨h1, _⟩, h2, _⟩ := hq t ht
      obtain ⟨j', q1, q2, q3⟩ := h1 i j g1 g2 hij hc
      refine ⟨j', q1, q2, ?_⟩
      rw [h2 _ _ (Or.inr (Or.inr ⟨rfl, g1, g2⟩)) (fun h => by have := h.1; simp at this)]; exact q3
    · intro a i h1 h2
      exact hkeep a i h2 fun h => h1 h.1

/-- Arrays of the result object. -/
def TrRes (k' : Nat) (a : CArr) : Prop := a = .rowptr k' ∨ a = .colidx k' ∨ a = .values k' ∨ a = .diagptr k'

theorem transp_pos {j : Nat} (hwf : A.WF) (hj : j < A.transp.nnz) :
    ∃ i j', A.InRow i j' ∧ A.tPos j' = j ∧ A.transp.col j = i ∧ A.transp.val j = A.val j' := by
  obtain ⟨c, q, hc, hq, rfl⟩ := rowStart_find A.tRow (m := A.n) (j := j) hj
  obtain ⟨i, j', h1, h2, h3, h4⟩ := A.tRow_get hwf (List.getElem?_eq_getElem hq)
  refine ⟨i, j', h1, ?_, ?_, ?_⟩
  · unfold Csr.tPos; rw [h2, h4]
  · rw [show A.transp.col _ = _ from Csr.ofRows_col hc hq, h3]
  · rw [show A.transp.val _ = _ from Csr.ofRows_val hc hq, h3]

theorem transp_nnz (hwf : A.WF) : A.transp.nnz = A.nnz := A.tPtr_last hwf

/-- CSR.cpp:471-629. -/
theorem transpose_ok {m0 : Mem (CTy R)} {asg : Nat → Int × Int} (hwf : A.WF) (hn : 0 < A.n) (htol : diag = true → Races.tol (CArr.rowptr k') (A.n : Int))
    (hT : 1 ≤ T) (hkk : k' ≠ k)
    (hasg : PartRng T A.n fun t x => x = asg t) (hp : HoldsPat m0 k base A) (hv : vals = true → HoldsVal m0 k A) :
    (transpose sz T k k' base A.m A.n vals diag asg).Ok m0 (fun _ m =>
      HoldsPat m k' base A.transp ∧ (vals = true → HoldsVal m k' A.transp) ∧
      (diag = true → DiagAt m k' base A.transp) ∧ ∀ a i, ¬ TrRes k' a → m a i = m0 a i) := by
  unfold transpose
  refine seq_rule (wp_getNnz hwf hp (fun _ => trivial) ?_)
  show Script.Ok (if A.n = 0 then _ else _) _ _
  rw [if_neg (by omega)]
  have s1 : ((A.n : Int) + 1) * T ≤ trSize sz k' A.n T A.nnz vals diag (.rowptr k') := by
    show _ ≤ if k' = k' then _ else _
    rw [if_pos rfl]
  have s2 : (A.nnz : Int) ≤ trSize sz k' A.n T A.nnz vals diag (.colidx k') := by
    show _ ≤ if k' = k' then _ else _
    rw [if_pos rfl]
  have s3 : vals = true → (A.nnz : Int) ≤ trSize sz k' A.n T A.nnz vals diag (.values k') := by
    intro h; show _ ≤ if k' = k' ∧ vals = true then _ else _
    rw [if_pos ⟨rfl, h⟩]
  have s4 : diag = true → (A.n : Int) ≤ trSize sz k' A.n T A.nnz vals diag (.diagptr k') := by
    intro h; show _ ≤ if k' = k' ∧ diag = true then _ else _
    rw [if_pos ⟨rfl, h⟩]
  have s5 : (A.n : Int) < trSize sz k' A.n T A.nnz vals diag (.rowptr k') := by
    refine Int.lt_of_lt_of_le ?_ s1
    have : A.n + 1 ≤ (A.n + 1) * T := Nat.le_mul_of_pos_right _ hT
    have : ((A.n + 1 : Nat) : Int) ≤ (((A.n + 1) * T : Nat) : Int) := by exact_mod_cast this
    push_cast at this; omega
  generalize trSize sz k' A.n T A.nnz vals diag = sz' at *
  have hk1 : (CArr.rowptr k) ≠ .rowptr k' := by simp; omega
  refine trCount_ok hwf hp hkk hT s1 ?_
  intro be cut m1 h0 hTm hmono hbe hc1 hf1
  have hT0 : TrCells m1 k' A.n T fun i => (trE A cut T (i + 1) : Int) - trE A cut T i := by
    intro i hi
    have ei : i = i / T * T + i % T := by rw [Nat.mul_comm]; exact (Nat.div_add_mod i T).symm
    have ht : i % T < T := Nat.mod_lt _ hT
    have hc : i / T < A.n := Nat.div_lt_of_lt_mul (by rw [Nat.mul_comm]; exact hi)
    show m1 (.rowptr k') (trIdx (i : Int) T A.n) = some ((trE A cut T (i + 1) : Int) - trE A cut T i)
    generalize i / T = c at ei hc
    generalize i % T = t at ei ht
    subst ei
    rw [trIdx_cell c t T A.n ht, hc1 t c ht hc, trE_next hwf h0 hTm ht, trE_cell A cut ht]
    congr 1; push_cast; omega
  have hEz := trE_zero hwf h0 T
  refine trScan_ok hn s1 hT0 ?_
  intro _ m2 hc2 hf2
  refine seq_rule (wp_trMaster hT hn (fun _ _ => trivial) (fun _ _ => trivial) s1 hEz hc2 ?_)
  intro _ m3 hc3 hf3
  refine trAdd_ok hn s1 hEz hc3 ?_
  intro _ m4 hc4 hf4
  have hfr4 : ∀ a i, a ≠ .rowptr k' → m4 a i = m0 a i := fun a i ha => by
    rw [hf4 a i ha, hf3 a i ha, hf2 a i ha, hf1 a i ha]
  have hp4 : HoldsPat m4 k base A :=
    ⟨fun i hi => by rw [hfr4 _ _ hk1]; exact hp.rowptr i hi, fun j hj => by rw [hfr4 _ _ (by simp)]; exact hp.colidx j hj⟩
  have hv4 : vals = true → HoldsVal m4 k A := fun h j hj => by rw [hfr4 _ _ (by simp)]; exact hv h j hj
  refine trPlace_ok hwf hp4 hv4 hkk hT h0 hTm hmono hbe s1 s2 s3 ?_ ?_
  · intro t c ht hc
    have hi : c * T + t < A.n * T := by
      have : (c + 1) * T ≤ A.n * T := Nat.mul_le_mul_right T hc
      rw [Nat.add_mul] at this; omega
    have := hc4 (c * T + t) hi
    rw [trIdx_cell c t T A.n ht] at this
    rw [this]
    show some ((trE A cut T (c * T + t + 1) : Int)) = _
    rw [trE_next hwf h0 hTm ht]; push_cast; rfl
  intro _ m5 hc5 ho5 hf5
  have hfr5 : ∀ a i, ¬ TrArr k' a → m5 a i = m0 a i := fun a i ha => by
    rw [hf5 a i ha, hfr4 a i (fun h => ha (Or.inl h))]
  have hcol5 : ∀ j : Nat, j < A.transp.nnz → m5 (.colidx k') (j : Int) = some ((A.transp.col j : Int) + base) := by
    intro j hj
    obtain ⟨i, j', h1, h2, h3, _⟩ := transp_pos hwf hj
    rw [← h2, (ho5 i j' h1).1, h2, h3]
  have hval5 : vals = true → HoldsVal m5 k' A.transp := by
    intro h j hj
    obtain ⟨i, j', h1, h2, _, h4⟩ := transp_pos hwf hj
    rw [← h2, (ho5 i j' h1).2 h, h2, h4]
  rw [Script.ok_bind]
  -- after adding the base
  have hbase : Script.Ok (if base > 0 then
      (parMap sz' (.rowptr k') A.n (fun v : Int => v + base)).bind fun _ =>
      .phase sz' T (fun _ => do
        let v ← Prog.read (ty := CTy R) (.rowptr k') 0
        Prog.assert (ty := CTy R) ((v : Int) = base)) fun _ => .done ()
     else .done () : Script (CTy R) Unit) m5 (fun _ m =>
      (∀ c : Nat, c < A.n → m (.rowptr k') (c : Int) = some ((A.tPtr c : Int) + base)) ∧
      ∀ a i, a ≠ .rowptr k' → m a i = m5 a i) := by
    by_cases hb : base > 0
    · rw [if_pos hb, Script.ok_bind]
      refine (parMap_ok (by omega) (fun i hi => ⟨_, hc5 i hi⟩)).mono ?_
      rintro _ m ⟨q1, q2, q3⟩
      have hq : ∀ c : Nat, c < A.n → m (.rowptr k') (c : Int) = some ((A.tPtr c : Int) + base) := by
        intro c hc; rw [q1 c hc, hc5 c hc]; rfl
      refine par_rule (W := fun _ _ _ => False) (R := fun _ _ _ => True) (Q := fun _ _ _ => True) ?_ ?_ ?_
      · intro t u a i _ _ _ h; exact h.elim
      · intro t _
        refine wp_rd _ trivial (hq 0 hn) ?_
        rw [wp_assert]
        refine ⟨?_, trivial⟩
        show (((rowStart A.tRow 0 : Nat) : Int)) + base = base
        show ((0 : Nat) : Int) + base = base
        omega
      · intro r m' _ hfr
        have e : ∀ a i, m' a i = m a i := fun a i => hfr a i fun _ _ h => h
        exact ⟨fun c hc => by rw [e]; exact hq c hc, fun a i ha => by rw [e, q3 a ha]⟩
    · rw [if_neg hb]
      obtain rfl : base = 0 := by omega
      exact ⟨fun c hc => by rw [hc5 c hc]; simp, fun _ _ _ => rfl⟩
  refine hbase.mono ?_
  rintro _ m6 ⟨hc6, hf6⟩
  have hcol6 : ∀ j : Nat, j < A.transp.nnz → m6 (.colidx k') (j : Int) = some ((A.transp.col j : Int) + base) := by
    intro j hj; rw [hf6 _ _ (by simp)]; exact hcol5 j hj
  have hval6 : vals = true → HoldsVal m6 k' A.transp := by
    intro h j hj; rw [hf6 _ _ (by simp)]; exact hval5 h j hj
  have hfr6 : ∀ a i, ¬ TrArr k' a → m6 a i = m0 a i := fun a i ha => by
    rw [hf6 a i (fun h => ha (Or.inl h)), hfr5 a i ha]
  rw [Script.ok_bind]
  have hdg : Script.Ok (if diag then .phase sz' T (fun t => trDiag k' base A.n A.nnz (asg t)) fun _ => .done ()
     else .done () : Script (CTy R) Unit) m6 (fun _ m =>
      (∀ c : Nat, c < A.n → m (.rowptr k') (c : Int) = some ((A.tPtr c : Int) + base)) ∧
      (diag = true → DiagAt m k' base A.transp) ∧
      ∀ a i, a ≠ .rowptr k' → a ≠ .diagptr k' → m a i = m6 a i) := by
    cases hd : diag with
    | false =>
      rw [if_neg (by simp)]
      exact ⟨hc6, fun h => by simp at h, fun _ _ _ _ => rfl⟩
    | true =>
      rw [if_pos rfl]
      have := trDiag_ok (sz := sz') (T := T) (k' := k') (base := base) (m0 := m6) (B := A.transp) (asg := asg)
        (Q := fun _ m => (∀ c : Nat, c < A.n → m (.rowptr k') (c : Int) = some ((A.tPtr c : Int) + base)) ∧
          (true = true → DiagAt m k' base A.transp) ∧
          ∀ a i, a ≠ .rowptr k' → a ≠ .diagptr k' → m a i = m6 a i)
        A.transp_wf (htol hd) hT hasg hc6 hcol6 s5 (s4 hd)
        (fun m h1 h2 h3 => ⟨fun c hc => h1.rowptr c (Nat.le_of_lt hc), fun _ => h2, h3⟩)
      rw [transp_nnz hwf] at this
      exact this
  refine hdg.mono ?_
  rintro _ m7 ⟨hc7, hd7, hf7⟩
  refine seq_rule (wp_wr1 trivial ⟨by omega, s5⟩ ?_)
  refine ⟨⟨?_, ?_⟩, ?_, ?_, ?_⟩
  · intro c hc
    by_cases he : c = A.n
    · subst he
      rw [Mem.get_same]
      show some ((A.nnz : Int) + base) = some ((A.tPtr A.n : Int) + base)
      rw [A.tPtr_last hwf]
    · have : c ≤ A.n := hc
      rw [Mem.get_ne _ _ _ _ _ (by omega)]; exact hc7 c (by omega)
  · intro j hj
    rw [Mem.set_other _ _ _ _ _ (by simp), hf7 _ _ (by simp) (by simp)]; exact hcol6 j hj
  · intro h j hj
    rw [Mem.set_other _ _ _ _ _ (by simp), hf7 _ _ (by simp) (by simp)]; exact hval6 h j hj
  · intro h i j hij hc
    rw [Mem.set_other _ _ _ _ _ (by simp)]; exact hd7 h i j hij hc
  · intro a i ha
    unfold TrRes at ha
    rw [Mem.set_other _ _ _ _ _ (fun h => ha (Or.inl h)), hf7 a i (fun h => ha (Or.inl h)) (fun h => ha (by simp [h])),
      hfr6 a i (fun h => ha (h.elim Or.inl fun h => h.elim (Or.inr ∘ Or.inl) (Or.inr ∘ Or.inr ∘ Or.inl)))]

end

end SpMP
