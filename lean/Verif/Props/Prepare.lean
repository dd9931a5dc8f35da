import Verif.Prepare
import Verif.PcgProof
/-
C81: before each measured run the drivers make the same input vectors.
-/
namespace SpMP.Props
open SpMP Spec

variable {R : Type} [CommRing R]

section
variable [Races CArr]

theorem wp_flushLoop {sz : CArr → Int} {W : CArr → Int → Prop} {buf n : Nat} {m : Mem (CTy R)} {bv : Nat → R} (hb : VecIs m buf n bv) :
    ∀ (l : List Nat) (s : R), (∀ i, i ∈ l → i < n) →
      wp sz W (fun _ _ => True) (flushLoop buf l s) m (fun r m' => m' = m ∧ r = s + (l.map bv).sum) := by
  intro l
  induction l with
  | nil => intro s _; unfold flushLoop; rw [wp_pure]; exact ⟨rfl, by simp⟩
  | cons i l ih =>
    intro s hl
    unfold flushLoop
    refine wp_rd _ trivial (hb i (hl i List.mem_cons_self)) ?_
    refine wp_mono (ih (s + bv i) fun j hj => hl j (List.mem_cons_of_mem _ hj)) ?_
    rintro r m' ⟨h1, h2⟩
    exact ⟨h1, by rw [h2]; simp [add_assoc]⟩

/-- flushLlc on a buffer that has been written adds up its elements, whatever the team, the sharing, the order of combination and the
interleaving, and changes nothing. -/
theorem C81_flush {sz : CArr → Int} {T buf : Nat} {sh : Share} {m : Mem (CTy R)} {bv : Nat → R} (hsh : sh.Covers T llcElems)
    (hb : ∀ i : Nat, i < llcElems → m (.vec buf) (i : Int) = some (bv i)) :
    (flushLlc sz T buf sh).Ok m (fun s m' => m' = m ∧ s = ∑ i ∈ Finset.range llcElems, bv i) := by
  generalize llcElems = n at hsh hb ⊢
  unfold flushLlc
  have hmem : ∀ t i, t < T → i ∈ sh.its t → i < n := by
    intro t i ht hi
    have : i ∈ (List.range T).flatMap sh.its := List.mem_flatMap.2 ⟨t, List.mem_range.2 ht, hi⟩
    exact List.mem_range.1 (hsh.1.mem_iff.1 this)
  refine par_rule (W := fun _ _ _ => False) (R := fun _ _ _ => True)
    (Q := fun t r m' => m' = m ∧ r = 0 + ((sh.its t).map bv).sum) ?_ ?_ ?_
  · intro t u a i _ _ _ h; exact h.elim
  · intro t ht; exact wp_flushLoop hb _ _ fun i hi => hmem t i ht hi
  · intro r m' h1 h2
    have hm : m' = m := by funext a i; exact h2 a i fun _ _ h => h
    subst hm
    have hr : ∀ t, t < T → r t = ((sh.its t).map bv).sum := by
      intro t ht
      obtain ⟨mt, ⟨_, h⟩, _⟩ := h1 t ht
      rw [h, zero_add]
    refine Script.ok_done_of ⟨rfl, ?_⟩
    rw [RedTree.eval_add_eq hsh.2, add_zero, Finset.sum_congr rfl fun t ht => hr t (Finset.mem_range.1 ht)]
    rw [← list_range_sum]
    have e := (hsh.1.map bv).sum_eq
    rw [← list_range_sum, ← e]
    generalize List.range T = l
    induction l with
    | nil => simp
    | cons a l ih => simp [ih]

/-- initializeX gives element `i` the value `n - i`, for every interleaving, and changes nothing else. -/
theorem C81_initialize {sz : CArr → Int} {x n : Nat} {m : Mem (CTy R)} (hsz : (n : Int) ≤ sz (.vec x)) :
    (initializeX sz x n).Ok m (fun _ m' => (∀ i : Nat, i < n → m' (.vec x) (i : Int) = some ((n : R) - (i : R))) ∧
      (∀ i : Int, ¬ (0 ≤ i ∧ i < n) → m' (.vec x) i = m (.vec x) i) ∧ ∀ a, a ≠ .vec x → m' a = m a) := by
  unfold initializeX
  refine par_rule (W := fun t a i => a = .vec x ∧ i = (t : Int)) (R := fun t a i => a ≠ .vec x ∨ i = (t : Int))
    (Q := fun t _ m' => m' (.vec x) (t : Int) = some ((n : R) - (t : R))) ?_ ?_ ?_
  · rintro t u a i _ _ hne ⟨rfl, rfl⟩ h
    rcases h with h | h
    · exact h rfl
    · omega
  · intro t ht
    rw [wp_write]
    exact ⟨⟨rfl, rfl⟩, by omega, by omega, by simp⟩
  · intro r m' h1 h2
    refine Script.ok_done_of ⟨?_, ?_, ?_⟩
    · intro i hi
      obtain ⟨mt, hq, hm⟩ := h1 i hi
      rw [hm _ _ (Or.inr rfl), hq]
    · intro i hi
      exact h2 _ _ fun t ht h => hi (by omega)
    · intro a ha
      funext i
      exact h2 _ _ fun t ht h => ha h.1

/-- Before each measured run both vectors get the same contents, whatever the runs before have left in them, and nothing else changes. -/
theorem C81_prepare {sz : CArr → Int} {T buf x y n : Nat} {sh : Share} {m : Mem (CTy R)} {bv : Nat → R} (hsh : sh.Covers T llcElems)
    (hb : ∀ i : Nat, i < llcElems → m (.vec buf) (i : Int) = some (bv i)) (hx : (n : Int) ≤ sz (.vec x)) (hy : (n : Int) ≤ sz (.vec y)) :
    (prepareRun sz T buf x y n sh).Ok m (fun _ m' =>
      (∀ i : Nat, i < n → m' (.vec x) (i : Int) = some ((n : R) - (i : R)) ∧ m' (.vec y) (i : Int) = some ((n : R) - (i : R))) ∧
      ∀ a, a ≠ .vec x → a ≠ .vec y → m' a = m a) := by
  unfold prepareRun
  refine Script.ok_bind.2 (Script.Ok.mono (C81_flush hsh hb) ?_)
  rintro s m1 ⟨rfl, _⟩
  refine Script.ok_bind.2 (Script.Ok.mono (C81_initialize hx) ?_)
  rintro _ m2 ⟨h1, _, h2⟩
  refine Script.ok_bind.2 (Script.Ok.mono (C81_initialize hy) ?_)
  rintro _ m3 ⟨h3, _, h4⟩
  refine Script.ok_done_of ⟨fun i hi => ⟨?_, h3 i hi⟩, fun a ha hb => by rw [h4 a hb, h2 a ha]⟩
  by_cases hxy : x = y
  · subst hxy; exact h3 i hi
  · rw [h4 (.vec x) (by simpa using hxy)]; exact h1 i hi

/-- False of the drivers: they allocate the buffer and never write it (test/trsv_test.cpp:560, test/gs_test.cpp:630,
test/reordering_test.cpp:109, test/BFSBipartite_test.cpp:55), so that flushLlc reads memory nobody has written, with every team and
sharing. -/
theorem C81_buffer_unset_ub {sz : CArr → Int} {T buf : Nat} {sh : Share} {m : Mem (CTy R)} (hsh : sh.Covers T llcElems)
    (hb : ∀ i : Int, m (.vec buf) i = none) (Q : R → Mem (CTy R) → Prop) : ¬ (flushLlc sz T buf sh).Ok m Q := by
  intro h
  have h0 : 0 ∈ (List.range T).flatMap sh.its := hsh.1.mem_iff.2 (List.mem_range.2 (by unfold llcElems; omega))
  obtain ⟨t, ht, hi⟩ := List.mem_flatMap.1 h0
  obtain ⟨r, m', h1, _⟩ := ParOk.run_aux (List.mem_range.1 ht) _ _ _ rfl h
  cases hl : sh.its t with
  | nil => rw [hl] at hi; cases hi
  | cons i l =>
    rw [hl] at h1
    have : (flushLoop (R := R) buf (i :: l) 0).run sz m = none := by
      simp [flushLoop, bind, Prog.bind, Prog.read, Prog.run, hb]
    rw [this] at h1
    cases h1

/-- `v` solves the triangular system with off-diagonal part `B`, inverse diagonal `e` and right-hand side `b`. -/
def SolvesTri (B : Csr R) (e b v : Nat → R) : Prop := ∀ i, i < B.m → v i = (b i - B.mulVec v i) * e i

omit [Races CArr] in
theorem lower_unique {B : Csr R} {e b b' v w : Nat → R} (hlow : ∀ i j, i < B.m → B.ptr i ≤ j → j < B.ptr (i + 1) → B.col j < i)
    (hb : ∀ i, i < B.m → b i = b' i) (hv : SolvesTri B e b v) (hw : SolvesTri B e b' w) : ∀ i, i < B.m → v i = w i := by
  intro i
  induction i using Nat.strong_induction_on with
  | _ i ih =>
    intro hi
    have hc : B.mulVec v i = B.mulVec w i := Csr.mulVec_congr_row fun j h1 h2 => by
      have := hlow i j hi h1 h2
      exact ih _ this (by omega)
    rw [hv i hi, hw i hi, hc, hb i hi]

omit [Races CArr] in
theorem upper_unique {B : Csr R} {e b b' v w : Nat → R} (hup : ∀ i j, i < B.m → B.ptr i ≤ j → j < B.ptr (i + 1) → i < B.col j ∧ B.col j < B.m)
    (hb : ∀ i, i < B.m → b i = b' i) (hv : SolvesTri B e b v) (hw : SolvesTri B e b' w) : ∀ i, i < B.m → v i = w i := by
  have : ∀ d i, i < B.m → B.m - i = d → v i = w i := by
    intro d
    induction d using Nat.strong_induction_on with
    | _ d ih =>
      intro i hi hd
      have hc : B.mulVec v i = B.mulVec w i := Csr.mulVec_congr_row fun j h1 h2 => by
        have := hup i j hi h1 h2
        exact ih (B.m - B.col j) (by omega) _ this.2 rfl
      rw [hv i hi, hw i hi, hc, hb i hi]
  exact fun i hi => this _ i hi rfl

/-- What the driver hands to the solver: the two triangles with their inverse diagonals, the right-hand side, a written buffer, room for
`x` and `y`, four different vectors. -/
structure MeasureInput (sz : CArr → Int) (T kl ku buf x y b : Nat) (sh : Nat → Share) (m0 : Mem (CTy R)) (Lo Up : Csr R) (el eu bv fv : Nat → R)
    (base : Nat) : Prop where
  wfL : Lo.WF
  wfU : Up.WF
  rows : Up.m = Lo.m
  square : Up.n = Up.m
  low : ∀ i j, i < Lo.m → Lo.ptr i ≤ j → j < Lo.ptr (i + 1) → Lo.col j < i
  up : ∀ i j, i < Up.m → Up.ptr i ≤ j → j < Up.ptr (i + 1) → i < Up.col j
  patL : HoldsPat m0 kl base Lo
  valL : HoldsVal m0 kl Lo
  diagL : ∀ i : Nat, i < Lo.m → m0 (.idiag kl) (i : Int) = some (el i)
  patU : HoldsPat m0 ku base Up
  valU : HoldsVal m0 ku Up
  diagU : ∀ i : Nat, i < Up.m → m0 (.idiag ku) (i : Int) = some (eu i)
  rhs : ∀ i : Nat, i < Lo.m → m0 (.vec b) (i : Int) = some (bv i)
  buffer : ∀ i : Nat, i < llcElems → m0 (.vec buf) (i : Int) = some (fv i)
  share : ∀ k, (sh k).Covers T llcElems
  roomX : (Lo.m : Int) ≤ sz (.vec x)
  roomY : (Lo.m : Int) ≤ sz (.vec y)
  distinct : x ≠ y ∧ x ≠ b ∧ y ≠ b ∧ x ≠ buf ∧ y ≠ buf

omit [Races CArr] [CommRing R] in
theorem patMoved {m m' : Mem (CTy R)} {k base : Nat} {A : Csr R} (h : HoldsPat m k base A)
    (e1 : m' (.rowptr k) = m (.rowptr k)) (e2 : m' (.colidx k) = m (.colidx k)) : HoldsPat m' k base A :=
  ⟨fun i hi => by rw [e1]; exact h.rowptr i hi, fun i hi => by rw [e2]; exact h.colidx i hi⟩

omit [Races CArr] [CommRing R] in
theorem valMoved {m m' : Mem (CTy R)} {k : Nat} {A : Csr R} (h : HoldsVal m k A)
    (e1 : m' (.values k) = m (.values k)) : HoldsVal m' k A := fun i hi => by rw [e1]; exact h i hi

/-- One measured run. -/
theorem measure_step {sz : CArr → Int} {T kl ku buf x y b : Nat} {sh : Nat → Share} {m0 m : Mem (CTy R)} {Lo Up : Csr R} {el eu bv fv : Nat → R}
    {base k : Nat} {Q : Unit → Mem (CTy R) → Prop} (hin : MeasureInput sz T kl ku buf x y b sh m0 Lo Up el eu bv fv base)
    (hm : ∀ a, a ≠ .vec x → a ≠ .vec y → m a = m0 a)
    (hQ : ∀ m', (∃ yv xv : Nat → R, (∀ i : Nat, i < Lo.m → m' (.vec y) (i : Int) = some (yv i) ∧ m' (.vec x) (i : Int) = some (xv i)) ∧
        SolvesTri Lo el bv yv ∧ SolvesTri Up eu yv xv ∧
        ∀ yw xw : Nat → R, SolvesTri Lo el bv yw → SolvesTri Up eu yw xw → ∀ i, i < Lo.m → yw i = yv i ∧ xw i = xv i) →
      (∀ a, a ≠ .vec x → a ≠ .vec y → m' a = m0 a) → (measureRef sz T Lo.m kl ku buf x y b sh k).Ok m' Q) :
    (measureRef sz T Lo.m kl ku buf x y b sh (k + 1)).Ok m Q := by
  obtain ⟨hxy, hxb, hyb, hxf, hyf⟩ := hin.distinct
  unfold measureRef
  refine Script.ok_bind.2 (Script.Ok.mono (C81_prepare (bv := fv) (hin.share k) (fun i hi => ?_) hin.roomX hin.roomY) ?_)
  · rw [hm (.vec buf) (by simpa using hxf.symm) (by simpa using hyf.symm)]; exact hin.buffer i hi
  rintro _ m1 ⟨_, h1⟩
  have hm1 : ∀ a, a ≠ .vec x → a ≠ .vec y → m1 a = m0 a := fun a ha hb => (h1 a ha hb).trans (hm a ha hb)
  refine seq_rule (wp_forwardSolveRef (bv := bv) (ev := el) hin.wfL (patMoved hin.patL (hm1 _ (by simp) (by simp)) (hm1 _ (by simp) (by simp)))
    (valMoved hin.valL (hm1 _ (by simp) (by simp))) hyb hin.low ?_ ?_ hin.roomY ?_)
  · intro i hi
    rw [hm1 (.vec b) (by simpa using hxb.symm) (by simpa using hyb.symm)]; exact hin.rhs i hi
  · intro i hi
    rw [hm1 (.idiag kl) (by simp) (by simp)]; exact hin.diagL i hi
  intro m2 yv hy hys hf2
  have hm2 : ∀ a, a ≠ .vec x → a ≠ .vec y → m2 a = m0 a := fun a ha hb => (hf2 a hb).trans (hm1 a ha hb)
  rw [← hin.rows]
  refine seq_rule (wp_backwardSolveRef (bv := yv) (ev := eu) hin.wfU hin.square (patMoved hin.patU (hm2 _ (by simp) (by simp)) (hm2 _ (by simp) (by simp)))
    (valMoved hin.valU (hm2 _ (by simp) (by simp))) hxy hin.up ?_ ?_ (by rw [hin.rows]; exact hin.roomX) ?_)
  · rw [hin.rows]; exact hy
  · intro i hi
    rw [hm2 (.idiag ku) (by simp) (by simp)]; exact hin.diagU i hi
  intro m3 xv hx hxs hf3
  rw [hin.rows]
  rw [hin.rows] at hx
  refine hQ m3 ⟨yv, xv, fun i hi => ⟨?_, hx i hi⟩, hys, hxs, ?_⟩ fun a ha hb => (hf3 a ha).trans (hm2 a ha hb)
  · rw [hf3 (.vec y) (by simpa using hxy.symm)]; exact hy i hi
  · intro yw xw g1 g2 i hi
    have e1 := lower_unique hin.low (fun _ _ => rfl) g1 hys
    refine ⟨e1 i hi, upper_unique (fun i j hi h1 h2 => ⟨hin.up i j hi h1 h2, ?_⟩) (fun i hi => e1 i (by rw [← hin.rows]; exact hi)) g2 hxs i
      (by rw [hin.rows]; exact hi)⟩
    rw [← hin.square]
    exact hin.wfU.col_lt j (Nat.lt_of_lt_of_le h2 (hin.wfU.ptr_mono (by omega) (Nat.le_refl _)))

/-- However many measured runs there are, they end with `y` and `x` the solutions of the two triangular systems, which are determined by
the matrix and the right-hand side; nothing else changes. So the results of all repetitions agree. -/
theorem C81_repetitions {sz : CArr → Int} {T kl ku buf x y b : Nat} {sh : Nat → Share} {m0 : Mem (CTy R)} {Lo Up : Csr R} {el eu bv fv : Nat → R}
    {base : Nat} (hin : MeasureInput sz T kl ku buf x y b sh m0 Lo Up el eu bv fv base) (k : Nat) :
    (measureRef sz T Lo.m kl ku buf x y b sh (k + 1)).Ok m0 (fun _ m =>
      (∃ yv xv : Nat → R, (∀ i : Nat, i < Lo.m → m (.vec y) (i : Int) = some (yv i) ∧ m (.vec x) (i : Int) = some (xv i)) ∧
        SolvesTri Lo el bv yv ∧ SolvesTri Up eu yv xv ∧
        ∀ yw xw : Nat → R, SolvesTri Lo el bv yw → SolvesTri Up eu yw xw → ∀ i, i < Lo.m → yw i = yv i ∧ xw i = xv i) ∧
      ∀ a, a ≠ .vec x → a ≠ .vec y → m a = m0 a) := by
  obtain ⟨hxy, hxb, hyb, hxf, hyf⟩ := hin.distinct
  suffices H : ∀ k (m : Mem (CTy R)), (∀ a, a ≠ .vec x → a ≠ .vec y → m a = m0 a) →
      (measureRef sz T Lo.m kl ku buf x y b sh (k + 1)).Ok m (fun _ m =>
      (∃ yv xv : Nat → R, (∀ i : Nat, i < Lo.m → m (.vec y) (i : Int) = some (yv i) ∧ m (.vec x) (i : Int) = some (xv i)) ∧
        SolvesTri Lo el bv yv ∧ SolvesTri Up eu yv xv ∧
        ∀ yw xw : Nat → R, SolvesTri Lo el bv yw → SolvesTri Up eu yw xw → ∀ i, i < Lo.m → yw i = yv i ∧ xw i = xv i) ∧
      ∀ a, a ≠ .vec x → a ≠ .vec y → m a = m0 a) from H k m0 fun _ _ _ => rfl
  intro k
  induction k with
  | zero =>
    intro m hm
    exact measure_step hin hm fun m' h1 h2 => Script.ok_done_of ⟨h1, h2⟩
  | succ k ih =>
    intro m hm
    exact measure_step hin hm fun m' _ h2 => ih m' h2

end

/-! ### Instances: two threads share the buffer in halves -/

/-- Thread 0 reads the first half, thread 1 the second. -/
def llcShare : Share := ⟨fun t => if t = 0 then List.range (llcElems / 2) else List.range' (llcElems / 2) (llcElems / 2), .chain 2⟩

theorem llcShare_covers : llcShare.Covers 2 llcElems := by
  refine ⟨?_, ?_⟩
  rotate_left
  · show List.Perm (RedTree.chain 2).leaves [0, 1, 2]
    decide
  have : (List.range 2).flatMap llcShare.its = List.range (llcElems / 2) ++ List.range' (llcElems / 2) (llcElems / 2) := by
    rw [show List.range 2 = [0, 1] from rfl]
    simp [llcShare]
  have e := List.range'_append_1 (s := 0) (m := llcElems / 2) (n := llcElems / 2)
  rw [Nat.zero_add] at e
  rw [this, List.range_eq_range', List.range_eq_range', e]
  exact List.Perm.refl _

/-- The hypotheses of C81_flush and C81_prepare can be met: 3 unknowns, vectors 0 and 1 with nothing in them, buffer 2 written. -/
example : @Script.Ok CArr _ Races.any _ _ (prepareRun (R := Rat) (fun _ => 3) 2 2 0 1 3 llcShare)
    (fun a i => match a with | .vec 2 => some (i : Rat) | _ => none) (fun _ m' =>
      (∀ i : Nat, i < 3 → m' (.vec 0) (i : Int) = some ((3 : Nat) - (i : Rat)) ∧ m' (.vec 1) (i : Int) = some ((3 : Nat) - (i : Rat))) ∧
      ∀ a, a ≠ .vec 0 → a ≠ .vec 1 → m' a = (fun a i => match a with | .vec 2 => some (i : Rat) | _ => none : Mem (CTy Rat)) a) := by
  let _ : Races CArr := Races.any
  exact C81_prepare (bv := fun i => (i : Rat)) llcShare_covers (fun i _ => by simp) (by decide) (by decide)

/-- The hypotheses of C81_buffer_unset_ub can be met. -/
example : ¬ @Script.Ok CArr _ Races.any _ _ (flushLlc (R := Rat) (fun _ => 3) 2 2 llcShare) (fun _ _ => none) (fun _ _ => True) := by
  let _ : Races CArr := Races.any
  exact C81_buffer_unset_ub llcShare_covers (fun _ => rfl) _

/-- The triangles of the matrix with diagonal 2, -1 next to it, three rows. -/
def lowThree : Csr Rat := Csr.ofRows 3 3 (fun i => match i with | 1 => [(0, -1)] | 2 => [(1, -1)] | _ => []) 0

def upThree : Csr Rat := Csr.ofRows 3 3 (fun i => match i with | 0 => [(1, -1)] | 1 => [(2, -1)] | _ => []) 0

/-- Triangles in objects 0 and 1 (counted from 0), vector 2 the right-hand side, vector 3 the buffer; `x` is 0, `y` is 1. -/
def measureMem : Mem (CTy Rat) := fun a i =>
  match a with
  | .rowptr 0 => some (lowThree.ptr i.toNat : Int)
  | .colidx 0 => some (lowThree.col i.toNat : Int)
  | .values 0 => some (lowThree.val i.toNat)
  | .rowptr 1 => some (upThree.ptr i.toNat : Int)
  | .colidx 1 => some (upThree.col i.toNat : Int)
  | .values 1 => some (upThree.val i.toNat)
  | .idiag 0 => some (1 / 2 : Rat)
  | .idiag 1 => some (1 / 2 : Rat)
  | .vec 2 => some (1 : Rat)
  | .vec 3 => some (0 : Rat)
  | _ => none

/-- The hypotheses of C81_repetitions can be met. -/
example : MeasureInput (fun _ => 3) 2 0 1 3 0 1 2 (fun _ => llcShare) measureMem lowThree upThree (fun _ => 1 / 2) (fun _ => 1 / 2) (fun _ => 1)
    (fun _ => 0) 0 where
  wfL := ⟨by decide +kernel, by decide +kernel, by decide +kernel⟩
  wfU := ⟨by decide +kernel, by decide +kernel, by decide +kernel⟩
  rows := rfl
  square := rfl
  low := by
    have : ∀ i < 3, ∀ j < 2, lowThree.ptr i ≤ j → j < lowThree.ptr (i + 1) → lowThree.col j < i := by decide +kernel
    have h2 : ∀ i < 3, lowThree.ptr (i + 1) ≤ 2 := by decide +kernel
    intro i j hi h3 h4
    exact this i hi j (Nat.lt_of_lt_of_le h4 (h2 i hi)) h3 h4
  up := by
    have : ∀ i < 3, ∀ j < 2, upThree.ptr i ≤ j → j < upThree.ptr (i + 1) → i < upThree.col j := by decide +kernel
    have h2 : ∀ i < 3, upThree.ptr (i + 1) ≤ 2 := by decide +kernel
    intro i j hi h3 h4
    exact this i hi j (Nat.lt_of_lt_of_le h4 (h2 i hi)) h3 h4
  patL := ⟨fun i _ => by simp [measureMem], fun i _ => by simp [measureMem]⟩
  valL := fun i _ => by simp [measureMem]
  diagL := fun i _ => rfl
  patU := ⟨fun i _ => by simp [measureMem], fun i _ => by simp [measureMem]⟩
  valU := fun i _ => by simp [measureMem]
  diagU := fun i _ => rfl
  rhs := fun i _ => rfl
  buffer := fun i _ => rfl
  share := fun _ => llcShare_covers
  roomX := by decide
  roomY := by decide
  distinct := by decide

end SpMP.Props
