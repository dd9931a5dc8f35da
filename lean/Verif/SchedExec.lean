import Verif.Kernels
/-
Execution of a level schedule by the point-to-point loops of /repo/test/trsv_test.cpp and /repo/test/gs_test.cpp.
-/

set_option linter.unusedSectionVars false

namespace SpMP
open Spec

variable {R : Type} {S : Schedule} [Races CArr]

/-- Flag clearing, barrier, task loop: every interleaving is free of undefined behaviour, of deadlock and of data races, terminates, and ends in
a memory satisfying `Post` (trsv_test.cpp:196-233). -/
def RunsTo (sz : CArr → Int) (S : Schedule) (P : P2P (CTy R)) (m0 : Mem (CTy R)) (Post : Mem (CTy R) → Prop) : Prop :=
  (clearFlags sz S.T S.ntasks).Ok m0 (fun _ m1 =>
    P2POk sz P S.T Post m1)

/-- The vector `vec 1` is `y` and nothing else has changed, apart from the flags. -/
def OnlyY (m0 : Mem (CTy R)) (n : Nat) (y : Nat → R) (m' : Mem (CTy R)) : Prop :=
  (∀ i : Nat, i < n → m' (.vec 1) (i : Int) = some (y i)) ∧
  ∀ (a : CArr) (i : Int), a ≠ .itmp 0 → ¬ (a = .vec 1 ∧ 0 ≤ i ∧ i < n) → m' a i = m0 a i

/-- Kernels do not look at the flag array. -/
def KernelOn (sz : CArr → Int) (m0 : Mem (CTy R)) (m n : Nat) (nbr : Nat → Nat → Prop)
    (body : Nat → Prog (CTy R) Unit) (f : Nat → (Nat → R) → R) : Prop :=
  ∀ m1 : Mem (CTy R), (∀ a, a ≠ .itmp 0 → m1 a = m0 a) → IsKernel sz m1 m n nbr body f

theorem fwd_exec {sz : CArr → Int} {m0 : Mem (CTy R)} {n : Nat} {nbr : Nat → Nat → Prop}
    {body : Nat → Prog (CTy R) Unit} {f : Nat → (Nat → R) → R} {lvl ord pos : Nat → Nat} {y0 : Nat → R}
    (hS : S.Tiling) (hl : S.Levelled lvl) (hT : 1 ≤ S.T)
    (hord : ∀ k, k < S.m → ord k < S.m ∧ pos (ord k) = k) (hpos : ∀ r, r < S.m → pos r < S.m ∧ ord (pos r) = r)
    (hcov : ∀ q r a b, q < S.m → r < S.m → pos q < pos r → (nbr r q ∨ nbr q r) → S.RowIn a q → S.RowIn b r →
      S.Fwd a b)
    (hk : KernelOn sz m0 S.m n nbr body f)
    (hsz : (S.ntasks : Int) ≤ sz (.itmp 0))
    (hy : ∀ i : Nat, i < n → m0 (.vec 1) (i : Int) = some (y0 i)) :
    RunsTo sz S (sweepP2P (fwdTasks S) (fwdRows S) S.parF body) m0 (OnlyY m0 n (sweep f ord S.m y0)) := by
  unfold RunsTo
  refine Script.Ok.mono (clearFlags_ok hT hsz) ?_
  rintro _ m1 ⟨hf, hr⟩
  refine P2POk.mono (sweep_correct (f := f) (nbr := nbr) (n := n) (m := S.m) (ord := ord) (pos := pos) (y0 := y0)
    (fwd_valid hS hl) ?_ ?_ hord hpos (hk m1 hr) ?_ ?_ ?_ ?_) ?_
  · intro t r ht h; exact fwd_rows_lt hS ht h
  · intro r hr'; exact fwd_cover hS hr'
  · intro q r hq hr' hlt hn
    obtain ⟨a, ha, hqa⟩ := exists_rowIn hS hq
    obtain ⟨b, hb, hrb⟩ := exists_rowIn hS hr'
    obtain ⟨t, ht, hat⟩ := fwdTasks_cover hS ha
    obtain ⟨u, hu, hbu⟩ := fwdTasks_cover hS hb
    exact Or.inl ⟨t, u, a, b, ht, hu, hat, hbu, (mem_fwdRows ha).2 hqa, (mem_fwdRows hb).2 hrb,
      fwd_taskBefore hS (hcov q r a b hq hr' hlt hn hqa hrb)⟩
  · intro t b ht hb
    have := fwdTasks_lt hS ht hb
    omega
  · intro t b ht hb; exact hf b (fwdTasks_lt hS ht hb)
  · intro i hi; rw [hr _ (by simp)]; exact hy i hi
  · rintro m' ⟨h1, h2⟩
    refine ⟨h1, ?_⟩
    intro a i ha hn
    rw [h2 a i ha hn, hr a ha]

theorem bwd_exec {sz : CArr → Int} {m0 : Mem (CTy R)} {n : Nat} {nbr : Nat → Nat → Prop}
    {body : Nat → Prog (CTy R) Unit} {f : Nat → (Nat → R) → R} {lvl ord pos : Nat → Nat} {y0 : Nat → R}
    (hS : S.Tiling) (hl : S.Levelled lvl) (hT : 1 ≤ S.T)
    (hord : ∀ k, k < S.m → ord k < S.m ∧ pos (ord k) = k) (hpos : ∀ r, r < S.m → pos r < S.m ∧ ord (pos r) = r)
    (hcov : ∀ q r a b, q < S.m → r < S.m → pos q < pos r → (nbr r q ∨ nbr q r) → S.RowIn a q → S.RowIn b r →
      S.Bwd a b)
    (hk : KernelOn sz m0 S.m n nbr body f)
    (hsz : (S.ntasks : Int) ≤ sz (.itmp 0))
    (hy : ∀ i : Nat, i < n → m0 (.vec 1) (i : Int) = some (y0 i)) :
    RunsTo sz S (sweepP2P (bwdTasks S) (bwdRows S) S.parB body) m0 (OnlyY m0 n (sweep f ord S.m y0)) := by
  unfold RunsTo
  refine Script.Ok.mono (clearFlags_ok hT hsz) ?_
  rintro _ m1 ⟨hf, hr⟩
  have hmem : ∀ t b, b ∈ bwdTasks S t ↔ b ∈ fwdTasks S t := fun t b => List.mem_reverse
  have hrT : ∀ t r, r ∈ (sweepP2P (bwdTasks S) (bwdRows S) S.parB body).rowsT t ↔
      r ∈ (fwdTasks S t).flatMap (fwdRows S) := by
    intro t r
    show r ∈ ((bwdTasks S t).flatMap (bwdRows S)) ↔ _
    rw [bwd_rowsT_perm]; exact List.mem_reverse
  refine P2POk.mono (sweep_correct (f := f) (nbr := nbr) (n := n) (m := S.m) (ord := ord) (pos := pos) (y0 := y0)
    (bwd_valid hS hl) ?_ ?_ hord hpos (hk m1 hr) ?_ ?_ ?_ ?_) ?_
  · intro t r ht h; exact fwd_rows_lt hS ht ((hrT t r).1 h)
  · intro r hr'
    obtain ⟨t, ht, h⟩ := fwd_cover hS hr'
    exact ⟨t, ht, (hrT t r).2 h⟩
  · intro q r hq hr' hlt hn
    obtain ⟨a, ha, hqa⟩ := exists_rowIn hS hq
    obtain ⟨b, hb, hrb⟩ := exists_rowIn hS hr'
    obtain ⟨t, ht, hat⟩ := fwdTasks_cover hS ha
    obtain ⟨u, hu, hbu⟩ := fwdTasks_cover hS hb
    exact Or.inl ⟨t, u, a, b, ht, hu, (hmem _ _).2 hat, (hmem _ _).2 hbu,
      List.mem_reverse.2 ((mem_fwdRows ha).2 hqa), List.mem_reverse.2 ((mem_fwdRows hb).2 hrb),
      bwd_taskBefore hS (hcov q r a b hq hr' hlt hn hqa hrb)⟩
  · intro t b ht hb
    have := fwdTasks_lt hS ht ((hmem _ _).1 hb)
    omega
  · intro t b ht hb; exact hf b (fwdTasks_lt hS ht ((hmem _ _).1 hb))
  · intro i hi; rw [hr _ (by simp)]; exact hy i hi
  · rintro m' ⟨h1, h2⟩
    refine ⟨h1, ?_⟩
    intro a i ha hn
    rw [h2 a i ha hn, hr a ha]

section
variable [Sub R] [Mul R] [Add R]

theorem SolverMem.transfer {m0 m1 : Mem (CTy R)} {base : Nat} {A : Csr R} {b idg : Nat → R}
    (h : SolverMem m0 base A b idg) (he : ∀ a, a ≠ .itmp 0 → m1 a = m0 a) : SolverMem m1 base A b idg := by
  refine ⟨⟨?_, ?_⟩, ?_, ?_, ?_⟩
  · intro i hi; rw [he _ (by simp)]; exact h.pat.rowptr i hi
  · intro i hi; rw [he _ (by simp)]; exact h.pat.colidx i hi
  · intro i hi; rw [he _ (by simp)]; exact h.val i hi
  · intro i hi; rw [he _ (by simp)]; exact h.rhs i hi
  · intro i hi; rw [he _ (by simp)]; exact h.idiag i hi

theorem rowKernel_on {sz : CArr → Int} {m0 : Mem (CTy R)} {base : Nat} {A : Csr R} {b idg : Nat → R}
    (hwf : A.WF) (hmn : A.m ≤ A.n) (hm : SolverMem m0 base A b idg) (hsz : (A.m : Int) ≤ sz (.vec 1))
    (u : Update) (rev : Bool) :
    KernelOn sz m0 A.m A.n A.Nbr (rowKernel base u rev) (rowUpdate A b idg u rev) :=
  fun _ he => rowKernel_isKernel hwf hmn (hm.transfer he) hsz u rev

/-- Subtractions may be exchanged (true of exact arithmetic: any commutative group). -/
def SubExchange (R : Type) [Sub R] : Prop := ∀ s a b : R, s - a - b = s - b - a

theorem foldl_sub_perm (hx : SubExchange R) {α : Type} (g : α → R) {l l' : List α} (hp : l.Perm l') (s : R) :
    l.foldl (fun s j => s - g j) s = l'.foldl (fun s j => s - g j) s := by
  induction hp generalizing s with
  | nil => rfl
  | cons x _ ih => exact ih _
  | swap x y l => simp only [List.foldl_cons]; rw [hx]
  | trans _ _ ih1 ih2 => rw [ih1, ih2]

theorem rowUpdate_rev (hx : SubExchange R) (A : Csr R) (b idg : Nat → R) (u : Update) (r : Nat) (y : Nat → R) :
    rowUpdate A b idg u true r y = rowUpdate A b idg u false r y := by
  unfold rowUpdate residual
  have := foldl_sub_perm hx (fun j => A.val j * y (A.col j)) (List.reverse_perm (rowPos A r)) (b r)
  simp only [if_true]
  rw [this]; simp

end

theorem sweep_congr {V : Type} {f g : Nat → (Nat → V) → V} {ord : Nat → Nat} (h : ∀ r y, f r y = g r y) (k : Nat)
    (y : Nat → V) : sweep f ord k y = sweep g ord k y := by
  have : f = g := by funext r y; exact h r y
  rw [this]

end SpMP
