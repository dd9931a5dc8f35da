import Verif.BfsAll
import Verif.Sched
import Verif.RowsMem
import Verif.Props.SymPat
/-
Property theorems C44 (getBFSPermutation).
-/

namespace SpMP.Props
open SpMP SpMP.Spec

variable {R : Type}

/-- C44, every team and every interleaving, for a symmetric pattern whose rows are all connected to row 0: no undefined behaviour, and
`perm`, `inversePerm` are a breadth-first numbering. Missing: several components with several threads, which is false
(`C44_lost_union_false`), and a single row with one thread (`C44_one_by_one_false`). -/
theorem C44_connected_partial {sz : CArr → Int} {T k k' base thr : Nat} {A : Csr R} {m0 : Mem (CTy R)} (wf : A.WF) (hsq : A.n = A.m)
    (hsym : PatSym A) (hT : 1 ≤ T) (hbig : 2 ≤ T * A.m) (hcon : ∀ x, x < A.m → Reaches A 0 x) (hpat : HoldsPat m0 k base A) :
    (bfsPermutation sz T k k' base A.m thr).Ok m0 (fun _ m =>
      (∃ perm inv, IsBfsNumbering A perm inv ∧ (∀ x : Nat, x < A.m → m bfsPrm (x : Int) = some (perm x : Int)) ∧
        ∀ p : Nat, p < A.m → m bfsInv (p : Int) = some (inv p : Int)) ∧
      ∀ a i, a ≠ .rowptr k' → (∀ j, a ≠ .itmp j) → m a i = m0 a i) := by
  refine Script.Ok.mono (bfsPermutation_ok wf hsq hsym hT hbig (Or.inl hcon) hpat) ?_
  rintro _ m ⟨⟨perm, inv, h1, h2⟩, h3⟩
  refine ⟨⟨perm, inv, h1, h2.perm, h2.inv⟩, fun a i a1 a2 => h3 a i ?_⟩
  rintro (e | ⟨j, e⟩)
  · exact a1 e
  · exact a2 j e

/-- C44 for one thread and every symmetric pattern with at least two rows and no entry stored twice, whatever its components. -/
theorem C44_one_thread_partial {sz : CArr → Int} {k k' base thr : Nat} {A : Csr R} {m0 : Mem (CTy R)} (wf : A.WF) (hsq : A.n = A.m)
    (hsym : PatSym A) (hnd : NoDup A) (hm : 2 ≤ A.m) (hkk : k' ≠ k) (hpat : HoldsPat m0 k base A) :
    (bfsPermutation sz 1 k k' base A.m thr).Ok m0 (fun _ m =>
      (∃ perm inv, IsBfsNumbering A perm inv ∧ (∀ x : Nat, x < A.m → m bfsPrm (x : Int) = some (perm x : Int)) ∧
        ∀ p : Nat, p < A.m → m bfsInv (p : Int) = some (inv p : Int)) ∧
      ∀ a i, a ≠ .rowptr k' → (∀ j, a ≠ .itmp j) → m a i = m0 a i) := by
  refine Script.Ok.mono (bfsPermutation_ok wf hsq hsym (Nat.le_refl 1) (by omega) (Or.inr ⟨rfl, hnd, hkk⟩) hpat) ?_
  rintro _ m ⟨⟨perm, inv, h1, h2⟩, h3⟩
  refine ⟨⟨perm, inv, h1, h2.perm, h2.inv⟩, fun a i a1 a2 => h3 a i ?_⟩
  rintro (e | ⟨j, e⟩)
  · exact a1 e
  · exact a2 j e

/-- The search by a team, every interleaving: the output lists the rows reachable from the source, each once, by non-decreasing
distance, and marks exactly them in the bit vector. -/
theorem C44_search_partial {sz : CArr → Int} {T k base : Nat} {A : Csr R} {m0 : Mem (CTy R)} {s off : Nat} (wf : A.WF) (hsq : A.n = A.m)
    (hT : 1 ≤ T) (hbig : 2 ≤ T * A.m) (hs : s < A.m) (hoff : off + A.m ≤ (sz bfsInv).toNat) (hpat : HoldsPat m0 k base A)
    (hzero : ∀ x : Nat, x < A.m → m0 bfsBits (x : Int) = some (0 : Int)) (hq0 : (T : Int) * A.m ≤ sz (bfsQ 0))
    (hq1 : (T : Int) * A.m ≤ sz (bfsQ 1)) (hrp : (T : Int) * A.m ≤ sz bufA) (hbits : (A.m : Int) ≤ sz bfsBits) :
    (bfsPar sz k base T A.m (off : Int) (s : Int)).Ok m0 (fun r m => ∃ vis : List Nat, r.2 = (vis.length : Int) ∧ vis.Nodup ∧
      (∀ x, x ∈ vis ↔ Reaches A s x) ∧ (vis.Pairwise fun x y => ∀ d e, IsDist A s x d → IsDist A s y e → d ≤ e) ∧
      (∀ j x : Nat, vis[j]? = some x → m bfsInv ((off + j : Nat) : Int) = some (x : Int)) ∧
      (∀ x : Nat, x < A.m → Reaches A s x → m bfsBits (x : Int) = some (1 : Int)) ∧
      (∀ x : Nat, x < A.m → ¬ Reaches A s x → m bfsBits (x : Int) = some (0 : Int))) := by
  refine Script.Ok.mono (bfsPar_ok (off := off) (Z := fun _ => False) wf hsq hT hbig (by omega) hs (fun _ _ h => h) hpat (fun _ _ h => h.elim)
    (fun x hx _ => hzero x hx) hq0 hq1 hrp hbits ?_) ?_
  · intro l hn hl
    have := bfs_len_le wf hsq hs hn hl
    omega
  · rintro r m ⟨vis, h1, hd⟩
    refine ⟨vis, h1, hd.vis_nodup, hd.vis_mem, hd.vis_sorted, fun j x hj => ?_, fun x hx hr => hd.one x hx (Or.inr hr),
      fun x hx hr => hd.zero x hx (by rintro (h | h); exact h; exact hr h)⟩
    have := hd.vis_hold j x hj
    rwa [show ((off + j : Nat) : Int) = (off : Int) + j by push_cast; rfl]

/-- Different rows get different positions. -/
theorem C44_numbering_unique_positions {A : Csr R} {perm inv : Nat → Nat} (h : IsBfsNumbering A perm inv) {x y : Nat} (hx : x < A.m) (hy : y < A.m)
    (he : perm x = perm y) : x = y := by
  rw [← (h.inv_perm x hx).2, ← (h.inv_perm y hy).2, he]

/-- A component 0 - 2, a path 1 - 4 - 3 and the single row 5 with a diagonal entry. -/
def bfsSix : Csr Int := Csr.ofRows 6 6 (fun i => match i with
  | 0 => [(2, 1)] | 1 => [(1, 1), (4, 1)] | 2 => [(0, 1)] | 3 => [(4, 1)] | 4 => [(1, 1), (3, 1)] | 5 => [(5, 1)] | _ => []) 0

theorem bfsSix_wf : bfsSix.WF := by
  refine Csr.ofRows_wf ?_
  intro i p hi hp
  interval_cases i <;> simp at hp <;> rcases hp with rfl | rfl <;> decide

theorem bfsSix_row {x j : Nat} (h : bfsSix.InRow x j) : (x, j) ∈ [(0, 0), (1, 1), (1, 2), (2, 3), (3, 4), (4, 5), (4, 6), (5, 7)] := by
  obtain ⟨h1, h2, h3⟩ := h
  change x < 6 at h1
  interval_cases x
  · change 0 ≤ j at h2; change j < 1 at h3
    interval_cases j; decide
  · change 1 ≤ j at h2; change j < 3 at h3
    interval_cases j <;> decide
  · change 3 ≤ j at h2; change j < 4 at h3
    interval_cases j; decide
  · change 4 ≤ j at h2; change j < 5 at h3
    interval_cases j; decide
  · change 5 ≤ j at h2; change j < 7 at h3
    interval_cases j <;> decide
  · change 7 ≤ j at h2; change j < 8 at h3
    interval_cases j; decide

theorem bfsSix_sym : PatSym bfsSix := by
  intro x j h
  have h := bfsSix_row h
  simp only [List.mem_cons, Prod.mk.injEq, List.not_mem_nil, or_false] at h
  have mk : ∀ i y, (y < 6 ∧ bfsSix.ptr y ≤ i ∧ i < bfsSix.ptr (y + 1)) → bfsSix.InRow y i := fun i y h => h
  rcases h with ⟨rfl, rfl⟩ | ⟨rfl, rfl⟩ | ⟨rfl, rfl⟩ | ⟨rfl, rfl⟩ | ⟨rfl, rfl⟩ | ⟨rfl, rfl⟩ | ⟨rfl, rfl⟩ | ⟨rfl, rfl⟩
  · exact ⟨3, mk _ _ (by decide), by decide⟩
  · exact ⟨1, mk _ _ (by decide), by decide⟩
  · exact ⟨5, mk _ _ (by decide), by decide⟩
  · exact ⟨0, mk _ _ (by decide), by decide⟩
  · exact ⟨6, mk _ _ (by decide), by decide⟩
  · exact ⟨2, mk _ _ (by decide), by decide⟩
  · exact ⟨4, mk _ _ (by decide), by decide⟩
  · exact ⟨7, mk _ _ (by decide), by decide⟩

theorem bfsSix_nodup : NoDup bfsSix := by
  intro i p q hp hq he
  have h1 := bfsSix_row hp
  have h2 := bfsSix_row hq
  simp only [List.mem_cons, Prod.mk.injEq, List.not_mem_nil, or_false] at h1 h2
  have c1 : bfsSix.col 1 = 1 := by decide
  have c2 : bfsSix.col 2 = 4 := by decide
  have c5 : bfsSix.col 5 = 1 := by decide
  have c6 : bfsSix.col 6 = 3 := by decide
  rcases h1 with ⟨rfl, rfl⟩ | ⟨rfl, rfl⟩ | ⟨rfl, rfl⟩ | ⟨rfl, rfl⟩ | ⟨rfl, rfl⟩ | ⟨rfl, rfl⟩ | ⟨rfl, rfl⟩ | ⟨rfl, rfl⟩ <;>
    rcases h2 with ⟨h, rfl⟩ | ⟨h, rfl⟩ | ⟨h, rfl⟩ | ⟨h, rfl⟩ | ⟨h, rfl⟩ | ⟨h, rfl⟩ | ⟨h, rfl⟩ | ⟨h, rfl⟩ <;> omega

/-- The hypotheses of the one-thread theorem hold for three components, base 1, with a threshold that makes the path "large". -/
example : (bfsPermutation (R := Int) (fun _ => 0) 1 0 1 1 bfsSix.m 3).Ok (csrMem 0 1 bfsSix (fun _ => 0) (fun _ => 0)) (fun _ m =>
      (∃ perm inv, IsBfsNumbering bfsSix perm inv ∧ (∀ x : Nat, x < bfsSix.m → m bfsPrm (x : Int) = some (perm x : Int)) ∧
        ∀ p : Nat, p < bfsSix.m → m bfsInv (p : Int) = some (inv p : Int)) ∧
      ∀ a i, a ≠ .rowptr 1 → (∀ j, a ≠ .itmp j) → m a i = csrMem 0 1 bfsSix (fun _ => 0) (fun _ => 0) a i) :=
  C44_one_thread_partial bfsSix_wf rfl bfsSix_sym bfsSix_nodup (show 2 ≤ 6 by omega) (by omega) (csrMem_pat 0 1 bfsSix _ _)

/-- A connected triangle with a tail: 0 - 2, 0 - 1, 1 - 2. -/
def bfsTri : Csr Int := Csr.ofRows 3 3 (fun i => match i with
  | 0 => [(2, 1), (1, 1)] | 1 => [(0, 1), (2, 1)] | 2 => [(0, 1), (1, 1)] | _ => []) 0

theorem bfsTri_wf : bfsTri.WF := by
  refine Csr.ofRows_wf ?_
  intro i p hi hp
  interval_cases i <;> simp at hp <;> rcases hp with rfl | rfl <;> decide

theorem bfsTri_sym : PatSym bfsTri := by
  rintro x j ⟨h1, h2, h3⟩
  have mk : ∀ i y, (y < 3 ∧ bfsTri.ptr y ≤ i ∧ i < bfsTri.ptr (y + 1)) → bfsTri.InRow y i := fun i y h => h
  change x < 3 at h1
  interval_cases x
  · change 0 ≤ j at h2; change j < 2 at h3
    interval_cases j
    · exact ⟨4, mk _ _ (by decide), by decide⟩
    · exact ⟨2, mk _ _ (by decide), by decide⟩
  · change 2 ≤ j at h2; change j < 4 at h3
    interval_cases j
    · exact ⟨1, mk _ _ (by decide), by decide⟩
    · exact ⟨5, mk _ _ (by decide), by decide⟩
  · change 4 ≤ j at h2; change j < 6 at h3
    interval_cases j
    · exact ⟨0, mk _ _ (by decide), by decide⟩
    · exact ⟨3, mk _ _ (by decide), by decide⟩

theorem bfsTri_con : ∀ x, x < bfsTri.m → Reaches bfsTri 0 x := by
  intro x hx
  change x < 3 at hx
  interval_cases x
  · exact ⟨0, .nil⟩
  · exact ⟨1, .snoc (j := 1) .nil ⟨by decide, by decide, by decide⟩⟩
  · exact ⟨1, .snoc (j := 0) .nil ⟨by decide, by decide, by decide⟩⟩

/-- The hypotheses of the theorem for connected patterns hold with four threads. -/
example : bfsTri.WF ∧ PatSym bfsTri ∧ 2 ≤ 4 * bfsTri.m ∧ (∀ x, x < bfsTri.m → Reaches bfsTri 0 x) ∧
    HoldsPat (csrMem (R := Int) 0 0 bfsTri (fun _ => 0) (fun _ => 0)) 0 0 bfsTri :=
  ⟨bfsTri_wf, bfsTri_sym, by decide, bfsTri_con, csrMem_pat 0 0 bfsTri _ _⟩

/-- One row, one thread: the search writes `rowptrs[1]` of an array with one element. -/
theorem C44_one_by_one_false :
    ¬ (∀ (sz : CArr → Int) (A : Csr Int) (m0 : Mem (CTy Int)), A.WF → A.n = A.m → PatSym A → NoDup A → 1 ≤ A.m → HoldsPat m0 0 0 A →
      (bfsPermutation (R := Int) sz 1 0 1 0 A.m 65536).Ok m0 (fun _ _ => True)) := by
  intro h
  let A : Csr Int := Csr.ofRows 1 1 (fun i => match i with | 0 => [(0, 1)] | _ => []) 0
  have hwf : A.WF := by
    refine Csr.ofRows_wf ?_
    intro i p hi hp
    interval_cases i
    simp at hp
    subst hp; decide
  have row : ∀ {x j : Nat}, A.InRow x j → x = 0 ∧ j = 0 := by
    rintro x j ⟨h1, h2, h3⟩
    change x < 1 at h1
    obtain rfl : x = 0 := by omega
    change j < 1 at h3
    exact ⟨rfl, by omega⟩
  have hsym : PatSym A := by
    intro x j hj
    obtain ⟨rfl, rfl⟩ := row hj
    exact ⟨0, hj, rfl⟩
  have hnd : NoDup A := by
    intro i p q hp hq _
    rw [(row hp).2, (row hq).2]
  let m0 : Mem (CTy Int) := csrMem 0 0 A (fun _ => 0) (fun _ => 0)
  have h1 := (h (fun _ => 9) A m0 hwf rfl hsym hnd (Nat.le_refl 1) (csrMem_pat 0 0 A _ _)).not_runUB
  have h3 : (bfsPermutation (R := Int) (fun _ => 9) 1 0 1 0 1 65536).runUB m0 = true := by decide +kernel
  rw [show A.m = 1 from rfl, h3] at h1
  cases h1

set_option maxRecDepth 100000 in
/-- An entry stored twice: row 1 holds its diagonal entry twice, is taken for a component of two rows, and the second is placed
outside the array. -/
theorem C44_duplicate_entry_false :
    ¬ (∀ (sz : CArr → Int) (A : Csr Int) (m0 : Mem (CTy Int)), A.WF → A.n = A.m → PatSym A → 2 ≤ A.m → HoldsPat m0 0 0 A →
      (bfsPermutation (R := Int) sz 1 0 1 0 A.m 65536).Ok m0 (fun _ _ => True)) := by
  intro h
  let A : Csr Int := Csr.ofRows 2 2 (fun i => match i with | 0 => [(0, 1)] | 1 => [(1, 1), (1, 1)] | _ => []) 0
  have hwf : A.WF := by
    refine Csr.ofRows_wf ?_
    intro i p hi hp
    interval_cases i <;> simp at hp <;> subst hp <;> decide
  have hsym : PatSym A := by
    rintro x j ⟨h1, h2, h3⟩
    have e : A.col j = x := by
      change x < 2 at h1
      interval_cases x
      · change 0 ≤ j at h2; change j < 1 at h3
        interval_cases j; rfl
      · change 1 ≤ j at h2; change j < 3 at h3
        interval_cases j <;> rfl
    exact ⟨j, by rw [e]; exact ⟨h1, h2, h3⟩, e⟩
  let m0 : Mem (CTy Int) := csrMem 0 0 A (fun _ => 0) (fun _ => 0)
  have h1 := (h (fun _ => 9) A m0 hwf rfl hsym (Nat.le_refl 2) (csrMem_pat 0 0 A _ _)).not_runUB
  have h3 : (bfsPermutation (R := Int) (fun _ => 9) 1 0 1 0 2 65536).runUB m0 = true := by decide +kernel
  rw [show A.m = 2 from rfl, h3] at h1
  cases h1

/-- The single row 0 and a path 2 - 3 - 4 - 1. -/
def bfsLost : Csr Int := Csr.ofRows 5 5 (fun i => match i with
  | 1 => [(4, 1)] | 2 => [(3, 1)] | 3 => [(2, 1), (4, 1)] | 4 => [(1, 1), (3, 1)] | _ => []) 0

theorem bfsLost_wf : bfsLost.WF := by
  refine Csr.ofRows_wf ?_
  intro i p hi hp
  interval_cases i <;> simp at hp <;> rcases hp with rfl | rfl <;> decide

theorem bfsLost_row {x j : Nat} (h : bfsLost.InRow x j) : (x, j) ∈ [(1, 0), (2, 1), (3, 2), (3, 3), (4, 4), (4, 5)] := by
  obtain ⟨h1, h2, h3⟩ := h
  change x < 5 at h1
  interval_cases x
  · change 0 ≤ j at h2; change j < 0 at h3; omega
  · change 0 ≤ j at h2; change j < 1 at h3
    interval_cases j; decide
  · change 1 ≤ j at h2; change j < 2 at h3
    interval_cases j; decide
  · change 2 ≤ j at h2; change j < 4 at h3
    interval_cases j <;> decide
  · change 4 ≤ j at h2; change j < 6 at h3
    interval_cases j <;> decide

theorem bfsLost_sym : PatSym bfsLost := by
  intro x j h
  have h := bfsLost_row h
  simp only [List.mem_cons, Prod.mk.injEq, List.not_mem_nil, or_false] at h
  have mk : ∀ i y, (y < 5 ∧ bfsLost.ptr y ≤ i ∧ i < bfsLost.ptr (y + 1)) → bfsLost.InRow y i := fun i y h => h
  rcases h with ⟨rfl, rfl⟩ | ⟨rfl, rfl⟩ | ⟨rfl, rfl⟩ | ⟨rfl, rfl⟩ | ⟨rfl, rfl⟩ | ⟨rfl, rfl⟩
  · exact ⟨4, mk _ _ (by decide), by decide⟩
  · exact ⟨2, mk _ _ (by decide), by decide⟩
  · exact ⟨1, mk _ _ (by decide), by decide⟩
  · exact ⟨5, mk _ _ (by decide), by decide⟩
  · exact ⟨0, mk _ _ (by decide), by decide⟩
  · exact ⟨3, mk _ _ (by decide), by decide⟩

theorem bfsLost_nodup : NoDup bfsLost := by
  intro i p q hp hq he
  have h1 := bfsLost_row hp
  have h2 := bfsLost_row hq
  simp only [List.mem_cons, Prod.mk.injEq, List.not_mem_nil, or_false] at h1 h2
  have c2 : bfsLost.col 2 = 2 := by decide
  have c3 : bfsLost.col 3 = 4 := by decide
  have c4 : bfsLost.col 4 = 1 := by decide
  have c5 : bfsLost.col 5 = 3 := by decide
  rcases h1 with ⟨rfl, rfl⟩ | ⟨rfl, rfl⟩ | ⟨rfl, rfl⟩ | ⟨rfl, rfl⟩ | ⟨rfl, rfl⟩ | ⟨rfl, rfl⟩ <;>
    rcases h2 with ⟨h, rfl⟩ | ⟨h, rfl⟩ | ⟨h, rfl⟩ | ⟨h, rfl⟩ | ⟨h, rfl⟩ | ⟨h, rfl⟩ <;> omega

/-- The matrix in memory; the fresh array of levels happens to hold -1. -/
def bfsLostMem : Mem (CTy Int)
  | .itmp 16, _ => some (-1 : Int)
  | a, i => csrMem 0 0 bfsLost (fun _ => 0) (fun _ => 0) a i

def bfsCell (m : Mem (CTy Int)) (i : Int) : Option Int := m bfsInv i

set_option maxRecDepth 100000 in
/-- With four threads a lost union in the search for components makes getBFSPermutation return something that is no permutation:
positions 3 and 4 both get row 2, and row 3 gets none. -/
theorem C44_lost_union_false :
    ¬ (∀ (sz : CArr → Int) (A : Csr Int) (m0 : Mem (CTy Int)), A.WF → A.n = A.m → PatSym A → NoDup A → 2 ≤ A.m → HoldsPat m0 0 0 A →
      (bfsPermutation (R := Int) sz 4 0 1 0 A.m 65536).Ok m0 (fun _ m => ∃ perm inv, IsBfsNumbering A perm inv ∧
        ∀ p : Nat, p < A.m → m bfsInv (p : Int) = some (inv p : Int))) := by
  intro h
  have hp : HoldsPat bfsLostMem 0 0 bfsLost :=
    ⟨fun i hi => (csrMem_pat 0 0 bfsLost (fun _ => 0) (fun _ => 0)).rowptr i hi, fun i hi => (csrMem_pat 0 0 bfsLost (fun _ => 0) (fun _ => 0)).colidx i hi⟩
  have h1 := h (fun _ => 9) bfsLost bfsLostMem bfsLost_wf rfl bfsLost_sym bfsLost_nodup (show 2 ≤ 5 by omega) hp
  have h2 : ((bfsPermutation (R := Int) (fun _ => 9) 4 0 1 0 5 65536).runSched
      (List.replicate 12 [] ++ [List.replicate 14 2 ++ List.replicate 16 1 ++ List.replicate 14 3 ++ List.replicate 20 1]) bfsLostMem).map
      (fun r => (bfsCell r.2 3, bfsCell r.2 4)) = some (some 2, some 2) := by
    decide +kernel
  obtain ⟨⟨u, m⟩, h3, h4⟩ := Option.map_eq_some_iff.1 h2
  obtain ⟨perm, inv, hn, hi⟩ := h1.runSched _ _ _ h3
  have e3 : bfsCell m 3 = some 2 := (Prod.mk.inj h4).1
  have e4 : bfsCell m 4 = some 2 := (Prod.mk.inj h4).2
  have i3 : bfsCell m 3 = some (inv 3 : Int) := hi 3 (show 3 < 5 by omega)
  have i4 : bfsCell m 4 = some (inv 4 : Int) := hi 4 (show 4 < 5 by omega)
  rw [e3] at i3
  rw [e4] at i4
  injection i3 with i3
  injection i4 with i4
  have p3 := (hn.perm_inv 3 (show 3 < 5 by omega)).2
  have p4 := (hn.perm_inv 4 (show 4 < 5 by omega)).2
  rw [show inv 3 = inv 4 by omega, p4] at p3
  omega

end SpMP.Props
