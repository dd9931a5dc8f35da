import Verif.CompMain
import Verif.Sched
import Verif.Props.SymPat
/-
Property theorems C43 (findConnectedComponents).
-/

namespace SpMP.Props
open SpMP SpMP.Spec

variable {R : Type}

/-- The nodes to classify: all rows, or with a bit vector those whose bit is not set. -/
def Todo (wb : Bool) (bv : Nat → Bool) (m x : Nat) : Prop := x < m ∧ (wb = true → bv x = false)

/-- The result arrays hold the given functions. -/
structure CcOutput (k' nc : Nat) (root size start node : Nat → Nat) (m : Mem (CTy R)) : Prop where
  compToRoot : ∀ c : Nat, c < nc → m (.itmp 3) (c : Int) = some (root c : Int)
  compSizes : ∀ c : Nat, c < nc → m (.itmp 4) (c : Int) = some (size c : Int)
  compSizePrefixSum : ∀ c : Nat, c < nc → m (.rowptr k') (c : Int) = some (start c : Int)
  nodesSortedByComp : ∀ c j : Nat, c < nc → j < size c → m (.itmp 5) ((start c + j : Nat) : Int) = some (node (start c + j) : Int)

/-- C43, every team and every interleaving: no undefined behaviour, the function terminates, and its result describes the classes of
an equivalence on the nodes that only joins nodes connected by a path: roots are the smallest members, sizes, block starts and the
list of nodes agree. Missing: that every two connected nodes are in the same class, which is false for several threads
(`C43_lost_union_false`). -/
theorem C43_components_partial {sz : CArr → Int} {T k k' base : Nat} {wb : Bool} {bv : Nat → Bool} {A : Csr R} {m0 : Mem (CTy R)}
    (hT : 1 ≤ T) (hwf : A.WF) (hp : HoldsPat m0 k base A) (hkk : k' ≠ k)
    (hcl : ∀ x j, Todo wb bv A.m x → A.InRow x j → Todo wb bv A.m (A.col j)) (hne : ∃ x, Todo wb bv A.m x) :
    (findComponents (R := R) sz T k k' base wb bv A.m).Ok m0 (fun nc m => ∃ E root size start node,
      Equivalence E ∧ (∀ x y, Todo wb bv A.m x → Todo wb bv A.m y → E x y → Linked A (Todo wb bv A.m) x y) ∧
      IsComponents (Todo wb bv A.m) E nc root size start node ∧ CcOutput k' nc root size start node m ∧
      ∀ a i, a ≠ .rowptr k' → (∀ j, a ≠ .itmp j) → m a i = m0 a i) := by
  refine Script.Ok.mono (findComponents_ok hwf hp hkk hcl hne hT) ?_
  rintro nc m ⟨E, root, size, start, node, h⟩
  refine ⟨E, root, size, start, node, h.equiv, h.sound, h.comps, ⟨h.hroot, h.hsize, h.hstart, h.hnode⟩, fun a i h1 h2 => h.frame a i ?_⟩
  rintro (e | ⟨j, _, e⟩)
  · exact h1 e
  · exact h2 j e

/-- C43 for one thread: the classes are exactly the connected components. -/
theorem C43_one_thread_partial {sz : CArr → Int} {k k' base : Nat} {wb : Bool} {bv : Nat → Bool} {A : Csr R} {m0 : Mem (CTy R)}
    (hwf : A.WF) (hp : HoldsPat m0 k base A) (hkk : k' ≠ k)
    (hcl : ∀ x j, Todo wb bv A.m x → A.InRow x j → Todo wb bv A.m (A.col j)) (hne : ∃ x, Todo wb bv A.m x) :
    (findComponents (R := R) sz 1 k k' base wb bv A.m).Ok m0 (fun nc m => ∃ root size start node,
      IsComponents (Todo wb bv A.m) (Linked A (Todo wb bv A.m)) nc root size start node ∧ CcOutput k' nc root size start node m ∧
      ∀ a i, a ≠ .rowptr k' → (∀ j, a ≠ .itmp j) → m a i = m0 a i) := by
  refine Script.Ok.mono (findComponents_ok hwf hp hkk hcl hne (Nat.le_refl 1)) ?_
  rintro nc m ⟨E, root, size, start, node, h⟩
  have hc := h.comps
  refine ⟨root, size, start, node, ⟨hc.root_mem, fun c x h1 h2 h3 => hc.root_least c x h1 h2 (h.exact rfl _ _ (hc.root_mem c h1) h2 h3),
    hc.root_incr, hc.start_zero, hc.start_next, fun c j h1 h2 => ?_, hc.node_incr, hc.cover⟩, ⟨h.hroot, h.hsize, h.hstart, h.hnode⟩, ?_⟩
  · obtain ⟨g1, g2⟩ := hc.node_mem c j h1 h2
    exact ⟨g1, h.sound _ _ (hc.root_mem c h1) g1 g2⟩
  · intro a i h1 h2
    refine h.frame a i ?_
    rintro (e | ⟨j, _, e⟩)
    · exact h1 e
    · exact h2 j e

/-- Two classes never share a node, and nodes of one class carry the same number: `IsComponents` determines the classes. -/
theorem C43_same_block_iff {V : Nat → Prop} {E : Nat → Nat → Prop} {nc : Nat} {root size start node : Nat → Nat} (hE : Equivalence E)
    (h : IsComponents V E nc root size start node) {c d i j : Nat} (hc : c < nc) (hd : d < nc) (hi : i < size c) (hj : j < size d) :
    E (node (start c + i)) (node (start d + j)) ↔ c = d := by
  obtain ⟨a1, a2⟩ := h.node_mem c i hc hi
  obtain ⟨b1, b2⟩ := h.node_mem d j hd hj
  constructor
  · intro he
    have e : E (root c) (root d) := hE.trans a2 (hE.trans he (hE.symm b2))
    have l1 := h.root_least c _ hc (h.root_mem d hd) e
    have l2 := h.root_least d _ hd (h.root_mem c hc) (hE.symm e)
    rcases Nat.lt_trichotomy c d with g | g | g
    · have := h.root_incr c d g hd; omega
    · exact g
    · have := h.root_incr d c g hc; omega
  · rintro rfl
    exact hE.trans (hE.symm a2) b2

/-- A path 1 - 2 - 3 - 0. -/
def ccPath : Csr Int := Csr.ofRows 4 4 (fun i => match i with
  | 0 => [(3, 1)] | 1 => [(2, 1)] | 2 => [(1, 1), (3, 1)] | 3 => [(0, 1), (2, 1)] | _ => []) 0

theorem ccPath_wf : ccPath.WF := by
  refine Csr.ofRows_wf ?_
  intro i p hi hp
  interval_cases i <;> simp at hp <;> rcases hp with rfl | rfl <;> decide

theorem ccPath_todo (x : Nat) : Todo false (fun _ => false) ccPath.m x ↔ x < 4 := by
  constructor
  · intro h; exact h.1
  · intro h; exact ⟨h, fun h => by cases h⟩

theorem ccPath_closed : ∀ x j, Todo false (fun _ => false) ccPath.m x → ccPath.InRow x j → Todo false (fun _ => false) ccPath.m (ccPath.col j) := by
  intro x j hx hj
  exact (ccPath_todo _).2 (ccPath_wf.col_lt j (hj.lt_nnz ccPath_wf))

theorem ccPath_linked (x : Nat) (hx : x < 4) : Linked ccPath (Todo false (fun _ => false) ccPath.m) 0 x := by
  have t : ∀ y, y < 4 → Todo false (fun _ => false) ccPath.m y := fun y h => (ccPath_todo y).2 h
  have e03 : Linked ccPath (Todo false (fun _ => false) ccPath.m) 0 3 :=
    .edge (j := 0) (t 0 (by omega)) ⟨by decide, by decide, by decide⟩ (t _ (by decide))
  have e12 : Linked ccPath (Todo false (fun _ => false) ccPath.m) 1 2 :=
    .edge (j := 1) (t 1 (by omega)) ⟨by decide, by decide, by decide⟩ (t _ (by decide))
  have e23 : Linked ccPath (Todo false (fun _ => false) ccPath.m) 2 3 :=
    .edge (j := 3) (t 2 (by omega)) ⟨by decide, by decide, by decide⟩ (t _ (by decide))
  interval_cases x
  · exact .refl 0
  · exact e03.trans (e12.trans e23).symm
  · exact e03.trans e23.symm
  · exact e03

/-- The hypotheses of C43 hold for the path with 3 threads, base 1, and for a run with a bit vector. -/
example : ∃ (m0 : Mem (CTy Int)), HoldsPat m0 0 1 ccPath ∧ ccPath.WF ∧
    (∀ x j, Todo false (fun _ => false) ccPath.m x → ccPath.InRow x j → Todo false (fun _ => false) ccPath.m (ccPath.col j)) ∧
    (∃ x, Todo false (fun _ => false) ccPath.m x) :=
  ⟨csrMem 0 1 ccPath (fun _ => 0) (fun _ => 0), csrMem_pat 0 1 ccPath _ _, ccPath_wf, ccPath_closed, 0, (ccPath_todo 0).2 (by omega)⟩

/-- Two edges 0 - 1 and 2 - 3; the nodes 2 and 3 are marked in the bit vector. -/
def ccTwo : Csr Int := Csr.ofRows 4 4 (fun i => match i with
  | 0 => [(1, 1)] | 1 => [(0, 1)] | 2 => [(3, 1)] | 3 => [(2, 1)] | _ => []) 0

theorem ccTwo_wf : ccTwo.WF := by
  refine Csr.ofRows_wf ?_
  intro i p hi hp
  interval_cases i <;> simp at hp <;> rcases hp with rfl <;> decide

example : ∃ (m0 : Mem (CTy Int)), HoldsPat m0 0 0 ccTwo ∧ ccTwo.WF ∧
    (∀ x j, Todo true (fun x => decide (2 ≤ x)) ccTwo.m x → ccTwo.InRow x j → Todo true (fun x => decide (2 ≤ x)) ccTwo.m (ccTwo.col j)) ∧
    (∃ x, Todo true (fun x => decide (2 ≤ x)) ccTwo.m x) := by
  refine ⟨csrMem 0 0 ccTwo (fun _ => 0) (fun _ => 0), csrMem_pat 0 0 ccTwo _ _, ccTwo_wf, ?_, 0, by decide, fun _ => rfl⟩
  rintro x j ⟨h1, h2⟩ ⟨_, h3, h4⟩
  have h2 := of_decide_eq_false (h2 rfl)
  obtain rfl | rfl : x = 0 ∨ x = 1 := by omega
  · change 0 ≤ j at h3; change j < 1 at h4
    obtain rfl : j = 0 := by omega
    exact ⟨by decide, fun _ => rfl⟩
  · change 1 ≤ j at h3; change j < 2 at h4
    obtain rfl : j = 1 := by omega
    exact ⟨by decide, fun _ => rfl⟩

set_option maxRecDepth 100000 in
/-- With four threads a union can be lost: thread 2 is about to install the parent of node 2 when thread 1 does so, and overwrites it.
The connected path 1 - 2 - 3 - 0 is then split in two components. -/
theorem C43_lost_union_false :
    ¬ (∀ (sz : CArr → Int) (A : Csr Int) (m0 : Mem (CTy Int)), A.WF → HoldsPat m0 0 0 A →
      (∀ x j, Todo false (fun _ => false) A.m x → A.InRow x j → Todo false (fun _ => false) A.m (A.col j)) →
      (∃ x, Todo false (fun _ => false) A.m x) →
      (findComponents (R := Int) sz 4 0 1 0 false (fun _ => false) A.m).Ok m0 (fun nc _ => ∃ root size start node,
        IsComponents (Todo false (fun _ => false) A.m) (Linked A (Todo false (fun _ => false) A.m)) nc root size start node)) := by
  intro h
  let m0 : Mem (CTy Int) := csrMem 0 0 ccPath (fun _ => 0) (fun _ => 0)
  have h1 := h (fun _ => 9) ccPath m0 ccPath_wf (csrMem_pat 0 0 ccPath _ _) ccPath_closed ⟨0, (ccPath_todo 0).2 (by omega)⟩
  have h2 : ((findComponents (R := Int) (fun _ => 9) 4 0 1 0 false (fun _ => false) 4).runSched
      [[], [], List.replicate 19 2 ++ List.replicate 16 1 ++ List.replicate 20 0 ++ List.replicate 20 2] m0).map (·.1) = some 2 := by
    decide +kernel
  obtain ⟨⟨nc, m⟩, h3, h4⟩ := Option.map_eq_some_iff.1 h2
  obtain rfl : nc = 2 := h4
  obtain ⟨root, size, start, node, hc⟩ := h1.runSched _ _ _ h3
  have r0 := (ccPath_todo _).1 (hc.root_mem 0 (by omega))
  have r1 := (ccPath_todo _).1 (hc.root_mem 1 (by omega))
  have := hc.root_incr 0 1 (by omega) (by omega)
  have := hc.root_least 1 (root 0) (by omega) ((ccPath_todo _).2 r0) ((ccPath_linked _ r1).symm.trans (ccPath_linked _ r0))
  omega

/-- Without any node to classify the function reads uninitialised memory (and writes `compSizes[0]` of an empty array). -/
theorem C43_empty_false :
    ¬ (∀ (sz : CArr → Int) (A : Csr Int) (m0 : Mem (CTy Int)), A.WF → HoldsPat m0 0 0 A →
      (findComponents (R := Int) sz 1 0 1 0 false (fun _ => false) A.m).Ok m0 (fun _ _ => True)) := by
  intro h
  let A : Csr Int := Csr.ofRows 0 0 (fun _ => []) 0
  have hwf : A.WF := Csr.ofRows_wf (fun i p hi => by omega)
  let m0 : Mem (CTy Int) := csrMem 0 0 A (fun _ => 0) (fun _ => 0)
  have h1 := (h (fun _ => 9) A m0 hwf (csrMem_pat 0 0 A _ _)).not_runUB
  have h3 : (findComponents (R := Int) (fun _ => 9) 1 0 1 0 false (fun _ => false) 0).runUB m0 = true := by decide +kernel
  rw [show A.m = 0 from rfl, h3] at h1
  cases h1

end SpMP.Props
