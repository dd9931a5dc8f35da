import Verif.TaskGraph
import Verif.TaskPartProof
import Verif.SchedLists
import Mathlib.Data.List.Sort
/-
Proofs about the task graph: adjacency, inverse adjacency, transitive reduction.
-/

namespace SpMP
open SpMP.Spec

variable {R : Type}

/-! ### Lists -/

theorem mem_skipRep {l : List Nat} {old : Option Nat} {x : Nat} (h : x ∈ skipRep old l) : x ∈ l := by
  induction l generalizing old with
  | nil => simp [skipRep] at h
  | cons y l ih =>
    unfold skipRep at h
    split at h
    · exact List.mem_cons_of_mem _ (ih h)
    · rcases List.mem_cons.mp h with rfl | h
      · simp
      · exact List.mem_cons_of_mem _ (ih h)

theorem skipRep_mem {l : List Nat} {old : Option Nat} {x : Nat} (h : x ∈ l) : x ∈ skipRep old l ∨ old = some x := by
  induction l generalizing old with
  | nil => simp at h
  | cons y l ih =>
    unfold skipRep
    split
    · next ho =>
      rcases List.mem_cons.mp h with rfl | h
      · exact Or.inr ho
      · exact ih h
    · rcases List.mem_cons.mp h with rfl | h
      · left; simp
      · rcases ih (old := some y) h with h1 | h1
        · left; simp [h1]
        · left; simp [Option.some.inj h1]

theorem skipRep_sorted {l : List Nat} {old : Option Nat} (hs : l.Pairwise (· ≤ ·)) (ho : ∀ y, old = some y → ∀ x ∈ l, y ≤ x) :
    (skipRep old l).Pairwise (· < ·) ∧ ∀ y, old = some y → ∀ x ∈ skipRep old l, y < x := by
  induction l generalizing old with
  | nil => simp [skipRep]
  | cons z l ih =>
    rw [List.pairwise_cons] at hs
    unfold skipRep
    split
    · next hz =>
      exact ih hs.2 (fun y hy x hx => ho y hy x (by simp [hx]))
    · next hz =>
      obtain ⟨h1, h2⟩ := ih (old := some z) hs.2 (fun y hy x hx => by rw [← Option.some.inj hy]; exact hs.1 x hx)
      refine ⟨List.pairwise_cons.mpr ⟨fun x hx => h2 z rfl x hx, h1⟩, ?_⟩
      intro y hy x hx
      have hyz : y ≤ z := ho y hy z (by simp)
      have hne : y ≠ z := by rintro rfl; exact hz hy
      rcases List.mem_cons.mp hx with rfl | hx
      · omega
      · have := h2 z rfl x hx; omega

theorem lbList_spec {l : List Nat} (hs : l.Pairwise (· ≤ ·)) (x : Nat) :
    lbList l x ≤ l.length ∧ (∀ k (h : k < l.length), k < lbList l x → l[k] < x) ∧ (∀ k (h : k < l.length), lbList l x ≤ k → x ≤ l[k]) := by
  have hget : ∀ k (h : k < l.length), l.getD k 0 = l[k] := by
    intro k h; rw [List.getD_eq_getElem?_getD, List.getElem?_eq_getElem h]; rfl
  obtain ⟨h1, h2, h3, h4⟩ := lowerBoundGo_spec (b := fun k => l.getD k 0) (x := x) l.length 0 l.length (Nat.le_refl _) (by
    intro i j _ hij hj
    show l.getD i 0 ≤ l.getD j 0
    rw [hget i (by omega), hget j (by omega)]
    rcases Nat.lt_or_ge i j with h | h
    · exact List.pairwise_iff_getElem.mp hs i j (by omega) (by omega) h
    · have : i = j := by omega
      subst this; exact Nat.le_refl _)
  have e : lbList l x = lowerBoundGo (fun k => l.getD k 0) x l.length 0 l.length := rfl
  rw [← e] at h1 h2 h3 h4
  refine ⟨by omega, fun k hk hlt => ?_, fun k hk hle => ?_⟩
  · have := h3 k (Nat.zero_le _) hlt
    rwa [hget k hk] at this
  · have := h4 k hle (by omega)
    rwa [hget k hk] at this

/-- Dropping the elements below `y` of a sorted list loses no element ≥ `y`. -/
theorem mem_drop_lb {l : List Nat} (hs : l.Pairwise (· ≤ ·)) {x y : Nat} (hx : x ∈ l) (hy : y ≤ x) : x ∈ l.drop (lbList l y) := by
  obtain ⟨k, hk, rfl⟩ := List.mem_iff_getElem.mp hx
  obtain ⟨_, h2, _⟩ := lbList_spec hs y
  have h3 : lbList l y ≤ k := by
    by_contra hc
    have := h2 k hk (by omega)
    omega
  rw [List.mem_iff_getElem]
  refine ⟨k - lbList l y, by rw [List.length_drop]; omega, ?_⟩
  rw [List.getElem_drop]
  congr 1; omega

theorem meets_iff : ∀ (fuel : Nat) (l1 l2 : List Nat), l1.length + l2.length ≤ fuel → l1.Pairwise (· ≤ ·) → l2.Pairwise (· ≤ ·) →
    (meets fuel l1 l2 = true ↔ ∃ x, x ∈ l1 ∧ x ∈ l2) := by
  intro fuel
  induction fuel with
  | zero =>
    intro l1 l2 h _ _
    have : l1 = [] := List.eq_nil_of_length_eq_zero (by omega)
    subst this
    simp [meets]
  | succ fuel ih =>
    intro l1 l2 h h1 h2
    match l1, l2 with
    | [], l2 => simp [meets]
    | x :: xs, [] => simp [meets]
    | x :: xs, y :: ys =>
      rw [List.length_cons, List.length_cons] at h
      rw [meets]
      have g1 := List.pairwise_cons.mp h1
      have g2 := List.pairwise_cons.mp h2
      split
      · next he => subst he; simp
      · next hne =>
        split
        · next hlt =>
          rw [ih xs (y :: ys) (by rw [List.length_cons]; omega) g1.2 h2]
          constructor
          · rintro ⟨z, a, b⟩; exact ⟨z, by simp [a], b⟩
          · rintro ⟨z, a, b⟩
            rcases List.mem_cons.mp a with rfl | a
            · exfalso
              rcases List.mem_cons.mp b with rfl | b
              · exact hne rfl
              · have := g2.1 z b; omega
            · exact ⟨z, a, b⟩
        · next hge =>
          rw [ih (x :: xs) ys (by rw [List.length_cons]; omega) h1 g2.2]
          constructor
          · rintro ⟨z, a, b⟩; exact ⟨z, a, by simp [b]⟩
          · rintro ⟨z, a, b⟩
            rcases List.mem_cons.mp b with rfl | b
            · exfalso
              rcases List.mem_cons.mp a with rfl | a
              · exact hne rfl
              · have := g1.1 z a; omega
            · exact ⟨z, a, b⟩

theorem skipTo_spec {l o : List Nat} (h1 : l.Pairwise (· ≤ ·)) (h2 : o.Pairwise (· ≤ ·)) :
    (skipTo l o).Pairwise (· ≤ ·) ∧ (∀ x ∈ skipTo l o, x ∈ l) ∧ (∀ x, x ∈ l → x ∈ o → x ∈ skipTo l o) := by
  cases o with
  | nil => exact ⟨h1, fun x hx => hx, fun x hx _ => hx⟩
  | cons y ys =>
    refine ⟨h1.sublist (List.drop_sublist _ _), fun x hx => List.mem_of_mem_drop hx, ?_⟩
    intro x hx hx'
    refine mem_drop_lb h1 hx ?_
    rcases List.mem_cons.mp hx' with rfl | hx'
    · exact Nat.le_refl _
    · exact (List.pairwise_cons.mp h2).1 x hx'

theorem toRemove_iff {inv tmp : List Nat} (h1 : inv.Pairwise (· ≤ ·)) (h2 : tmp.Pairwise (· ≤ ·)) :
    toRemove inv tmp = true ↔ ∃ x, x ∈ inv ∧ x ∈ tmp := by
  obtain ⟨s1, m1, k1⟩ := skipTo_spec h1 h2
  obtain ⟨s2, m2, k2⟩ := skipTo_spec h2 s1
  unfold toRemove
  simp only
  rw [meets_iff _ _ _ (Nat.le_refl _) s1 s2]
  constructor
  · rintro ⟨x, a, b⟩; exact ⟨x, m1 x a, m2 x b⟩
  · rintro ⟨x, a, b⟩; exact ⟨x, k1 x a b, k2 x b (k1 x a b)⟩

theorem insert_sorted {adj : List Nat} (hs : adj.Pairwise (· < ·)) (x : Nat) (hx : adj[lbList adj x]? ≠ some x) :
    (adj.take (lbList adj x) ++ x :: adj.drop (lbList adj x)).Pairwise (· ≤ ·) := by
  have hs' : adj.Pairwise (· ≤ ·) := hs.imp (fun h => Nat.le_of_lt h)
  obtain ⟨h1, h2, h3⟩ := lbList_spec hs' x
  have ha : ∀ a ∈ adj.take (lbList adj x), a < x := by
    intro a ha
    obtain ⟨k, hk, rfl⟩ := List.mem_iff_getElem.mp ha
    rw [List.length_take] at hk
    rw [List.getElem_take]
    exact h2 k (by omega) (by omega)
  have hb : ∀ b ∈ adj.drop (lbList adj x), x ≤ b := by
    intro b hb
    obtain ⟨k, hk, rfl⟩ := List.mem_iff_getElem.mp hb
    rw [List.length_drop] at hk
    rw [List.getElem_drop]
    exact h3 _ (by omega) (by omega)
  rw [List.pairwise_append, List.pairwise_cons]
  refine ⟨hs'.sublist (List.take_sublist _ _), ⟨hb, hs'.sublist (List.drop_sublist _ _)⟩, ?_⟩
  intro a ha' b hb'
  have := ha a ha'
  rcases List.mem_cons.mp hb' with rfl | hb'
  · omega
  · have := hb b hb'; omega

theorem tempAdj_spec {S : Schedule} {t j : Nat} {adj : List Nat} (hs : adj.Pairwise (· < ·)) :
    (tempAdj S t j adj).Pairwise (· ≤ ·) ∧ ∀ x, x ∈ tempAdj S t j adj ↔ x ∈ adj ∨ x = j + 1 ∧ j < S.threadB (t + 1) - 1 := by
  have hs' : adj.Pairwise (· ≤ ·) := hs.imp (fun h => Nat.le_of_lt h)
  unfold tempAdj
  split
  · next hj =>
    simp only
    split
    · next he =>
      refine ⟨hs', fun x => ⟨fun h => Or.inl h, ?_⟩⟩
      rintro (h | ⟨rfl, _⟩)
      · exact h
      · exact List.mem_of_getElem? he
    · next he =>
      refine ⟨insert_sorted hs _ he, fun x => ?_⟩
      rw [List.mem_append, List.mem_cons]
      constructor
      · rintro (h | rfl | h)
        · exact Or.inl (List.mem_of_mem_take h)
        · exact Or.inr ⟨rfl, hj⟩
        · exact Or.inl (List.mem_of_mem_drop h)
      · rintro (h | ⟨rfl, _⟩)
        · rw [← List.take_append_drop (lbList adj (j + 1)) adj, List.mem_append] at h
          rcases h with h | h
          · exact Or.inl h
          · exact Or.inr (Or.inr h)
        · exact Or.inr (Or.inl rfl)
  · next hj =>
    exact ⟨hs', fun x => ⟨fun h => Or.inl h, by rintro (h | ⟨_, h⟩); exacts [h, absurd h hj]⟩⟩

/-! ### Rows and tasks -/

theorem fold_tasks {f : Nat → Nat} {k : Nat} (l : List Nat) (a : Nat → Nat) (i : Nat) :
    (l.foldl (fun a row => setAt a (f row) k) a) i = if i ∈ l.map f then k else a i := by
  induction l generalizing a with
  | nil => simp
  | cons p l ih =>
    rw [List.foldl_cons, ih]
    by_cases h : i ∈ l.map f
    · rw [if_pos h, if_pos (by simp only [List.map_cons, List.mem_cons]; exact Or.inr h)]
    · rw [if_neg h]
      unfold setAt
      by_cases h2 : i = f p
      · rw [if_pos h2, if_pos (by simp [h2])]
      · rw [if_neg h2, if_neg (by simp only [List.map_cons, List.mem_cons]; tauto)]

theorem origTask_spec {S : Schedule} (hS : S.Tiling) {k i : Nat} (h : S.RowIn k i) : origTask S i = k := by
  obtain ⟨p, ⟨hk, h1, h2⟩, hp⟩ := h
  have key : ∀ n, n ≤ S.ntasks → k < n → ((List.range n).foldl (fun a task =>
      (List.range' (S.taskB task) (S.taskB (task + 1) - S.taskB task)).foldl (fun a row => setAt a (S.perm row) task) a) (fun _ => 0)) i = k := by
    intro n
    induction n with
    | zero => intro _ h; omega
    | succ n ih =>
      intro hn hkn
      rw [List.range_succ, List.foldl_append, List.foldl_cons, List.foldl_nil, fold_tasks]
      by_cases hkn' : k = n
      · subst hkn'
        rw [if_pos]
        rw [List.mem_map]
        exact ⟨p, by rw [List.mem_range'_1]; omega, hp⟩
      · rw [if_neg, ih (by omega) (by omega)]
        rw [List.mem_map]
        rintro ⟨q, hq, hq'⟩
        rw [List.mem_range'_1] at hq
        have hb : ∀ k, k < S.ntasks → S.taskB (k + 1) ≤ S.m := by
          intro k hk
          rw [← hS.taskB_last]; exact mono_range hS.taskB_mono (by omega) (Nat.le_refl _)
        have e : p = q := hS.perm.2 p q (by have := hb k hk; omega) (by have := hb n (by omega); omega) (by rw [hp, hq'])
        subst e
        exact hkn' (seg_unique hS.taskB_mono hk (by omega) h1 h2 hq.1 (by omega))
  exact key S.ntasks (Nat.le_refl _) hk

theorem exists_thread {S : Schedule} (hS : S.Tiling) {k : Nat} (hk : k < S.ntasks) :
    threadOf S k < S.T ∧ S.threadB (threadOf S k) ≤ k ∧ k < S.threadB (threadOf S k + 1) := by
  have hex : ∀ n, n ≤ S.T → k < S.threadB n → ∃ t, t < n ∧ S.threadB t ≤ k ∧ k < S.threadB (t + 1) := by
    intro n
    induction n with
    | zero => intro _ h; rw [hS.threadB_zero] at h; omega
    | succ n ih =>
      intro hn h
      by_cases h1 : k < S.threadB n
      · obtain ⟨t, a, b⟩ := ih (by omega) h1; exact ⟨t, by omega, b⟩
      · exact ⟨n, by omega, by omega, h⟩
  obtain ⟨t, ht, h1, h2⟩ := hex S.T (Nat.le_refl _) (by rw [hS.threadB_last]; exact hk)
  unfold threadOf
  cases hf : (List.range S.T).find? fun t => decide (S.threadB t ≤ k) && decide (k < S.threadB (t + 1)) with
  | none =>
    rw [List.find?_eq_none] at hf
    have := hf t (List.mem_range.mpr ht)
    simp [h1, h2] at this
  | some u =>
    have g1 := List.find?_some hf
    have g2 := List.mem_of_find?_eq_some hf
    simp only [Bool.and_eq_true, decide_eq_true_eq] at g1
    exact ⟨List.mem_range.mp g2, g1.1, g1.2⟩

/-- Inside the thread of `a` means same thread. -/
theorem sameThread_iff {S : Schedule} (hS : S.Tiling) {a b : Nat} (ha : a < S.ntasks) :
    S.SameThread a b ↔ S.threadB (threadOf S a) ≤ b ∧ b < S.threadB (threadOf S a + 1) := by
  obtain ⟨h1, h2, h3⟩ := exists_thread hS ha
  constructor
  · rintro ⟨t, ht, g1, g2, g3, g4⟩
    have e : t = threadOf S a := seg_unique hS.threadB_mono ht h1 g1 g2 h2 h3
    rw [← e]; exact ⟨g3, g4⟩
  · rintro ⟨g1, g2⟩
    exact ⟨_, h1, h2, h3, g1, g2⟩

theorem sameThread_lt {S : Schedule} (hS : S.Tiling) {a b : Nat} (h : S.SameThread a b) : a < S.ntasks ∧ b < S.ntasks := by
  obtain ⟨t, ht, g1, g2, g3, g4⟩ := h
  have : S.threadB (t + 1) ≤ S.ntasks := by
    rw [← hS.threadB_last]; exact mono_range hS.threadB_mono (by omega) (Nat.le_refl _)
  omega

/-- The next task of the same thread. -/
theorem next_iff {S : Schedule} (hS : S.Tiling) {j : Nat} (hj : j < S.ntasks) :
    j < S.threadB (threadOf S j + 1) - 1 ↔ S.SameThread j (j + 1) := by
  rw [sameThread_iff hS hj]
  have := (exists_thread hS hj).2
  omega

/-! ### Adjacency -/

/-- The edges that are built: some row of task `a` stores an entry right of its diagonal whose column is a row of task `b`, and the tasks
belong to different threads. -/
def Edge (S : Schedule) (A : Csr R) (dp ep : Nat → Nat) (a b : Nat) : Prop :=
  ¬ S.SameThread a b ∧ ∃ i p, S.RowIn a i ∧ dp i < p ∧ p < ep i ∧ S.RowIn b (A.col p)

theorem rowIn_lt {S : Schedule} (hS : S.Tiling) {k r : Nat} (h : S.RowIn k r) : r < S.m ∧ k < S.ntasks := by
  obtain ⟨p, ⟨hk, h1, h2⟩, rfl⟩ := h
  have hb : S.taskB (k + 1) ≤ S.m := by
    rw [← hS.taskB_last]; exact mono_range hS.taskB_mono (by omega) (Nat.le_refl _)
  exact ⟨hS.perm.1 p (by omega), hk⟩

theorem taskAdj_sorted (S : Schedule) (A : Csr R) (dp ep : Nat → Nat) (v : Nat) : (taskAdj S A dp ep v).Pairwise (· < ·) :=
  (skipRep_sorted (List.pairwise_insertionSort _ _) (by simp)).1

theorem mem_taskAdj {S : Schedule} (hS : S.Tiling) {A : Csr R} {dp ep : Nat → Nat} (hrow : ∀ i, i < S.m → ∃ k, S.RowIn k i)
    (hcol : ∀ i p, i < S.m → dp i < p → p < ep i → A.col p < S.m) {a b : Nat} (ha : a < S.ntasks) :
    b ∈ taskAdj S A dp ep a ↔ Edge S A dp ep a b := by
  have h1 : b ∈ taskAdj S A dp ep a ↔ b ∈ adjRaw S A dp ep a := by
    unfold taskAdj
    constructor
    · intro h; exact (List.perm_insertionSort _ _).mem_iff.mp (mem_skipRep h)
    · intro h
      rcases skipRep_mem (old := none) ((List.perm_insertionSort (· ≤ ·) _).mem_iff.mpr h) with h | h
      · exact h
      · simp at h
  rw [h1]
  unfold adjRaw Edge
  rw [List.mem_flatMap]
  constructor
  · rintro ⟨q, hq, hb⟩
    rw [List.mem_range'_1] at hq
    simp only [List.mem_filter, List.mem_map, List.mem_range'_1, Bool.or_eq_true, decide_eq_true_eq] at hb
    obtain ⟨⟨p, hp, rfl⟩, hout⟩ := hb
    have hr : S.RowIn a (S.perm q) := ⟨q, ⟨ha, by omega, by omega⟩, rfl⟩
    obtain ⟨k, hk⟩ := hrow _ (hcol _ p (rowIn_lt hS hr).1 (by omega) (by omega))
    refine ⟨?_, S.perm q, p, hr, by omega, by omega, ?_⟩
    · rw [sameThread_iff hS ha]; omega
    · rw [origTask_spec hS hk]; exact hk
  · rintro ⟨hns, i, p, ⟨q, ⟨_, h2, h3⟩, rfl⟩, h4, h5, h6⟩
    refine ⟨q, by rw [List.mem_range'_1]; omega, ?_⟩
    simp only [List.mem_filter, List.mem_map, List.mem_range'_1, Bool.or_eq_true, decide_eq_true_eq]
    refine ⟨⟨p, by omega, origTask_spec hS h6⟩, ?_⟩
    rw [sameThread_iff hS ha] at hns
    omega

/-! ### Inverse adjacency -/

theorem mem_invEvents {tr : Bool} {v1 : Nat} {adj : List Nat} (hs : adj.Pairwise (· < ·)) (hne : v1 + 1 ∉ adj) {intra : Bool} {e : Nat × Nat} :
    e ∈ invEvents tr v1 intra adj ↔ e.2 = v1 ∧ (e.1 ∈ adj ∨ e.1 = v1 + 1 ∧ tr = true ∧ intra = false) := by
  induction adj generalizing intra with
  | nil =>
    unfold invEvents
    cases intra <;> cases tr <;> simp [Prod.ext_iff, and_comm]
  | cons v2 vs ih =>
    rw [List.pairwise_cons] at hs
    rw [List.mem_cons, not_or] at hne
    unfold invEvents
    rw [List.mem_append, List.mem_cons, ih hs.2 hne.2, List.mem_cons]
    by_cases hge : v1 + 1 ≤ v2
    · have hlt : v1 + 1 < v2 := by omega
      rw [if_pos hlt]
      cases intra <;> cases tr <;> simp [hge, Prod.ext_iff] <;> tauto
    · cases intra <;> cases tr <;> simp [hge, Prod.ext_iff] <;> tauto

theorem mem_appended {ev : List (Nat × Nat)} {i x : Nat} : x ∈ appended ev i ↔ (i, x) ∈ ev := by
  unfold appended
  rw [List.mem_map]
  constructor
  · rintro ⟨⟨a, b⟩, h, rfl⟩
    rw [List.mem_filter] at h
    simp only [decide_eq_true_eq] at h
    rw [← h.2]; exact h.1
  · intro h
    exact ⟨(i, x), by rw [List.mem_filter]; simpa using h, rfl⟩

theorem taskInv_sorted (ev : List (Nat × Nat)) (i : Nat) : (taskInv ev i).Pairwise (· ≤ ·) := List.pairwise_insertionSort _ _

theorem mem_taskInv {ev : List (Nat × Nat)} {i x : Nat} : x ∈ taskInv ev i ↔ (i, x) ∈ ev := by
  rw [← mem_appended]
  exact (List.perm_insertionSort _ _).mem_iff

/-- A list of strictly increasing task numbers does not mention the thread's own tasks. -/
theorem mem_allInvEvents {S : Schedule} (hS : S.Tiling) {A : Csr R} {dp ep : Nat → Nat} (hrow : ∀ i, i < S.m → ∃ k, S.RowIn k i)
    (hcol : ∀ i p, i < S.m → dp i < p → p < ep i → A.col p < S.m) {tr : Bool} {a b : Nat} :
    (b, a) ∈ allInvEvents S A dp ep tr ↔ a < S.ntasks ∧ (Edge S A dp ep a b ∨ b = a + 1 ∧ tr = true ∧ S.SameThread a (a + 1)) := by
  unfold allInvEvents
  rw [List.mem_flatMap]
  have key : ∀ v, v < S.ntasks → ((b, a) ∈ invEvents tr v (decide (v = S.threadB (threadOf S v + 1) - 1)) (taskAdj S A dp ep v) ↔
      a = v ∧ (Edge S A dp ep v b ∨ b = v + 1 ∧ tr = true ∧ S.SameThread v (v + 1))) := by
    intro v hv
    have hlast : (decide (v = S.threadB (threadOf S v + 1) - 1) = false) ↔ S.SameThread v (v + 1) := by
      rw [← next_iff hS hv, decide_eq_false_iff_not]
      have := (exists_thread hS hv).2
      omega
    by_cases hn : v + 1 ∈ taskAdj S A dp ep v
    · -- the next task is in another thread
      have hns : ¬ S.SameThread v (v + 1) := ((mem_taskAdj hS hrow hcol hv).mp hn).1
      have hd : decide (v = S.threadB (threadOf S v + 1) - 1) = true := by
        cases hc : decide (v = S.threadB (threadOf S v + 1) - 1) with
        | true => rfl
        | false => exact absurd (hlast.mp hc) hns
      rw [hd]
      have hT : ∀ (adj : List Nat) (e : Nat × Nat), e ∈ invEvents tr v true adj ↔ e.2 = v ∧ e.1 ∈ adj := by
        intro adj
        induction adj with
        | nil => intro e; simp [invEvents]
        | cons x xs ih =>
          intro e
          unfold invEvents
          simp only [Bool.not_true, Bool.false_and, Bool.false_eq_true, if_false, List.nil_append, Bool.true_or, List.mem_cons, ih e]
          constructor
          · rintro (rfl | h)
            · exact ⟨rfl, Or.inl rfl⟩
            · exact ⟨h.1, Or.inr h.2⟩
          · rintro ⟨h1, h2 | h2⟩
            · left; exact Prod.ext h2 h1
            · exact Or.inr ⟨h1, h2⟩
      rw [hT, mem_taskAdj hS hrow hcol hv]
      constructor
      · rintro ⟨h1, h2⟩; exact ⟨h1, Or.inl h2⟩
      · rintro ⟨h1, h2 | ⟨_, _, h2⟩⟩
        · exact ⟨h1, h2⟩
        · exact absurd h2 hns
    · rw [mem_invEvents (taskAdj_sorted S A dp ep v) hn, mem_taskAdj hS hrow hcol hv, hlast]
  constructor
  · rintro ⟨v, hv, h⟩
    have hv := List.mem_range.mp hv
    obtain ⟨rfl, h2⟩ := (key v hv).mp h
    exact ⟨hv, h2⟩
  · rintro ⟨h1, h2⟩
    exact ⟨a, List.mem_range.mpr h1, (key a h1).mpr ⟨rfl, h2⟩⟩

/-! ### Transitive reduction -/

/-- Every edge that was dropped is implied by the kept edges and the order of each thread's tasks. `E` is any edge relation (given by
`adj`), `inv` the inverse lists including the thread's previous task. -/
theorem keptChildren_covers {S : Schedule} (hS : S.Tiling) {adj inv : Nat → List Nat} {lvl : Nat → Nat}
    (hadj : ∀ a, (adj a).Pairwise (· < ·)) (hinv : ∀ i, (inv i).Pairwise (· ≤ ·))
    (hi : ∀ a i, a ∈ inv i → a < S.ntasks ∧ (i ∈ adj a ∨ i = a + 1 ∧ S.SameThread a (a + 1)))
    (hlt : ∀ a i, a < S.ntasks → i ∈ adj a → i < S.ntasks ∧ lvl a < lvl i)
    (hth : ∀ a b, S.SameThread a b → a < b → lvl a < lvl b)
    {Q : Nat → Nat → Prop} (hQe : ∀ a i, a < S.ntasks → i ∈ keptChildren S inv a (adj a) → Q a i)
    (hQt : ∀ a b, S.SameThread a b → a < b → Q a b) (hQ : ∀ a b c, Q a b → Q b c → Q a c) :
    ∀ (d a i : Nat), lvl i - lvl a ≤ d → a < S.ntasks → i ∈ adj a → Q a i := by
  intro d
  induction d with
  | zero =>
    intro a i hd ha h
    have := (hlt a i ha h).2
    omega
  | succ d ih =>
    intro a i hd ha h
    by_cases hr : toRemove (inv i) (tempAdj S (threadOf S a) a (adj a)) = true
    · obtain ⟨g1, g2⟩ := tempAdj_spec (S := S) (t := threadOf S a) (j := a) (hadj a)
      obtain ⟨x, hx1, hx2⟩ := (toRemove_iff (hinv i) g1).mp hr
      have hxa := (g2 x).mp hx2
      obtain ⟨hxn, hxi⟩ := hi x i hx1
      -- from a to x
      have l1 : lvl a < lvl x ∧ (lvl x < lvl i → Q a x) := by
        rcases hxa with hxa | ⟨rfl, hxa⟩
        · exact ⟨(hlt a x ha hxa).2, fun hl => ih a x (by omega) ha hxa⟩
        · have hst := (next_iff hS ha).mp hxa
          exact ⟨hth a (a + 1) hst (by omega), fun _ => hQt a (a + 1) hst (by omega)⟩
      have l2 : lvl x < lvl i ∧ (lvl a < lvl x → Q x i) := by
        rcases hxi with hxi | ⟨rfl, hst⟩
        · exact ⟨(hlt x i hxn hxi).2, fun hl => ih x i (by omega) hxn hxi⟩
        · exact ⟨hth x (x + 1) hst (by omega), fun _ => hQt x (x + 1) hst (by omega)⟩
      exact hQ a x i (l1.2 l2.1) (l2.2 l1.1)
    · refine hQe a i ha ?_
      unfold keptChildren
      rw [List.mem_filter]
      exact ⟨h, by simp [hr]⟩

theorem mem_parentEvents {n : Nat} {children : Nat → List Nat} {i c : Nat} : (c, i) ∈ parentEvents n children ↔ i < n ∧ c ∈ children i := by
  unfold parentEvents
  rw [List.mem_flatMap]
  constructor
  · rintro ⟨j, hj, h⟩
    obtain ⟨x, hx, he⟩ := List.mem_map.mp h
    obtain ⟨rfl, rfl⟩ := Prod.mk.inj he
    exact ⟨List.mem_range.mp hj, hx⟩
  · rintro ⟨h1, h2⟩
    exact ⟨i, List.mem_range.mpr h1, List.mem_map.mpr ⟨c, h2, rfl⟩⟩

end SpMP
