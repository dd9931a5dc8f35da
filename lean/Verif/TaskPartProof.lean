import Verif.TaskPart
import Mathlib.Data.List.Basic
import Mathlib.Data.List.Flatten
import Mathlib.Data.List.Perm.Basic
import Mathlib.Data.List.Perm.Lattice
import Mathlib.Tactic.Linarith
/-
Proofs about the task partition: cutting one level, laying out the tasks.
-/

namespace SpMP
open SpMP.Spec

/-! ### lower_bound -/

theorem lowerBoundGo_spec {b : Nat → Nat} {x : Nat} : ∀ (fuel first len : Nat), len ≤ fuel →
    (∀ i j, first ≤ i → i ≤ j → j < first + len → b i ≤ b j) →
    first ≤ lowerBoundGo b x fuel first len ∧ lowerBoundGo b x fuel first len ≤ first + len ∧
      (∀ i, first ≤ i → i < lowerBoundGo b x fuel first len → b i < x) ∧
      (∀ i, lowerBoundGo b x fuel first len ≤ i → i < first + len → x ≤ b i) := by
  intro fuel
  induction fuel with
  | zero =>
    intro first len h1 _
    have : len = 0 := by omega
    subst this
    simp only [lowerBoundGo]
    exact ⟨Nat.le_refl _, by omega, fun i h h' => by omega, fun i h h' => by omega⟩
  | succ fuel ih =>
    intro first len h1 h2
    simp only [lowerBoundGo]
    split
    · next h0 =>
      subst h0
      exact ⟨Nat.le_refl _, by omega, fun i h h' => by omega, fun i h h' => by omega⟩
    · next h0 =>
      split
      · next h3 =>
        obtain ⟨g1, g2, g3, g4⟩ := ih (first + len / 2 + 1) (len - len / 2 - 1) (by omega) (fun i j hi hij hj => h2 i j (by omega) hij (by omega))
        refine ⟨by omega, by omega, ?_, fun i hi hi' => g4 i hi (by omega)⟩
        intro i hi hi'
        by_cases hc : first + len / 2 + 1 ≤ i
        · exact g3 i hc hi'
        · exact Nat.lt_of_le_of_lt (h2 i (first + len / 2) hi (by omega) (by omega)) h3
      · next h3 =>
        obtain ⟨g1, g2, g3, g4⟩ := ih first (len / 2) (by omega) (fun i j hi hij hj => h2 i j hi hij (by omega))
        refine ⟨g1, by omega, g3, ?_⟩
        intro i hi hi'
        by_cases hc : i < first + len / 2
        · exact g4 i hi hc
        · exact Nat.le_trans (by omega) (h2 (first + len / 2) i (by omega) (by omega) hi')

/-! ### Cutting one level -/

/-- Consecutive intervals from `a` to `c`. -/
def Cuts (a : Nat) : List (Nat × Nat) → Nat → Prop
  | [], c => a = c
  | be :: ts, c => be.1 = a ∧ a ≤ be.2 ∧ Cuts be.2 ts c

theorem cuts_le {a c : Nat} {ts : List (Nat × Nat)} (h : Cuts a ts c) : a ≤ c := by
  induction ts generalizing a with
  | nil => exact Nat.le_of_eq h
  | cons be ts ih => exact Nat.le_trans h.2.1 (ih h.2.2)

theorem cuts_replicate {a c : Nat} {ts : List (Nat × Nat)} (h : Cuts a ts c) (k : Nat) : Cuts a (List.replicate k (a, a) ++ ts) c := by
  induction k with
  | zero => simpa using h
  | succ k ih => rw [List.replicate_succ, List.cons_append]; exact ⟨rfl, Nat.le_refl _, ih⟩

theorem partLoop_plain {b : Nat → Nat} {per le T : Nat} {lb : Nat}
    (hm : ∀ i j, lb ≤ i → i ≤ j → j < le → b i ≤ b j) (hlast : ∀ i, lb ≤ i → i < le → b i < T * per) :
    ∀ (fuel t r p : Nat), t + (fuel + 1) = T → lb ≤ p → p ≤ r → p ≤ le →
      Cuts p (partLoop false b per le (fuel + 1) t r p).1 le ∧ (partLoop false b per le (fuel + 1) t r p).1.length = fuel + 1 := by
  intro fuel
  induction fuel with
  | zero =>
    intro t r p hT h1 h2 h3
    obtain ⟨g1, g2, g3, g4⟩ := lowerBoundGo_spec (b := b) (x := (t + 1) * per) (le - r) r (le - r) (Nat.le_refl _)
      (fun i j hi hij hj => hm i j (by omega) hij (by omega))
    have hx : le ≤ lowerBoundAt b r le ((t + 1) * per) := by
      unfold lowerBoundAt
      by_contra hc
      have h5 := g4 _ (Nat.le_refl _) (by omega)
      have h6 := hlast (lowerBoundGo b ((t + 1) * per) (le - r) r (le - r)) (by omega) (by omega)
      have h7 : t + 1 = T := by omega
      rw [h7] at h5 h6
      omega
    simp only [partLoop, cutPoint, Bool.false_and, Bool.false_eq_true, if_false]
    rw [Nat.min_eq_right hx]
    exact ⟨⟨rfl, h3, rfl⟩, rfl⟩
  | succ fuel ih =>
    intro t r p hT h1 h2 h3
    obtain ⟨g1, g2, _, _⟩ := lowerBoundGo_spec (b := b) (x := (t + 1) * per) (le - r) r (le - r) (Nat.le_refl _)
      (fun i j hi hij hj => hm i j (by omega) hij (by omega))
    have hx : r ≤ lowerBoundAt b r le ((t + 1) * per) := g1
    rw [partLoop]
    simp only [cutPoint, Bool.false_and, Bool.false_eq_true, if_false]
    generalize lowerBoundAt b r le ((t + 1) * per) = nr at hx
    obtain ⟨h4, h5⟩ := ih (t + 1) (nr + 1) (min nr le) (by omega) (by omega) (by omega) (by omega)
    refine ⟨⟨rfl, by show p ≤ min nr le; omega, h4⟩, by rw [List.length_cons, h5]⟩

theorem partLoop_agg {b : Nat → Nat} {per le T : Nat} {lb : Nat}
    (hm : ∀ i j, lb ≤ i → i ≤ j → j < le → b i ≤ b j) (hlast : ∀ i, lb ≤ i → i < le → b i < T * per) :
    ∀ (fuel t r p : Nat), t + (fuel + 1) = T → lb ≤ p → (t = 0 ∧ r = p ∧ p ≤ le ∨ t ≠ 0 ∧ r = p + 1 ∧ r ≤ le) →
      Cuts p (partLoop true b per le (fuel + 1) t r p).1 le ∧ (partLoop true b per le (fuel + 1) t r p).1.length ≤ fuel + 1 ∧
      (partLoop true b per le (fuel + 1) t r p).2 = true := by
  intro fuel
  induction fuel with
  | zero =>
    intro t r p hT h1 h2
    obtain ⟨g1, g2, g3, g4⟩ := lowerBoundGo_spec (b := b) (x := (t + 1) * per) (le - r) r (le - r) (Nat.le_refl _)
      (fun i j hi hij hj => hm i j (by omega) hij (by omega))
    have hx : le ≤ lowerBoundAt b r le ((t + 1) * per) := by
      unfold lowerBoundAt
      by_contra hc
      have h5 := g4 _ (Nat.le_refl _) (by omega)
      have h6 := hlast (lowerBoundGo b ((t + 1) * per) (le - r) r (le - r)) (by omega) (by omega)
      have h7 : t + 1 = T := by omega
      rw [h7] at h5 h6
      omega
    have hc : cutPoint true le t r (lowerBoundAt b r le ((t + 1) * per)) = le := by
      generalize lowerBoundAt b r le ((t + 1) * per) = nr at hx
      unfold cutPoint
      rw [if_pos rfl]
      split <;> omega
    rw [partLoop]
    simp only [hc, Nat.min_self, Bool.true_and, decide_eq_true_eq, Nat.le_refl, if_true]
    exact ⟨⟨rfl, by show p ≤ le; omega, rfl⟩, by simp, trivial⟩
  | succ fuel ih =>
    intro t r p hT h1 h2
    obtain ⟨g1, g2, _, _⟩ := lowerBoundGo_spec (b := b) (x := (t + 1) * per) (le - r) r (le - r) (Nat.le_refl _)
      (fun i j hi hij hj => hm i j (by omega) hij (by omega))
    have hx : r ≤ lowerBoundAt b r le ((t + 1) * per) := g1
    rw [partLoop]
    simp only
    generalize lowerBoundAt b r le ((t + 1) * per) = nr at hx
    have hc : p ≤ cutPoint true le t r nr ∧ cutPoint true le t r nr ≤ le := by
      unfold cutPoint
      rw [if_pos rfl]
      split <;> omega
    generalize cutPoint true le t r nr = cp at hc
    rw [Nat.min_eq_left hc.2]
    simp only [Bool.true_and, decide_eq_true_eq]
    split
    · next h5 =>
      have : cp = le := by omega
      subst this
      exact ⟨⟨rfl, hc.1, rfl⟩, by simp, rfl⟩
    · next h5 =>
      obtain ⟨h6, h7, h8⟩ := ih (t + 1) (cp + 1) cp (by omega) (by omega) (by right; exact ⟨by omega, rfl, by omega⟩)
      refine ⟨⟨rfl, hc.1, h6⟩, by simp only [List.length_cons]; omega, h8⟩

theorem levelCost_succ (cost rev : Nat → Nat) {lb i : Nat} (h : lb ≤ i) :
    levelCost cost rev lb (i + 1) = levelCost cost rev lb i + cost (rev i) := by
  unfold levelCost
  rw [show i + 1 - lb = (i - lb) + 1 by omega, List.range'_concat, List.map_append, List.sum_append]
  simp only [Nat.one_mul, List.map_cons, List.map_nil, List.sum_cons, List.sum_nil, Nat.add_zero]
  rw [show lb + (i - lb) = i by omega]

theorem levelCost_mono (cost rev : Nat → Nat) {lb i j : Nat} (h : lb ≤ i) (hij : i ≤ j) :
    levelCost cost rev lb i ≤ levelCost cost rev lb j := by
  induction j, hij using Nat.le_induction with
  | base => exact Nat.le_refl _
  | succ j hj ih => rw [levelCost_succ _ _ (by omega)]; omega

/-- One level: consecutive tasks, one per thread, if every row has a positive cost. -/
theorem levelTasks_spec {agg : Bool} {T : Nat} {cost rev : Nat → Nat} {lb le : Nat} (hT : 1 ≤ T) (hle : lb ≤ le)
    (hc : ∀ p, lb ≤ p → p < le → 0 < cost (rev p)) :
    ∃ ts, levelTasks agg T cost rev lb le = some ts ∧ ts.length = T ∧ Cuts lb ts le := by
  obtain ⟨T', rfl⟩ : ∃ T', T = T' + 1 := ⟨T - 1, by omega⟩
  have hper : levelCost cost rev lb le ≤ (T' + 1) * ((levelCost cost rev lb le + (T' + 1) - 1) / (T' + 1)) := by
    generalize levelCost cost rev lb le = x
    have := Nat.div_add_mod (x + (T' + 1) - 1) (T' + 1)
    have := Nat.mod_lt (x + (T' + 1) - 1) (show T' + 1 > 0 by omega)
    omega
  have hm : ∀ i j, lb ≤ i → i ≤ j → j < le → levelCost cost rev lb i ≤ levelCost cost rev lb j :=
    fun i j hi hij _ => levelCost_mono _ _ hi hij
  have hlast : ∀ i, lb ≤ i → i < le →
      levelCost cost rev lb i < (T' + 1) * ((levelCost cost rev lb le + (T' + 1) - 1) / (T' + 1)) := by
    intro i h1 h2
    refine Nat.lt_of_lt_of_le ?_ hper
    have h3 := levelCost_mono cost rev (lb := lb) (i := i + 1) (j := le) (by omega) h2
    rw [levelCost_succ _ _ h1] at h3
    have := hc i h1 h2
    omega
  unfold levelTasks
  cases agg with
  | false =>
    obtain ⟨h1, h2⟩ := partLoop_plain (lb := lb) hm hlast T' 0 lb lb (by omega) (Nat.le_refl _) (Nat.le_refl _) hle
    exact ⟨_, by simp, h2, h1⟩
  | true =>
    obtain ⟨h1, h2, h3⟩ := partLoop_agg (lb := lb) hm hlast T' 0 lb lb (by omega) (Nat.le_refl _) (Or.inl ⟨rfl, rfl, hle⟩)
    simp only [h3, if_true]
    refine ⟨_, rfl, ?_, cuts_replicate h1 _⟩
    rw [List.length_append, List.length_replicate]; omega

/-! ### Rows of tasks -/

/-- The rows at positions `be.1 .. be.2 - 1`. -/
def sliceOf (rev : Nat → Nat) (be : Nat × Nat) : List Nat := (List.range' be.1 (be.2 - be.1)).map rev

def taskRowsOf (rev : Nat → Nat) (P : List (Nat × Nat)) : List Nat := P.flatMap (sliceOf rev)

theorem taskRowsOf_append (rev : Nat → Nat) (P Q : List (Nat × Nat)) : taskRowsOf rev (P ++ Q) = taskRowsOf rev P ++ taskRowsOf rev Q := by
  simp [taskRowsOf]

theorem taskRowsOf_cuts {rev : Nat → Nat} {a c : Nat} {ts : List (Nat × Nat)} (h : Cuts a ts c) : taskRowsOf rev ts = sliceOf rev (a, c) := by
  induction ts generalizing a with
  | nil =>
    have : a = c := h
    subst this
    simp [taskRowsOf, sliceOf]
  | cons be ts ih =>
    obtain ⟨h1, h2, h3⟩ := h
    have h4 := cuts_le h3
    have e : taskRowsOf rev (be :: ts) = sliceOf rev be ++ taskRowsOf rev ts := by simp [taskRowsOf]
    rw [e, ih h3]
    unfold sliceOf
    simp only [h1]
    rw [← List.map_append, show c - a = (be.2 - a) + (c - be.2) by omega, ← List.range'_append_1]
    rw [show a + (be.2 - a) = be.2 by omega]

theorem flatMap_swap {α β γ : Type} (l : List α) (k : List β) (f : α → β → List γ) :
    (l.flatMap fun a => k.flatMap fun b => f a b).Perm (k.flatMap fun b => l.flatMap fun a => f a b) := by
  induction k with
  | nil => simp
  | cons b k ih =>
    simp only [List.flatMap_cons]
    exact (List.flatMap_append_perm l (fun a => f a b) (fun a => k.flatMap fun b => f a b)).symm.trans (ih.append_left _)

/-! ### Filling the arrays -/

/-- The permutation arrays hold the rows of `Q`. -/
def RowsFilled (Q : List Nat) (a : TaskArrays) : Prop := ∀ p x, Q[p]? = some x → a.t2o p = x ∧ a.o2t x = p

theorem rowsFilled_fillRows {rev : Nat → Nat} (js : List Nat) {Q : List Nat} {a : TaskArrays} (h : RowsFilled Q a)
    (hn : (Q ++ js.map rev).Nodup) :
    RowsFilled (Q ++ js.map rev) (fillRows rev js (Q.length, a)).2 ∧ (fillRows rev js (Q.length, a)).1 = (Q ++ js.map rev).length ∧
      (fillRows rev js (Q.length, a)).2.taskB = a.taskB := by
  induction js generalizing Q a with
  | nil => simpa [fillRows] using h
  | cons j js ih =>
    have e : Q ++ (j :: js).map rev = (Q ++ [rev j]) ++ js.map rev := by simp
    rw [e] at hn ⊢
    have hx : rev j ∉ Q := by
      have := (List.nodup_append.mp (List.nodup_append.mp hn).1).2.2
      intro hc; exact this _ hc _ (by simp) rfl
    have h1 : RowsFilled (Q ++ [rev j]) { a with o2t := setAt a.o2t (rev j) Q.length, t2o := setAt a.t2o Q.length (rev j) } := by
      intro p x hp
      by_cases hpl : p < Q.length
      · rw [List.getElem?_append_left hpl] at hp
        obtain ⟨h2, h3⟩ := h p x hp
        have hxQ : x ∈ Q := List.mem_of_getElem? hp
        constructor
        · show setAt a.t2o Q.length (rev j) p = x
          unfold setAt; rw [if_neg (by omega)]; exact h2
        · show setAt a.o2t (rev j) Q.length x = p
          unfold setAt; rw [if_neg (by rintro rfl; exact hx hxQ)]; exact h3
      · have hpe : p = Q.length := by
          have := (List.getElem?_eq_some_iff.mp hp).1
          simp at this; omega
        subst hpe
        rw [List.getElem?_append_right (Nat.le_refl _)] at hp
        simp at hp
        subst hp
        constructor
        · show setAt a.t2o Q.length (rev j) Q.length = _
          unfold setAt; rw [if_pos rfl]
        · show setAt a.o2t (rev j) Q.length (rev j) = _
          unfold setAt; rw [if_pos rfl]
    have h2 := ih h1 hn
    have e2 : fillRows rev (j :: js) (Q.length, a) = fillRows rev js ((Q ++ [rev j]).length,
        { a with o2t := setAt a.o2t (rev j) Q.length, t2o := setAt a.t2o Q.length (rev j) }) := by
      simp [fillRows]
    rw [e2]
    exact h2

/-- The arrays hold the tasks of `P`. -/
structure Filled (rev : Nat → Nat) (P : List (Nat × Nat)) (a : TaskArrays) : Prop where
  rows : RowsFilled (taskRowsOf rev P) a
  tasks : ∀ k, k < P.length → a.taskB k = (taskRowsOf rev (P.take k)).length

/-- The tasks that are kept. -/
def kept (useBarrier : Bool) (ts : List (Nat × Nat)) : List (Nat × Nat) := ts.filter fun be => useBarrier || decide (be.1 < be.2)

theorem taskRowsOf_kept (useBarrier : Bool) (rev : Nat → Nat) (ts : List (Nat × Nat)) : taskRowsOf rev (kept useBarrier ts) = taskRowsOf rev ts := by
  induction ts with
  | nil => rfl
  | cons be ts ih =>
    have e : taskRowsOf rev (be :: ts) = sliceOf rev be ++ taskRowsOf rev ts := by simp [taskRowsOf]
    unfold kept at ih ⊢
    by_cases hk : (useBarrier || decide (be.1 < be.2)) = true
    · rw [List.filter_cons, if_pos hk, e, ← ih]; simp [taskRowsOf]
    · rw [List.filter_cons, if_neg hk, e, ih]
      have : be.2 - be.1 = 0 := by
        simp only [Bool.or_eq_true, decide_eq_true_eq, not_or] at hk; omega
      simp [sliceOf, this]

theorem filled_fillThread {useBarrier : Bool} {rev : Nat → Nat} (ts : List (Nat × Nat)) {P : List (Nat × Nat)} {a : TaskArrays}
    (h : Filled rev P a) (hn : (taskRowsOf rev (P ++ kept useBarrier ts)).Nodup) :
    Filled rev (P ++ kept useBarrier ts) (fillThread useBarrier rev ts ((taskRowsOf rev P).length, P.length, a)).2.2 := by
  induction ts generalizing P a with
  | nil => simpa [fillThread, kept] using h
  | cons be ts ih =>
    by_cases hk : (useBarrier || decide (be.1 < be.2)) = true
    · have e : kept useBarrier (be :: ts) = be :: kept useBarrier ts := by
        unfold kept; rw [List.filter_cons, if_pos hk]
      have e' : P ++ kept useBarrier (be :: ts) = (P ++ [be]) ++ kept useBarrier ts := by rw [e]; simp
      rw [e'] at hn ⊢
      have hn1 : (taskRowsOf rev P ++ (List.range' be.1 (be.2 - be.1)).map rev).Nodup := by
        rw [taskRowsOf_append, taskRowsOf_append] at hn
        have := (List.nodup_append.mp hn).1
        simpa [taskRowsOf, sliceOf] using this
      have hr : RowsFilled (taskRowsOf rev P) { a with taskB := setAt a.taskB P.length (taskRowsOf rev P).length } := h.rows
      obtain ⟨h1, h2, h3⟩ := rowsFilled_fillRows (rev := rev) (List.range' be.1 (be.2 - be.1)) hr hn1
      have e1 : taskRowsOf rev (P ++ [be]) = taskRowsOf rev P ++ (List.range' be.1 (be.2 - be.1)).map rev := by simp [taskRowsOf, sliceOf]
      have hf : Filled rev (P ++ [be]) (fillRows rev (List.range' be.1 (be.2 - be.1))
          ((taskRowsOf rev P).length, { a with taskB := setAt a.taskB P.length (taskRowsOf rev P).length })).2 := by
        refine ⟨by rw [e1]; exact h1, ?_⟩
        intro k hk'
        rw [h3]
        show setAt a.taskB P.length (taskRowsOf rev P).length k = _
        rw [List.length_append, List.length_singleton] at hk'
        unfold setAt
        split
        · next hkk => subst hkk; simp
        · rw [List.take_append_of_le_length (by omega)]; exact h.tasks k (by omega)
      have := ih hf hn
      have e2 : fillThread useBarrier rev (be :: ts) ((taskRowsOf rev P).length, P.length, a) =
          fillThread useBarrier rev ts ((taskRowsOf rev (P ++ [be])).length, (P ++ [be]).length, (fillRows rev (List.range' be.1 (be.2 - be.1))
          ((taskRowsOf rev P).length, { a with taskB := setAt a.taskB P.length (taskRowsOf rev P).length })).2) := by
        unfold fillThread
        rw [List.foldl_cons, if_pos hk]
        simp only [h2, e1, List.length_append, List.length_singleton]
      rw [e2]; exact this
    · have e : kept useBarrier (be :: ts) = kept useBarrier ts := by
        unfold kept; rw [List.filter_cons, if_neg hk]
      rw [e] at hn ⊢
      have e2 : fillThread useBarrier rev (be :: ts) ((taskRowsOf rev P).length, P.length, a) =
          fillThread useBarrier rev ts ((taskRowsOf rev P).length, P.length, a) := by
        unfold fillThread
        rw [List.foldl_cons, if_neg hk]
      rw [e2]; exact ih h hn

/-- All tasks of the threads before `t`, in order. -/
def tasksBefore (useBarrier : Bool) (tr : List (List (Nat × Nat))) (t : Nat) : List (Nat × Nat) :=
  (List.range t).flatMap fun u => kept useBarrier (threadRow tr u)

theorem tasksBefore_succ (useBarrier : Bool) (tr : List (List (Nat × Nat))) (t : Nat) :
    tasksBefore useBarrier tr (t + 1) = tasksBefore useBarrier tr t ++ kept useBarrier (threadRow tr t) := by
  simp [tasksBefore, List.range_succ]

theorem taskCnt_eq (useBarrier : Bool) (tr : List (List (Nat × Nat))) (t : Nat) :
    taskCnt useBarrier tr t = (kept useBarrier (threadRow tr t)).length := by
  unfold taskCnt kept
  induction threadRow tr t with
  | nil => rfl
  | cons be ts ih =>
    rw [List.map_cons, List.sum_cons, ih, List.filter_cons]
    have e : (useBarrier || be.2 - be.1 != 0) = (useBarrier || decide (be.1 < be.2)) := by
      congr 1
      by_cases h : be.1 < be.2
      · simp [h]; omega
      · simp [h]; omega
    rw [e]
    split
    · rw [List.length_cons]; omega
    · omega

theorem rowSum_eq (rev : Nat → Nat) (tr : List (List (Nat × Nat))) (t : Nat) : rowSum tr t = (taskRowsOf rev (threadRow tr t)).length := by
  unfold rowSum taskRowsOf
  rw [List.length_flatMap]
  congr 1
  apply List.map_congr_left
  intro be _
  simp [sliceOf]

theorem overThreads_taskCnt (useBarrier : Bool) (tr : List (List (Nat × Nat))) (t : Nat) :
    overThreads (taskCnt useBarrier tr) t = (tasksBefore useBarrier tr t).length := by
  unfold overThreads tasksBefore
  rw [List.length_flatMap]
  congr 1
  apply List.map_congr_left
  intro u _
  exact taskCnt_eq _ _ _

theorem overThreads_rowSum (useBarrier : Bool) (rev : Nat → Nat) (tr : List (List (Nat × Nat))) (t : Nat) :
    overThreads (rowSum tr) t = (taskRowsOf rev (tasksBefore useBarrier tr t)).length := by
  induction t with
  | zero => rfl
  | succ t ih =>
    rw [tasksBefore_succ, taskRowsOf_append, List.length_append, ← ih, taskRowsOf_kept, ← rowSum_eq]
    unfold overThreads
    rw [List.range_succ, List.map_append, List.sum_append]
    simp

theorem filled_fillAll {useBarrier : Bool} {rev : Nat → Nat} {tr : List (List (Nat × Nat))} {a0 : TaskArrays} (T : Nat)
    (hn : (taskRowsOf rev (tasksBefore useBarrier tr T)).Nodup) :
    Filled rev (tasksBefore useBarrier tr T) (fillAll useBarrier rev tr T a0) := by
  induction T with
  | zero =>
    refine ⟨?_, ?_⟩
    · intro p x hp; simp [tasksBefore, taskRowsOf] at hp
    · intro k hk; simp [tasksBefore] at hk
  | succ T ih =>
    rw [tasksBefore_succ] at hn ⊢
    have h1 := ih (by rw [taskRowsOf_append] at hn; exact (List.nodup_append.mp hn).1)
    have h2 := filled_fillThread (threadRow tr T) h1 hn
    unfold fillAll at h2 ⊢
    rw [List.range_succ, List.foldl_append, List.foldl_cons, List.foldl_nil, overThreads_taskCnt, overThreads_rowSum useBarrier rev]
    exact h2

end SpMP
