import Verif.BitVector
import Mathlib.Algebra.BigOperators.Group.List.Basic
/-
Property theorems C47 (concurrent bit vector).
-/

namespace SpMP.Props
open SpMP

/-- The constructor clears every element, for every schedule of its parallel loop. -/
theorem C47_constructor {sz : Unit → Int} {n : Nat} {m0 : Mem BvTy} (hsz : (n : Int) ≤ sz ()) :
    ParOk sz n (fun _ m => HoldsFlags m n (fun _ => false)) (fun i => bvInit i) m0 := by
  refine par_rule (W := fun t _ i => i = (t : Int)) (R := fun t _ i => i = (t : Int))
    (Q := fun t _ m => m () (t : Int) = some 0#8) ?_ ?_ ?_
  · rintro t u a i _ _ htu rfl h; omega
  · intro t ht
    unfold bvInit
    unfold wp
    exact ⟨rfl, by omega, by omega, by rw [show (Prog.ret () : BvProg Unit) = pure () from rfl, wp_pure]; simp [Mem.set]⟩
  · intro r m hq _ i hi
    obtain ⟨mt, h1, h2⟩ := hq i hi
    rw [h2 () i rfl]; exact h1

/-- C47: any number of threads, each running any program of get, set, testAndSet and atomicClear calls (later calls may depend on
earlier results), in any interleaving of the underlying byte accesses. There is one sequence of all the calls, containing each
thread's calls in program order with the results it got, that is a correct sequential execution on a set of flags ending in the
final contents of the bit vector. `C47_one_winner` says what such a sequence means for testAndSet. -/
theorem C47_linear {α : Type} {T n : Nat} {s0 : Flags} {sz : Unit → Int} {c : Nat → BvClient α} {m0 : Mem BvTy}
    (hsz : (n : Int) ≤ sz ()) (hm : HoldsFlags m0 n s0) (hin : ∀ t, t < T → (c t).InRange n) :
    ParOk sz T (fun r m => ∃ log s, Legal s0 log s ∧ HoldsFlags m n s ∧ (∀ e ∈ log, e.1 < T) ∧
      ∀ t, t < T → (c t).Trace (callsOf t log) (r t)) (fun t => (c t).prog) m0 :=
  bv_linear hsz hm hin

/-- C47: in a sequence of calls without a clear or set of element `i`, starting with the element clear, exactly one testAndSet
of `i` returns true if there is any; starting with the element set, none does. Afterwards the element is set if it was set
before or a testAndSet took place. -/
theorem C47_one_winner {s s' : Flags} {l : List (Nat × BvOp × Bool)} (h : Legal s l s') {i : Nat}
    (hl : ∀ e ∈ l, e.2.1 ≠ .clear i ∧ e.2.1 ≠ .set i) :
    (l.filter fun e => e.2 = (.testAndSet i, true)).length = (if s i = false ∧ (∃ e ∈ l, e.2.1 = .testAndSet i) then 1 else 0) ∧
    s' i = (s i || decide (∃ e ∈ l, e.2.1 = .testAndSet i)) :=
  h.winners hl

/-- A thread that calls testAndSet on the given elements and returns the results. -/
def tasClient : List Nat → List Bool → BvClient (List Bool)
  | [], acc => .done acc
  | i :: is, acc => .call (.testAndSet i) fun b => tasClient is (acc ++ [b])

theorem tasClient_inRange {n : Nat} (es : List Nat) : ∀ acc, (∀ i ∈ es, i < n) → (tasClient es acc).InRange n := by
  induction es with
  | nil => intro acc _; trivial
  | cons i es ih => intro acc h; exact ⟨h i List.mem_cons_self, fun b => ih _ (fun j hj => h j (List.mem_cons_of_mem _ hj))⟩

theorem tasClient_trace (es : List Nat) : ∀ {acc l r}, (tasClient es acc).Trace l r →
    ∃ bs : List Bool, bs.length = es.length ∧ r = acc ++ bs ∧ l = (es.zip bs).map fun x => (BvOp.testAndSet x.1, x.2) := by
  induction es with
  | nil => rintro acc l r ⟨rfl, rfl⟩; exact ⟨[], rfl, by simp, rfl⟩
  | cons i es ih =>
    rintro acc l r ⟨b, l', rfl, h⟩
    obtain ⟨bs, h1, h2, h3⟩ := ih h
    exact ⟨b :: bs, by simp [h1], by simp [h2], by simp [h3]⟩

theorem calls_sum {T : Nat} (P : BvOp × Bool → Bool) (log : List (Nat × BvOp × Bool)) (h : ∀ e ∈ log, e.1 < T) :
    ((List.range T).map fun t => (callsOf t log).countP P).sum = log.countP fun e => P e.2 := by
  induction log with
  | nil => simp [callsOf]
  | cons e log ih =>
    have ih := ih (fun x hx => h x (List.mem_cons_of_mem _ hx))
    have he := h e List.mem_cons_self
    rw [List.countP_cons, ← ih]
    have hsplit : ∀ t, (callsOf t (e :: log)).countP P = (callsOf t log).countP P + (if e.1 = t then (if P e.2 then 1 else 0) else 0) := by
      intro t
      rw [show e :: log = [e] ++ log from rfl, callsOf_append, List.countP_append]
      obtain ⟨u, x⟩ := e
      by_cases hu : u = t
      · subst hu; rw [callsOf_self]; simp [List.countP_cons]; omega
      · rw [callsOf_other hu]; simp [hu]
    simp only [hsplit]
    rw [List.sum_map_add]
    congr 1
    clear ih hsplit h
    obtain ⟨u, x⟩ := e
    have he : u < T := he
    have : ∀ T, ((List.range T).map fun t => if u = t then (if P x then 1 else 0) else 0).sum = if u < T then (if P x then 1 else 0) else 0 := by
      intro T
      induction T with
      | zero => simp
      | succ T ih =>
        rw [List.range_succ, List.map_append, List.sum_append, ih]
        by_cases h1 : u < T
        · have h2 : u ≠ T := by omega
          have h3 : u < T + 1 := by omega
          simp [h1, h2, h3]
        · by_cases h2 : u = T
          · subst h2; simp
          · have h3 : ¬ u < T + 1 := by omega
            simp [h1, h2, h3]
    have := this T
    rw [if_pos he] at this
    exact this

/-- C47 for threads that only call testAndSet: over all threads and all calls on element `i`, exactly one returns true if `i` was
clear and some thread called it, none otherwise; afterwards an element is set if it was set or called. -/
theorem C47_testAndSet {T n : Nat} {s0 : Flags} {sz : Unit → Int} {es : Nat → List Nat} {m0 : Mem BvTy}
    (hsz : (n : Int) ≤ sz ()) (hm : HoldsFlags m0 n s0) (hin : ∀ t, t < T → ∀ i ∈ es t, i < n) :
    ParOk sz T (fun r m => (∀ t, t < T → (r t).length = (es t).length) ∧ ∀ i, i < n →
      ((List.range T).map fun t => ((es t).zip (r t)).countP fun x => x = (i, true)).sum =
        (if s0 i = false ∧ (∃ t, t < T ∧ i ∈ es t) then 1 else 0) ∧
      ∃ b : Bool, m () (i : Int) = some (flagByte b) ∧ (b = true ↔ s0 i = true ∨ ∃ t, t < T ∧ i ∈ es t))
      (fun t => (tasClient (es t) []).prog) m0 := by
  refine ParOk.mono (bv_linear hsz hm (fun t ht => tasClient_inRange (es t) [] (hin t ht))) ?_
  rintro r m ⟨log, s, hl, hh, hthr, htr⟩
  have key : ∀ t, t < T → (r t).length = (es t).length ∧ callsOf t log = ((es t).zip (r t)).map fun x => (BvOp.testAndSet x.1, x.2) := by
    intro t ht
    obtain ⟨bs, h1, h2, h3⟩ := tasClient_trace _ (htr t ht)
    rw [List.nil_append] at h2
    subst h2
    exact ⟨h1, h3⟩
  refine ⟨fun t ht => (key t ht).1, ?_⟩
  intro i hi
  have hmem : ∀ e ∈ log, ∃ j, j ∈ es e.1 ∧ e.2.1 = .testAndSet j := by
    intro e he
    have ht := hthr e he
    have : e.2 ∈ callsOf e.1 log := List.mem_map.mpr ⟨e, List.mem_filter.mpr ⟨he, by simp⟩, rfl⟩
    rw [(key _ ht).2] at this
    obtain ⟨x, hx, hx2⟩ := List.mem_map.mp this
    exact ⟨x.1, (List.of_mem_zip hx).1, by rw [← hx2]⟩
  obtain ⟨w1, w2⟩ := hl.winners (i := i) (by
    intro e he
    obtain ⟨j, _, h⟩ := hmem e he
    rw [h]; exact ⟨by simp, by simp⟩)
  have hex : (∃ e ∈ log, e.2.1 = BvOp.testAndSet i) ↔ ∃ t, t < T ∧ i ∈ es t := by
    constructor
    · rintro ⟨e, he, h⟩
      obtain ⟨j, h1, h2⟩ := hmem e he
      rw [h] at h2
      cases h2
      exact ⟨e.1, hthr e he, h1⟩
    · rintro ⟨t, ht, h⟩
      obtain ⟨k1, k2⟩ := key t ht
      obtain ⟨q, hq, rfl⟩ := List.mem_iff_getElem.mp h
      have hb : q < (r t).length := by omega
      have : (BvOp.testAndSet (es t)[q], (r t)[q]) ∈ callsOf t log := by
        rw [k2]
        refine List.mem_map.mpr ⟨((es t)[q], (r t)[q]), ?_, rfl⟩
        refine List.mem_iff_getElem.mpr ⟨q, by rw [List.length_zip]; omega, ?_⟩
        rw [List.getElem_zip]
      obtain ⟨e, he, h2⟩ := List.mem_map.mp this
      exact ⟨e, (List.mem_filter.mp he).1, by rw [h2]⟩
  refine ⟨?_, s i, hh i hi, ?_⟩
  · have h1 := calls_sum (fun x => decide (x = (BvOp.testAndSet i, true))) log hthr
    rw [List.countP_eq_length_filter, w1] at h1
    simp only [hex] at h1
    rw [← h1]
    congr 1
    refine List.map_congr_left ?_
    intro t ht
    rw [(key t (List.mem_range.mp ht)).2, List.countP_map]
    refine List.countP_congr ?_
    rintro ⟨a, b⟩ _
    simp
  · rw [w2]
    simp only [hex]
    simp

-- three threads on two elements, one of them set at the start
example : ParOk (fun _ => 2) 3 (fun r m => (∀ t, t < 3 → (r t).length = 2) ∧ ∀ i, i < 2 →
      ((List.range 3).map fun t => (([0, 1] : List Nat).zip (r t)).countP fun x => x = (i, true)).sum = (if i = 0 then 1 else 0))
      (fun _ => (tasClient [0, 1] []).prog) (fun _ i => if i = 0 then some 0#8 else some 1#8) := by
  refine ParOk.mono (C47_testAndSet (n := 2) (s0 := fun i => i != 0) (es := fun _ => [0, 1]) (by decide) ?_ ?_) ?_
  · intro i hi
    match i, hi with
    | 0, _ => rfl
    | 1, _ => rfl
  · intro t _ i hi
    simp at hi; omega
  · rintro r m ⟨h1, h2⟩
    refine ⟨h1, fun i hi => ?_⟩
    rw [(h2 i hi).1]
    match i, hi with
    | 0, _ => simp; exact ⟨0, by omega⟩
    | 1, _ => simp

end SpMP.Props
