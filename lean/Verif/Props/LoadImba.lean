import Verif.LoadImba
import Verif.Props.ReduceBarrier
import Mathlib.Algebra.BigOperators.Intervals
import Mathlib.Algebra.Order.BigOperators.Group.Finset

/-
C66: the load imbalance statistics.
-/
namespace SpMP.Props
open SpMP Finset

/-- Natural numbers with `std::max` as the operation of the reduction. -/
@[instance_reducible] def maxMonoid : AddCommMonoid Nat where
  add := Nat.max
  zero := 0
  add_assoc := Nat.max_assoc
  zero_add := Nat.zero_max
  add_zero := Nat.max_zero
  add_comm := Nat.max_comm
  nsmul := fun n x => if n = 0 then 0 else x
  nsmul_zero := fun _ => rfl
  nsmul_succ := fun n x => by
    show x = Nat.max (if n = 0 then 0 else x) x
    by_cases h : n = 0
    · rw [if_pos h]; exact (Nat.zero_max x).symm
    · rw [if_neg h]; exact (Nat.max_self x).symm

/-- `v` is the latest of the arrival times `a t` of `T` threads. -/
def IsLatest (T : Nat) (a : Nat → Nat) (v : Nat) : Prop := (∃ t, t < T ∧ a t = v) ∧ ∀ t, t < T → a t ≤ v

theorem max_sum_latest (a : Nat → Nat) (T : Nat) (hT : 0 < T) :
    IsLatest T a (@Finset.sum Nat Nat maxMonoid (range T) a) := by
  induction T with
  | zero => omega
  | succ n ih =>
    rw [@Finset.sum_range_succ Nat maxMonoid a n]
    show IsLatest (n + 1) a (Nat.max (@Finset.sum Nat Nat maxMonoid (range n) a) (a n))
    by_cases hn : n = 0
    · subst hn
      rw [show @Finset.sum Nat Nat maxMonoid (range 0) a = 0 from rfl]
      refine ⟨⟨0, by omega, (Nat.zero_max _).symm⟩, fun t ht => ?_⟩
      have : t = 0 := by omega
      subst this
      exact Nat.le_max_right _ _
    · obtain ⟨⟨t0, h0, e0⟩, hle⟩ := ih (by omega)
      refine ⟨?_, fun t ht => ?_⟩
      · by_cases h : @Finset.sum Nat Nat maxMonoid (range n) a ≤ a n
        · exact ⟨n, by omega, (Nat.max_eq_right h).symm⟩
        · exact ⟨t0, by omega, by rw [e0]; exact (Nat.max_eq_left (by omega)).symm⟩
      · by_cases e : t = n
        · subst e; exact Nat.le_max_right _ _
        · exact Nat.le_trans (hle t (by omega)) (Nat.le_max_left _ _)

/-- **C66, what is measured.**  In `N` episodes separated from each other, of a team whose threads
arrive at times `start t e`, the reducing barrier hands every thread the time of the latest arrival. -/
theorem C66_latest_partial {C P N : Nat} (hC : 0 < C) (hP : 0 < P) {start : Nat → Nat → Nat} {ls : Nat → RedL Nat}
    {g : RedG Nat} (h : ReduceHist C P Nat.max 0 start N ls g) {t e : Nat} (ht : t < C * P) (he : e < N) :
    IsLatest (C * P) (fun u => start u e) ((ls t).out e) := by
  have := (@ReduceHist.quiet Nat maxMonoid C P N start ls g hC hP h).2 t ht e he
  have hidem : ∀ v : Nat, @HAdd.hAdd Nat Nat Nat (@instHAdd Nat maxMonoid.toAdd) v v = v := Nat.max_self
  rw [this, show @redTot Nat maxMonoid C P start e = @Finset.sum Nat Nat maxMonoid (range (C * P)) (fun u => start u e)
    from by unfold redTot; rw [hidem]; exact ite_self _]
  exact max_sum_latest _ _ (by omega)

theorem sub64_le {a b : Nat} (h : b ≤ a) (ha : a < two64) : sub64 a b = a - b := by
  unfold sub64
  rw [show a + two64 - b = (a - b) + two64 from by omega, Nat.add_mod_right]
  exact Nat.mod_eq_of_lt (by omega)

/-- **C66, the statistics.**  After these episodes the entry `j` of the statistics of thread `t` describes exactly the
episodes `e` in which the thread named barrier `j`: their number, and the total, the smallest and the largest of the
times `latest e - start t e` that the thread has waited for the last one. -/
theorem C66_stats_partial {C P N : Nat} (hC : 0 < C) (hP : 0 < P) {start : Nat → Nat → Nat} {ls : Nat → RedL Nat}
    {g : RedG Nat} (h : ReduceHist C P Nat.max 0 start N ls g) (h64 : ∀ u e, start u e < two64)
    (latest : Nat → Nat) (hlate : ∀ e, e < N → IsLatest (C * P) (fun u => start u e) (latest e))
    {t : Nat} (ht : t < C * P) (num out : Nat → Nat) (j : Nat) :
    let l := limAfter num (start t) (ls t).out out N
    let E := (range N).filter fun e => num e = j
    l.cnt j = E.card % two64 ∧ l.tot j = (∑ e ∈ E, (latest e - start t e)) % two64 ∧
    (∀ e ∈ E, l.min j ≤ latest e - start t e ∧ latest e - start t e ≤ l.max j) ∧
    (E.Nonempty → (∃ e ∈ E, l.min j = latest e - start t e) ∧ ∃ e ∈ E, l.max j = latest e - start t e) := by
  have hlast : ∀ e, e < N → sub64 ((ls t).out e) (start t e) = latest e - start t e := by
    intro e he
    have h1 := C66_latest_partial hC hP h ht he
    have h2 := hlate e he
    have heq : (ls t).out e = latest e := by
      obtain ⟨⟨u, hu, eu⟩, hle⟩ := h1
      obtain ⟨⟨v, hv, ev⟩, hle'⟩ := h2
      have a := hle v hv
      have b := hle' u hu
      dsimp only at *
      omega
    rw [heq]
    obtain ⟨⟨v, hv, ev⟩, hle'⟩ := h2
    have := h64 v e
    exact sub64_le (hle' t ht) (by dsimp only at ev; omega)
  have key : ∀ n, n ≤ N →
      let l := limAfter num (start t) (ls t).out out n
      let E := (range n).filter fun e => num e = j
      l.cnt j = E.card % two64 ∧ l.tot j = (∑ e ∈ E, (latest e - start t e)) % two64 ∧
      (∀ e ∈ E, l.min j ≤ latest e - start t e ∧ latest e - start t e ≤ l.max j) ∧
      ((E = ∅ ∧ l.min j = two64 - 1 ∧ l.max j = 0) ∨
       ((∃ e ∈ E, l.min j = latest e - start t e) ∧ ∃ e ∈ E, l.max j = latest e - start t e)) := by
    intro n
    induction n with
    | zero =>
      intro _
      exact ⟨rfl, rfl, fun e he => by simp at he, .inl ⟨rfl, rfl, rfl⟩⟩
    | succ n ih =>
      intro hn
      obtain ⟨h1, h2, h3, h4⟩ := ih (by omega)
      have hc := hlast n (by omega)
      have hlt : latest n - start t n < two64 := by
        obtain ⟨⟨v, hv, ev⟩, _⟩ := hlate n (by omega)
        have := h64 v n
        dsimp only at ev
        omega
      by_cases hj : num n = j
      · have hE : (range (n + 1)).filter (fun e => num e = j) = insert n ((range n).filter fun e => num e = j) := by
          rw [range_add_one, filter_insert, if_pos hj]
        have hnot : n ∉ (range n).filter fun e => num e = j := by simp
        intro l E
        have hE' : E = insert n ((range n).filter fun e => num e = j) := hE
        have lcnt : l.cnt j = ((limAfter num (start t) (ls t).out out n).cnt j + 1) % two64 := by
          show upd1 _ (num n) _ j = _; rw [hj]; simp [upd1]
        have ltot : l.tot j = ((limAfter num (start t) (ls t).out out n).tot j + (latest n - start t n)) % two64 := by
          rw [← hc]; show upd1 _ (num n) _ j = _; rw [hj]; exact if_pos rfl
        have lmin : l.min j = Nat.min ((limAfter num (start t) (ls t).out out n).min j) (latest n - start t n) := by
          rw [← hc]; show upd1 _ (num n) _ j = _; rw [hj]; exact if_pos rfl
        have lmax : l.max j = Nat.max ((limAfter num (start t) (ls t).out out n).max j) (latest n - start t n) := by
          rw [← hc]; show upd1 _ (num n) _ j = _; rw [hj]; exact if_pos rfl
        refine ⟨?_, ?_, ?_, .inr ⟨?_, ?_⟩⟩
        · rw [lcnt, h1, hE', card_insert_of_notMem hnot, Nat.mod_add_mod]
        · rw [ltot, h2, hE', sum_insert hnot, Nat.mod_add_mod, Nat.add_comm]
        · intro e he
          rw [hE', mem_insert] at he
          rw [lmin, lmax]
          rcases he with rfl | he
          · exact ⟨Nat.min_le_right _ _, Nat.le_max_right _ _⟩
          · exact ⟨Nat.le_trans (Nat.min_le_left _ _) (h3 e he).1, Nat.le_trans (h3 e he).2 (Nat.le_max_left _ _)⟩
        · rw [lmin, hE']
          rcases h4 with ⟨_, a, _⟩ | ⟨⟨e, he, a⟩, _⟩
          · exact ⟨n, mem_insert_self _ _, by rw [a]; exact Nat.min_eq_right (by omega)⟩
          · by_cases hle : latest e - start t e ≤ latest n - start t n
            · exact ⟨e, mem_insert_of_mem he, by rw [a]; exact Nat.min_eq_left hle⟩
            · exact ⟨n, mem_insert_self _ _, by rw [a]; exact Nat.min_eq_right (by omega)⟩
        · rw [lmax, hE']
          rcases h4 with ⟨_, _, a⟩ | ⟨_, ⟨e, he, a⟩⟩
          · exact ⟨n, mem_insert_self _ _, by rw [a]; exact Nat.zero_max _⟩
          · by_cases hle : latest n - start t n ≤ latest e - start t e
            · exact ⟨e, mem_insert_of_mem he, by rw [a]; exact Nat.max_eq_left hle⟩
            · exact ⟨n, mem_insert_self _ _, by rw [a]; exact Nat.max_eq_right (by omega)⟩
      · have hE : (range (n + 1)).filter (fun e => num e = j) = (range n).filter fun e => num e = j := by
          rw [range_add_one, filter_insert, if_neg hj]
        intro l E
        have hE' : E = (range n).filter fun e => num e = j := hE
        have hne : ¬ j = num n := fun hh => hj hh.symm
        have lcnt : l.cnt j = (limAfter num (start t) (ls t).out out n).cnt j := by
          show upd1 _ (num n) _ j = _; simp only [upd1, if_neg hne]
        have ltot : l.tot j = (limAfter num (start t) (ls t).out out n).tot j := by
          show upd1 _ (num n) _ j = _; simp only [upd1, if_neg hne]
        have lmin : l.min j = (limAfter num (start t) (ls t).out out n).min j := by
          show upd1 _ (num n) _ j = _; simp only [upd1, if_neg hne]
        have lmax : l.max j = (limAfter num (start t) (ls t).out out n).max j := by
          show upd1 _ (num n) _ j = _; simp only [upd1, if_neg hne]
        rw [lcnt, ltot, lmin, lmax, hE']
        exact ⟨h1, h2, h3, h4⟩
  obtain ⟨h1, h2, h3, h4⟩ := key N (Nat.le_refl _)
  refine ⟨h1, h2, h3, fun hne => ?_⟩
  rcases h4 with ⟨a, _⟩ | a
  · rw [a] at hne; exact absurd hne (by simp)
  · exact a

/-- **C66, the time after the last arrival.**  If the cycle counter a thread reads after an episode is not before the
latest arrival, the remaining entry is the total of the times between the two. -/
theorem C66_after_partial {C P N : Nat} (hC : 0 < C) (hP : 0 < P) {start : Nat → Nat → Nat} {ls : Nat → RedL Nat}
    {g : RedG Nat} (h : ReduceHist C P Nat.max 0 start N ls g)
    (latest : Nat → Nat) (hlate : ∀ e, e < N → IsLatest (C * P) (fun u => start u e) (latest e))
    {t : Nat} (ht : t < C * P) (num out : Nat → Nat) (hout : ∀ e, e < N → latest e ≤ out e ∧ out e < two64) (j : Nat) :
    (limAfter num (start t) (ls t).out out N).bar j =
      (∑ e ∈ (range N).filter fun e => num e = j, (out e - latest e)) % two64 := by
  have hlast : ∀ e, e < N → sub64 (out e) ((ls t).out e) = out e - latest e := by
    intro e he
    obtain ⟨⟨u, hu, eu⟩, hle⟩ := C66_latest_partial hC hP h ht he
    obtain ⟨⟨v, hv, ev⟩, hle'⟩ := hlate e he
    have a := hle v hv
    have b := hle' u hu
    dsimp only at *
    rw [show (ls t).out e = latest e from by omega]
    exact sub64_le (hout e he).1 (hout e he).2
  have key : ∀ n, n ≤ N → (limAfter num (start t) (ls t).out out n).bar j =
      (∑ e ∈ (range n).filter fun e => num e = j, (out e - latest e)) % two64 := by
    intro n
    induction n with
    | zero => intro _; rfl
    | succ n ih =>
      intro hn
      have hc := hlast n (by omega)
      by_cases hj : num n = j
      · rw [range_add_one, filter_insert, if_pos hj, sum_insert (by simp), ← hc]
        show upd1 _ (num n) _ j = _
        rw [hj]
        refine (if_pos rfl).trans ?_
        rw [ih (by omega), Nat.mod_add_mod, Nat.add_comm]
      · rw [range_add_one, filter_insert, if_neg hj, ← ih (by omega)]
        show upd1 _ (num n) _ j = _
        exact if_neg fun hh => hj hh.symm
  exact key N (Nat.le_refl _)

/-- Three cores of one thread meet the hypotheses: arrival times 10, 30, 20 in the first episode. -/
example : ReduceHist 3 1 Nat.max 0 (fun t e => if t = 0 then 10 + e else if t = 1 then 30 + e else 20 + e) 0 (reduceStart 7)
    (reduceFresh0 7) := .init (reduceFresh0_fresh 7)
example : IsLatest 3 (fun t => if t = 0 then 10 else if t = 1 then 30 else 20) 30 :=
  ⟨⟨1, by omega, rfl⟩, fun t _ => by dsimp only; split <;> [omega; (split <;> omega)]⟩

/-- One complete episode of two single-threaded cores that arrive at times 100. -/
def limSched2 : List Nat := [0, 0, 0, 0, 0, 1, 1, 1, 1, 1, 1, 1, 1, 1, 1, 1, 0, 0, 0, 0, 0, 0]

theorem lim_episode (a b lg : Nat) (hlg : lg = synkRounds 2) (sched : List Nat) (hs : ∀ t ∈ sched, t < 2)
    (hx : (execSched (redNext 2 1 (nearestPow2 2) lg Nat.max 0 (fun t _ => if t = 0 then a else b) 1) sched
      (reduceStart 0) (reduceFresh0 0)).map
      (fun r => ((r.1 0).pc, (r.1 0).calls, (r.1 1).pc, (r.1 1).calls)) = some (.idle, 1, .idle, 1)) :
    ∃ ls g, ReduceHist 2 1 Nat.max 0 (fun t _ => if t = 0 then a else b) 1 ls g := by
  subst hlg
  cases hr : execSched (redNext 2 1 (nearestPow2 2) (synkRounds 2) Nat.max 0 (fun t _ => if t = 0 then a else b) 1) sched
      (reduceStart 0) (reduceFresh0 0) with
  | none => rw [hr] at hx; simp at hx
  | some r =>
    rw [hr] at hx
    simp only [Option.map_some, Option.some.injEq, Prod.mk.injEq] at hx
    refine ⟨r.1, r.2, .episode (.init (v := 0) (reduceFresh0_fresh 0))
      (execSched_reach _ (reduceMachine 2 1 Nat.max 0 (fun t _ => if t = 0 then a else b) 1) 2 (fun _ _ _ _ h => h)
        _ _ _ _ _ hs r hr TeamReach.init) ?_⟩
    intro t ht
    have : t = 0 ∨ t = 1 := by omega
    rcases this with rfl | rfl
    · exact ⟨hx.1, hx.2.1⟩
    · exact ⟨hx.2.2.1, hx.2.2.2⟩

/-- Histories of a complete episode exist: a thread arrives at 10 and the other at 35, the first has waited 25. -/
example : ∃ ls g, ReduceHist 2 1 Nat.max 0 (fun t _ => if t = 0 then 10 else 35) 1 ls g ∧
    (limAfter (fun _ => 0) (fun _ => 10) (ls 0).out (fun _ => 40) 1).tot 0 = 25 ∧
    (limAfter (fun _ => 0) (fun _ => 35) (ls 1).out (fun _ => 40) 1).tot 0 = 0 := by
  obtain ⟨ls, g, h⟩ := lim_episode 10 35 1 synkRounds_two.symm limSched2 (by decide) (by decide +kernel)
  have hl : ∀ e, e < 1 → IsLatest (2 * 1) (fun t => if t = 0 then 10 else 35) 35 := fun _ _ =>
    ⟨⟨1, by omega, rfl⟩, fun t _ => by dsimp only; split <;> omega⟩
  have h64 : ∀ u e : Nat, (fun t _ => if t = 0 then 10 else 35 : Nat → Nat → Nat) u e < two64 := by
    intro u e; dsimp only; unfold two64; split <;> omega
  have a := C66_stats_partial (by omega) (by omega) h h64 (fun _ => 35) hl (t := 0) (by omega) (fun _ => 0) (fun _ => 40) 0
  have b := C66_stats_partial (by omega) (by omega) h h64 (fun _ => 35) hl (t := 1) (by omega) (fun _ => 0) (fun _ => 40) 0
  exact ⟨ls, g, h, a.2.1.trans (by decide +kernel), b.2.1.trans (by decide +kernel)⟩

/-- Arrival times of the next witness: thread 0 at 10, thread 1 at 20 and, in its second call, at 5000. -/
def limOverlap : Nat → Nat → Nat := fun t e => if t = 0 then 10 else if e = 0 then 20 else 5000

/-- Two calls of the instrumented barrier with nothing but work between them, which is its use: thread 0 gets from its
first wait the time at which thread 1 has arrived at the second one, and is charged 4990 cycles of waiting where it was
10. -/
theorem C66_overlapping_false : ∃ ls g,
    TeamReach (reduceMachine 2 1 Nat.max 0 limOverlap 2) 2 (reduceStart 0) (reduceFresh0 0) ls g ∧ (ls 0).rets = 1 ∧
    IsLatest 2 (fun t => limOverlap t 0) 20 ∧
    (limAfter (fun _ => 0) (limOverlap 0) (ls 0).out (fun _ => 5010) 1).tot 0 = 4990 := by
  have hx : (execSched (redNext 2 1 (nearestPow2 2) (synkRounds 2) Nat.max 0 limOverlap 2)
      [0, 0, 0, 0, 0, 1, 1, 1, 1, 1, 1, 1, 1, 1, 1, 1, 1, 1, 1, 1, 0, 0, 0, 0, 0, 0] (reduceStart 0) (reduceFresh0 0)).map
      (fun r => ((r.1 0).rets, (r.1 0).out 0)) = some (1, 5000) := by
    rw [synkRounds_two]; decide +kernel
  cases hr : execSched (redNext 2 1 (nearestPow2 2) (synkRounds 2) Nat.max 0 limOverlap 2)
      [0, 0, 0, 0, 0, 1, 1, 1, 1, 1, 1, 1, 1, 1, 1, 1, 1, 1, 1, 1, 0, 0, 0, 0, 0, 0] (reduceStart 0) (reduceFresh0 0) with
  | none => rw [hr] at hx; simp at hx
  | some r =>
    rw [hr] at hx
    simp only [Option.map_some, Option.some.injEq, Prod.mk.injEq] at hx
    refine ⟨r.1, r.2, execSched_reach _ (reduceMachine 2 1 Nat.max 0 limOverlap 2) 2 (fun _ _ _ _ h => h) _ _ _ _ _
      (by simp) r hr TeamReach.init, hx.1, ⟨⟨1, by omega, rfl⟩, fun t _ => ?_⟩, ?_⟩
    · dsimp only [limOverlap]; split <;> [omega; (split <;> omega)]
    · have e : limOverlap 0 0 = 10 := by decide
      simp only [limAfter, limWait, limStat0, upd1, if_true, hx.2, e]
      decide +kernel

/-- `printLoadImbalance` subtracts the time spent in the barrier after the last arrival from the time spent before it,
without a sign.  Two threads that arrive together and leave 7 cycles later have no imbalance at all, and what is printed
is computed from 2^64 - 14. -/
theorem C66_printed_false : ∃ ls g, ReduceHist 2 1 Nat.max 0 (fun t _ => if t = 0 then 100 else 100) 1 ls g ∧
    limPrinted (fun t => limAfter (fun _ => 0) (fun _ => 100) (ls t).out (fun _ => 107) 1) 2 1 = two64 - 14 := by
  obtain ⟨ls, g, h⟩ := lim_episode 100 100 1 synkRounds_two.symm limSched2 (by decide) (by decide +kernel)
  have out : ∀ t, t < 2 → (ls t).out 0 = 100 := by
    intro t ht
    obtain ⟨⟨u, _, hu⟩, _⟩ := C66_latest_partial (by omega) (by omega) h (t := t) (e := 0) (by omega) (by omega)
    dsimp only at hu
    rw [← hu]; split <;> rfl
  refine ⟨ls, g, h, ?_⟩
  have e : ∀ t, t < 2 → (limAfter (fun _ => 0) (fun _ => 100) (ls t).out (fun _ => 107) 1).tot 0 = 0 ∧
      (limAfter (fun _ => 0) (fun _ => 100) (ls t).out (fun _ => 107) 1).bar 0 = 7 := by
    intro t ht
    simp only [limAfter, limWait, limStat0, upd1, if_true, out t ht]
    decide +kernel
  simp only [limPrinted, limTotal, List.range_succ, List.range_zero, List.nil_append, List.foldl_cons, List.foldl_nil,
    List.cons_append, e 0 (by omega), e 1 (by omega)]
  decide +kernel

/-- The lines of a report that are lines of the summary, in their order: what follows the line `summary`. -/
def summaryLines (out : List LimLine) : List LimRow :=
  ((out.dropWhile fun x => x ≠ .text "summary").filterMap fun x => match x with | .row r => some r | .text _ => none)

theorem filterMap_rows (l : List LimRow) :
    (l.map LimLine.row).filterMap (fun x => match x with | .row r => some r | .text _ => none) = l := by
  induction l with
  | nil => rfl
  | cons a l ih => simp

theorem dropWhile_rows (l : List LimRow) (rest : List LimLine) :
    (l.map LimLine.row ++ rest).dropWhile (fun x => x ≠ LimLine.text "summary") =
      rest.dropWhile (fun x => x ≠ LimLine.text "summary") := by
  induction l with
  | nil => rfl
  | cons a l ih => 
    rw [List.map_cons, List.cons_append, List.dropWhile_cons, if_pos (by simp)]
    exact ih

theorem summaryLines_print (all : Bool) (l : Nat → LimStat) (T U : Nat) :
    summaryLines (limPrint all l T U) = (List.range U).map (limSummary l T) := by
  have hs : ∀ pre : List LimRow, summaryLines (pre.map LimLine.row ++ ([LimLine.text "----"] ++ ([.text "summary"] ++ ((List.range U).map fun j => .row (limSummary l T j)) ++
      [.text "----"]))) = (List.range U).map (limSummary l T) := by
    intro pre
    unfold summaryLines
    rw [dropWhile_rows, List.cons_append, List.dropWhile_cons, if_pos (by simp), List.nil_append, List.append_assoc,
      List.cons_append, List.dropWhile_cons, if_neg (by simp), List.nil_append,
      show ((List.range U).map fun j => LimLine.row (limSummary l T j)) = ((List.range U).map (limSummary l T)).map LimLine.row
        from by rw [List.map_map]; rfl]
    rw [List.filterMap_cons_none rfl, List.filterMap_append, filterMap_rows]
    exact List.append_nil _
  have hd : ((List.range U).flatMap fun j => (List.range T).map fun i => LimLine.row (limDetail l j i)) =
      ((List.range U).flatMap fun j => (List.range T).map fun i => limDetail l j i).map LimLine.row := by
    rw [List.map_flatMap]
    simp only [List.map_map]
    rfl
  cases all with
  | true =>
    unfold limPrint
    rw [if_pos rfl, hd, List.append_assoc, List.append_assoc, List.append_assoc]
    refine Eq.trans ?_ (hs ((List.range U).flatMap fun j => (List.range T).map fun i => limDetail l j i))
    unfold summaryLines
    rw [List.cons_append, List.dropWhile_cons, if_pos (by simp), List.nil_append, List.append_assoc]
  | false =>
    refine Eq.trans ?_ (hs [])
    unfold limPrint summaryLines
    rw [if_neg (by simp), List.nil_append, List.map_nil, List.nil_append, List.cons_append, List.cons_append, List.dropWhile_cons,
      if_neg (by simp)]
    rfl

theorem limAcc_spec (l : Nat → LimStat) (j T : Nat) :
    (∀ i, i < T → (limAcc l j T).1 ≤ (l i).min j ∧ (l i).max j ≤ (limAcc l j T).2.1) ∧
    ((limAcc l j T).1 = two64 - 1 ∨ ∃ i, i < T ∧ (limAcc l j T).1 = (l i).min j) ∧
    ((limAcc l j T).2.1 = 0 ∨ ∃ i, i < T ∧ (limAcc l j T).2.1 = (l i).max j) ∧
    (limAcc l j T).2.2.1 = (∑ i ∈ range T, (l i).tot j) % two64 ∧
    (limAcc l j T).2.2.2 = (∑ i ∈ range T, (l i).bar j) % two64 := by
  induction T with
  | zero => exact ⟨fun i hi => by omega, .inl rfl, .inl rfl, rfl, rfl⟩
  | succ T ih =>
    obtain ⟨h1, h2, h3, h4, h5⟩ := ih
    have e : limAcc l j (T + 1) = (Nat.min (limAcc l j T).1 ((l T).min j), Nat.max (limAcc l j T).2.1 ((l T).max j),
        ((limAcc l j T).2.2.1 + (l T).tot j) % two64, ((limAcc l j T).2.2.2 + (l T).bar j) % two64) := by
      unfold limAcc
      rw [List.range_succ, List.foldl_append]
      rfl
    rw [e]
    dsimp only
    refine ⟨fun i hi => ?_, ?_, ?_, ?_, ?_⟩
    · by_cases hT : i = T
      · subst hT; exact ⟨Nat.min_le_right _ _, Nat.le_max_right _ _⟩
      · have := h1 i (by omega)
        exact ⟨Nat.le_trans (Nat.min_le_left _ _) this.1, Nat.le_trans this.2 (Nat.le_max_left _ _)⟩
    · by_cases hle : (limAcc l j T).1 ≤ (l T).min j
      · rw [show Nat.min (limAcc l j T).1 ((l T).min j) = _ from Nat.min_eq_left hle]
        rcases h2 with h | ⟨i, hi, h⟩
        · exact .inl h
        · exact .inr ⟨i, by omega, h⟩
      · exact .inr ⟨T, by omega, Nat.min_eq_right (by omega)⟩
    · by_cases hle : (l T).max j ≤ (limAcc l j T).2.1
      · rw [show Nat.max (limAcc l j T).2.1 ((l T).max j) = _ from Nat.max_eq_left hle]
        rcases h3 with h | ⟨i, hi, h⟩
        · exact .inl h
        · exact .inr ⟨i, by omega, h⟩
      · exact .inr ⟨T, by omega, Nat.max_eq_right (by omega)⟩
    · rw [h4, Nat.mod_add_mod, sum_range_succ]
    · rw [h5, Nat.mod_add_mod, sum_range_succ]

/-- **C66, the summary.**  The threads name the same barrier in every episode, `E` are the episodes that used barrier
`j`, at least one, and `wait t e`, `after t e` are the times from the arrival of thread `t` to the latest arrival and
from there to leaving.  If the totals fit 64 bits, the line of the summary for barrier `j` shows the number of threads,
the smallest and the largest wait of any thread in any of these episodes, the mean over the threads of the totals, the
number of episodes, and the mean wait and the mean time after, over threads and episodes, all means rounded down. -/
theorem C66_print_partial {C P N : Nat} (hC : 0 < C) (hP : 0 < P) {start : Nat → Nat → Nat} {ls : Nat → RedL Nat}
    {g : RedG Nat} (h : ReduceHist C P Nat.max 0 start N ls g) (h64 : ∀ u e, start u e < two64)
    (latest : Nat → Nat) (hlate : ∀ e, e < N → IsLatest (C * P) (fun u => start u e) (latest e))
    (num : Nat → Nat) (out : Nat → Nat → Nat)
    (hout : ∀ t e, t < C * P → e < N → latest e ≤ out t e ∧ out t e < two64) (all : Bool) {U j : Nat} (hj : j < U)
    (E : Finset Nat) (hE : E = (range N).filter fun e => num e = j) (hne : E.Nonempty) (hN : N < two64)
    (hwait : ∑ t ∈ range (C * P), ∑ e ∈ E, (latest e - start t e) < two64)
    (hafter : ∑ t ∈ range (C * P), ∑ e ∈ E, (out t e - latest e) < two64) :
    ∃ lo hi, (∃ t e, t < C * P ∧ e ∈ E ∧ lo = latest e - start t e) ∧ (∃ t e, t < C * P ∧ e ∈ E ∧ hi = latest e - start t e) ∧
    (∀ t e, t < C * P → e ∈ E → lo ≤ latest e - start t e ∧ latest e - start t e ≤ hi) ∧
    (summaryLines (limPrint all (fun t => limAfter num (start t) (ls t).out (out t) N) (C * P) U))[j]? = some
      { barrier := j, who := C * P, min := lo, max := hi
        tot := (∑ t ∈ range (C * P), ∑ e ∈ E, (latest e - start t e)) / (C * P)
        bar := (∑ t ∈ range (C * P), ∑ e ∈ E, (out t e - latest e)) / (C * P)
        cnt := E.card
        avg := (∑ t ∈ range (C * P), ∑ e ∈ E, (latest e - start t e)) / (C * P * E.card)
        barAvg := (∑ t ∈ range (C * P), ∑ e ∈ E, (out t e - latest e)) / (C * P * E.card) } := by
  have hT : 0 < C * P := Nat.mul_pos hC hP
  obtain ⟨T, hTe⟩ : ∃ T, T = C * P := ⟨_, rfl⟩
  have hst := fun t (ht : t < C * P) => C66_stats_partial hC hP h h64 latest hlate ht num (out t) j
  have hbar := fun t (ht : t < C * P) => C66_after_partial hC hP h latest hlate ht num (out t) (fun e he => hout t e ht he) j
  rw [← hE] at hst hbar
  dsimp only at hst
  generalize hl : (fun t => limAfter num (start t) (ls t).out (out t) N) = l
  have hst' : ∀ t, t < C * P → (l t).cnt j = E.card % two64 ∧ (l t).tot j = (∑ e ∈ E, (latest e - start t e)) % two64 ∧
      (∀ e ∈ E, (l t).min j ≤ latest e - start t e ∧ latest e - start t e ≤ (l t).max j) ∧
      (E.Nonempty → (∃ e ∈ E, (l t).min j = latest e - start t e) ∧ ∃ e ∈ E, (l t).max j = latest e - start t e) := by
    intro t ht; subst hl; exact hst t ht
  have hbar' : ∀ t, t < C * P → (l t).bar j = (∑ e ∈ E, (out t e - latest e)) % two64 := by
    intro t ht; subst hl; exact hbar t ht
  have hcard : E.card < two64 := by
    refine Nat.lt_of_le_of_lt ?_ hN
    rw [hE]
    exact (card_filter_le _ _).trans (by rw [card_range])
  have hpos : 0 < E.card := hne.card_pos
  obtain ⟨a1, a2, a3, a4, a5⟩ := limAcc_spec l j (C * P)
  have stot : (∑ i ∈ range (C * P), (l i).tot j) = ∑ t ∈ range (C * P), ∑ e ∈ E, (latest e - start t e) := by
    refine sum_congr rfl fun t ht => ?_
    rw [(hst' t (mem_range.1 ht)).2.1]
    refine Nat.mod_eq_of_lt (Nat.lt_of_le_of_lt ?_ hwait)
    exact Finset.single_le_sum (f := fun t => ∑ e ∈ E, (latest e - start t e)) (fun _ _ => Nat.zero_le _) ht
  have sbar : (∑ i ∈ range (C * P), (l i).bar j) = ∑ t ∈ range (C * P), ∑ e ∈ E, (out t e - latest e) := by
    refine sum_congr rfl fun t ht => ?_
    rw [hbar' t (mem_range.1 ht)]
    refine Nat.mod_eq_of_lt (Nat.lt_of_le_of_lt ?_ hafter)
    exact Finset.single_le_sum (f := fun t => ∑ e ∈ E, (out t e - latest e)) (fun _ _ => Nat.zero_le _) ht
  have hw64 : ∀ t e, t < C * P → e ∈ E → latest e - start t e < two64 := by
    intro t e ht he
    rw [hE, mem_filter, mem_range] at he
    obtain ⟨⟨v, _, ev⟩, _⟩ := hlate e he.1
    have := h64 v e
    dsimp only at ev
    omega
  refine ⟨(limAcc l j (C * P)).1, (limAcc l j (C * P)).2.1, ?_, ?_, ?_, ?_⟩
  · rcases a2 with h | ⟨i, hi, h⟩
    · obtain ⟨⟨e, he, hm⟩, _⟩ := (hst' 0 hT).2.2.2 hne
      refine ⟨0, e, hT, he, ?_⟩
      have h1 := (a1 0 hT).1
      have := hw64 0 e hT he
      omega
    · obtain ⟨⟨e, he, hm⟩, _⟩ := (hst' i hi).2.2.2 hne
      exact ⟨i, e, hi, he, h.trans hm⟩
  · rcases a3 with h | ⟨i, hi, h⟩
    · obtain ⟨_, ⟨e, he, hm⟩⟩ := (hst' 0 hT).2.2.2 hne
      refine ⟨0, e, hT, he, ?_⟩
      have h1 := (a1 0 hT).2
      omega
    · obtain ⟨_, ⟨e, he, hm⟩⟩ := (hst' i hi).2.2.2 hne
      exact ⟨i, e, hi, he, h.trans hm⟩
  · intro t e ht he
    have := (hst' t ht).2.2.1 e he
    have := a1 t ht
    omega
  · rw [summaryLines_print, List.getElem?_map, List.getElem?_range hj, Option.map_some]
    unfold limSummary
    dsimp only
    rw [(hst' 0 hT).1, Nat.mod_eq_of_lt hcard, a4, a5, stot, sbar, Nat.mod_eq_of_lt hwait, Nat.mod_eq_of_lt hafter]
    rw [if_neg (by omega), if_neg (by omega), Nat.div_div_eq_div_mul, Nat.div_div_eq_div_mul]

/-- **C66, the details.**  With `all`, the report starts with the details: the line of barrier `j` and thread `i` comes
`j * T + i + 1` lines after the start, and shows the entries of that thread and its own means. -/
theorem C66_details_partial (l : Nat → LimStat) {T U i j : Nat} (hi : i < T) (hj : j < U) :
    (limPrint true l T U)[j * T + i + 1]? = some (.row
      { barrier := j, who := i, min := (l i).min j, max := (l i).max j, tot := (l i).tot j, bar := (l i).bar j
        cnt := (l i).cnt j, avg := (l i).tot j / (l i).cnt j, barAvg := (l i).bar j / (l i).cnt j }) := by
  have key : ∀ (U j : Nat) (rest : List LimLine), j < U →
      (((List.range U).flatMap fun j => (List.range T).map fun i => LimLine.row (limDetail l j i)) ++ rest)[j * T + i]? =
        some (.row (limDetail l j i)) := by
    intro U
    induction U with
    | zero => intro j _ h; omega
    | succ U ih =>
      intro j rest h
      rw [List.range_succ, List.flatMap_append, List.append_assoc]
      by_cases e : j = U
      · subst e
        have hlen : ∀ n, ((List.range n).flatMap fun j => (List.range T).map fun i => LimLine.row (limDetail l j i)).length = n * T := by
          intro n
          induction n with
          | zero => simp
          | succ n ihn => rw [List.range_succ, List.flatMap_append, List.length_append, ihn, Nat.succ_mul]; simp
        rw [List.getElem?_append_right (by rw [hlen]; omega), hlen, Nat.add_sub_cancel_left]
        rw [List.flatMap_cons, List.flatMap_nil, List.append_nil, List.getElem?_append_left (by simp; omega),
          List.getElem?_map, List.getElem?_range hi]
        rfl
      · exact ih j _ (by omega)
  unfold limPrint
  rw [if_pos rfl, List.append_assoc, List.append_assoc, List.cons_append, List.getElem?_cons_succ, List.nil_append]
  rw [key U j _ hj]
  unfold limDetail
  by_cases hc : (l i).cnt j = 0
  · simp [hc]
  · simp [hc]

theorem limResetRow (T j : Nat) (l : Nat → LimStat) (i : Nat) :
    (List.range T).foldl (fun l i => upd1 l i (limResetAt j (l i))) l i = if i < T then limResetAt j (l i) else l i := by
  induction T with
  | zero => simp
  | succ T ih =>
    rw [List.range_succ, List.foldl_append, List.foldl_cons, List.foldl_nil]
    by_cases e : i = T
    · subst e
      rw [if_neg (Nat.lt_irrefl _)] at ih
      rw [if_pos (by omega)]
      show upd1 _ i _ i = _
      rw [upd1, if_pos rfl, ih]
    · show upd1 _ T _ i = _
      rw [upd1, if_neg e, ih]
      by_cases h : i < T
      · rw [if_pos h, if_pos (by omega)]
      · rw [if_neg h, if_neg (by omega)]

theorem limReset_at (T U : Nat) (l : Nat → LimStat) {i j : Nat} (hi : i < T) (hj : j < U) :
    let s := limReset T U l i
    s.min j = two64 - 1 ∧ s.max j = 0 ∧ s.tot j = 0 ∧ s.cnt j = 0 ∧ s.bar j = 0 := by
  induction U with
  | zero => omega
  | succ U ih =>
    have e : limReset T (U + 1) l i = limResetAt U (limReset T U l i) := by
      unfold limReset
      rw [List.range_succ, List.foldl_append, List.foldl_cons, List.foldl_nil, limResetRow, if_pos hi]
    rw [e]
    dsimp only [limResetAt]
    by_cases hU : j = U
    · subst hU
      simp [upd1]
    · obtain ⟨a, b, c, d, f⟩ := ih (by omega)
      simp only [upd1, if_neg hU]
      exact ⟨a, b, c, d, f⟩

/-- **C66, reset.**  After `reset`, whatever was measured before, the entries of every thread of the team are those of
the calls made since. -/
theorem C66_reset_partial (l : Nat → LimStat) {T U i j : Nat} (hi : i < T) (hj : j < U) (num start last out : Nat → Nat)
    (N : Nat) :
    let s := limFrom (limReset T U l i) num start last out N
    let f := limAfter num start last out N
    s.min j = f.min j ∧ s.max j = f.max j ∧ s.tot j = f.tot j ∧ s.cnt j = f.cnt j ∧ s.bar j = f.bar j := by
  induction N with
  | zero => exact limReset_at T U l hi hj
  | succ N ih =>
    obtain ⟨a, b, c, d, f⟩ := ih
    dsimp only [limFrom, limAfter, limWait]
    by_cases e : j = num N
    · subst e
      simp only [upd1, if_true, a, b, c, d, f, and_self]
    · simp only [upd1, if_neg e]
      exact ⟨a, b, c, d, f⟩

/-- After a call that waited 25 cycles and a reset, a call that waits 4 leaves 4 as the total and as the smallest wait. -/
example : let s := limReset 1 1 (fun _ => limAfter (fun _ => 0) (fun _ => 10) (fun _ => 35) (fun _ => 40) 1) 0
    (limFrom s (fun _ => 0) (fun _ => 50) (fun _ => 54) (fun _ => 60) 1).tot 0 = 4 ∧
    (limFrom s (fun _ => 0) (fun _ => 50) (fun _ => 54) (fun _ => 60) 1).min 0 = 4 := by decide +kernel

/-- The complete episode above meets the hypotheses: the summary of the waits 25 and 0 shows them, a total of 12 and a
mean of 12; the times after the latest arrival are 5 and 5. -/
example : ∃ ls g, ReduceHist 2 1 Nat.max 0 (fun t _ => if t = 0 then 10 else 35) 1 ls g ∧
    (summaryLines (limPrint true (fun t => limAfter (fun _ => 0) (fun _ => if t = 0 then 10 else 35) (ls t).out
      (fun _ => 40) 1) (2 * 1) 3))[0]? = some ⟨0, 2, 0, 25, 12, 5, 1, 12, 5⟩ := by
  obtain ⟨ls, g, h⟩ := lim_episode 10 35 1 synkRounds_two.symm limSched2 (by decide) (by decide +kernel)
  have hl : ∀ e, e < 1 → IsLatest (2 * 1) (fun t => if t = 0 then 10 else 35) 35 := fun _ _ =>
    ⟨⟨1, by omega, rfl⟩, fun t _ => by dsimp only; split <;> omega⟩
  have h64 : ∀ u e : Nat, (fun t _ => if t = 0 then 10 else 35 : Nat → Nat → Nat) u e < two64 := by
    intro u e; dsimp only; unfold two64; split <;> omega
  have e1 : ∑ t ∈ range (2 * 1), ∑ e ∈ range 1, ((fun _ => 35 : Nat → Nat) e - (if t = 0 then 10 else 35)) = 25 := by decide
  have e2 : ∑ t ∈ range (2 * 1), ∑ e ∈ range 1, ((fun _ _ => 40 : Nat → Nat → Nat) t e - (fun _ => 35 : Nat → Nat) e) = 10 := by decide
  obtain ⟨lo, hi, ⟨t, e, ht, he, hlo⟩, ⟨t', e', ht', he', hhi⟩, hle, hp⟩ := C66_print_partial (by omega) (by omega) h h64 (fun _ => 35) hl (fun _ => 0)
    (fun _ _ => 40) (fun _ _ _ _ => ⟨by omega, by unfold two64; omega⟩) true (U := 3) (j := 0) (by omega) (range 1)
    (by decide) (by simp) (by unfold two64; omega) (by rw [e1]; unfold two64; omega) (by rw [e2]; unfold two64; omega)
  refine ⟨ls, g, h, hp.trans ?_⟩
  have h0 := hle 0 0 (by omega) (by simp)
  have h1 := hle 1 0 (by omega) (by simp)
  have a : lo = 0 := by simp at h1; omega
  have b : hi = 25 := by
    simp at h0
    rw [hhi]; rw [hhi] at h0
    split at h0 <;> split <;> omega
  rw [a, b, e1, e2]
  rfl

/-- A barrier that has not been used is reported with a smallest wait of 2^64 - 1, above the largest. -/
theorem C66_unused_false : (summaryLines (limPrint false (fun _ => limStat0) 2 1))[0]? =
    some ⟨0, 2, 18446744073709551615, 0, 0, 0, 0, 0, 0⟩ := by decide +kernel

end SpMP.Props
