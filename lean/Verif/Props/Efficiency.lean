import Verif.Efficiency
import Mathlib.Data.List.Pairwise
import Mathlib.Data.List.Count
import Mathlib.Data.List.Sort
import Mathlib.Order.Nat

/-
C79: the rates that are reported.
-/
namespace SpMP.Props
open SpMP

/-- `t` is a median of `l`: one of its elements, with at most half of them smaller and at most half of them larger. -/
def IsMedian {T : Type} [LinearOrder T] (l : List T) (t : T) : Prop :=
  t ∈ l ∧ 2 * (l.filter fun x => x < t).length ≤ l.length ∧ 2 * (l.filter fun x => t < x).length ≤ l.length

/-- What `std::sort` promises. -/
def Sorts {T : Type} [LinearOrder T] (sort : List T → List T) : Prop := ∀ l, (sort l).Perm l ∧ (sort l).Pairwise (· ≤ ·)

theorem median_of_sorted {T : Type} [LinearOrder T] {s : List T} (hs : s.Pairwise (· ≤ ·)) {t : T}
    (ht : s[s.length / 2]? = some t) : IsMedian s t := by
  obtain ⟨hk, e⟩ := List.getElem?_eq_some_iff.1 ht
  have hsplit : s = s.take (s.length / 2) ++ t :: s.drop (s.length / 2 + 1) := by
    rw [← e, ← List.drop_eq_getElem_cons hk, List.take_append_drop]
  generalize hA : s.take (s.length / 2) = A at hsplit
  generalize hB : s.drop (s.length / 2 + 1) = B at hsplit
  have hAl : A.length = s.length / 2 := by rw [← hA, List.length_take]; omega
  have hBl : B.length = s.length - (s.length / 2 + 1) := by rw [← hB, List.length_drop]
  have hp := hs
  rw [hsplit, List.pairwise_append, List.pairwise_cons] at hp
  obtain ⟨_, ⟨h2, _⟩, h3⟩ := hp
  have c1 : (s.filter fun x => x < t).length ≤ A.length := by
    rw [hsplit, List.filter_append, List.filter_cons_of_neg (by simp)]
    rw [List.filter_eq_nil_iff (l := B) |>.2 (fun x hx => by have := h2 x hx; simpa using this), List.append_nil]
    exact List.length_filter_le _ _
  have c2 : (s.filter fun x => t < x).length ≤ B.length := by
    rw [hsplit, List.filter_append, List.filter_cons_of_neg (by simp)]
    rw [List.filter_eq_nil_iff (l := A) |>.2 (fun x hx => by have := h3 x hx t (by simp); simpa using this), List.nil_append]
    exact List.length_filter_le _ _
  exact ⟨by rw [← e]; exact List.getElem_mem _, by omega, by omega⟩

/-- **C79.**  For at least one measurement, none of them a NaN, the two rates printed are those of one and the same run, whose
time is a median of the first `repeat_` times of the array; these times are kept, in another order, and the rest of the
array is not touched. -/
theorem C79_median {T W O : Type} [LinearOrder T] {sort : List T → List T} (hsort : Sorts sort) (rate : W → T → O)
    (times : List T) {repeat_ : Nat} (hr : 0 < repeat_) (hlen : repeat_ ≤ times.length) (flop byte : W) :
    ∃ t s, printEfficiency sort rate times repeat_ flop byte = some ((rate flop t, rate byte t), s ++ times.drop repeat_) ∧
      IsMedian (times.take repeat_) t ∧ s.Perm (times.take repeat_) := by
  obtain ⟨hp, ho⟩ := hsort (times.take repeat_)
  have hl : (sort (times.take repeat_)).length = repeat_ := by
    rw [hp.length_eq, List.length_take]; omega
  have hk : repeat_ / 2 < (sort (times.take repeat_)).length := by omega
  have he : (sort (times.take repeat_))[(sort (times.take repeat_)).length / 2]? =
      some ((sort (times.take repeat_))[repeat_ / 2]) := by
    rw [hl]; exact List.getElem?_eq_getElem hk
  refine ⟨(sort (times.take repeat_))[repeat_ / 2], sort (times.take repeat_), ?_, ?_, hp⟩
  · unfold printEfficiency
    rw [if_neg (by omega)]
    dsimp only
    rw [List.getElem?_append_left hk, List.getElem?_eq_getElem hk]
  · obtain ⟨a, b, c⟩ := median_of_sorted ho he
    refine ⟨hp.subset a, ?_, ?_⟩
    · rw [← hp.length_eq, ← (hp.filter _).length_eq]; exact b
    · rw [← hp.length_eq, ← (hp.filter _).length_eq]; exact c

/-- A sort exists, and the times 5, 1, 4, 2 (of an array of 5) are reported by the run of 4. -/
theorem sorts_insertionSort : Sorts (fun l : List Nat => l.insertionSort (· ≤ ·)) := fun l =>
  ⟨List.perm_insertionSort _ l, List.pairwise_insertionSort _ l⟩
example : printEfficiency (fun l : List Nat => l.insertionSort (· ≤ ·)) (fun w t => w / t) [5, 1, 4, 2, 9] 4 80 16 =
    some ((20, 4), [1, 2, 4, 5, 9]) := by decide +kernel

/-- Without a measurement, in an array without elements, the access is outside of it. -/
theorem C79_no_runs_ub {T W O : Type} [LinearOrder T] {sort : List T → List T} (hsort : Sorts sort) (rate : W → T → O)
    (flop byte : W) : printEfficiency sort rate [] 0 flop byte = none := by
  have : sort [] = [] := List.Perm.eq_nil (hsort []).1
  unfold printEfficiency
  simp [this]

end SpMP.Props
