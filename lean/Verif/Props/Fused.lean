import Verif.Fused
import Verif.TaskPart
/-
Property theorems C37 (fused schedules).
-/

namespace SpMP.Props
open SpMP SpMP.Spec

theorem fuseLayout_mono (tp : Nat → List Nat) (len : Nat → Nat) {a b : Nat} (h : a ≤ b) : (fuseLayout tp len a).2 ≤ (fuseLayout tp len b).2 := by
  induction b, h using Nat.le_induction with
  | base => exact Nat.le_refl _
  | succ b _ ih => exact Nat.le_trans ih (Nat.le_add_right _ _)

/-- C37 for a task whose list is not longer than the room reserved for it, or that is the last one: its list is read back unchanged. Missing for the
full claim: the code does not guarantee the hypothesis, see C37_overlap_false. -/
theorem C37_room_partial (tp : Nat → List Nat) (len : Nat → Nat) (ntasks : Nat) {task : Nat} (ht : task < ntasks)
    (h : (tp task).length ≤ len task ∨ task + 1 = ntasks) : fuseRead tp len ntasks task = tp task := by
  have key : ∀ n, task < n → n ≤ ntasks → ∀ k, k < (tp task).length → (fuseLayout tp len n).1 ((fuseLayout tp len task).2 + k) = (tp task).getD k 0 := by
    intro n
    induction n with
    | zero => intro h; omega
    | succ n ih =>
      intro h1 h2 k hk
      show copyTo (fuseLayout tp len n).1 (fuseLayout tp len n).2 (tp n) _ = _
      unfold copyTo
      by_cases he : task = n
      · subst he
        rw [if_pos ⟨by omega, by omega⟩]
        congr 1; omega
      · have h3 := fuseLayout_mono tp len (a := task + 1) (b := n) (by omega)
        have h4 : (fuseLayout tp len (task + 1)).2 = (fuseLayout tp len task).2 + len task := rfl
        have h5 : (tp task).length ≤ len task := by omega
        rw [if_neg (by omega)]
        exact ih (by omega) (by omega) k hk
  unfold fuseRead
  apply List.ext_getElem
  · simp
  · intro i h1 h2
    simp only [List.getElem_map, List.getElem_range]
    rw [key ntasks ht (Nat.le_refl _) i h2, List.getD_eq_getElem?_getD, List.getElem?_eq_getElem h2]; rfl

/-- The hypotheses of `C37_room_partial` are met by a concrete case. -/
example : fuseRead (fun k => List.replicate k k) (fun k => k) 4 3 = [3, 3, 3] :=
  C37_room_partial (fun k => List.replicate k k) (fun k => k) 4 (by decide) (Or.inl (by simp))

/-- The 2x2 identity pattern. -/
def eye2 : Csr Int := ⟨2, 2, fun i => i, fun j => j, fun _ => 1⟩

/-- Its schedule for two threads: one level, one row per thread. -/
def eye2S : Schedule := ((taskPartition false false 2 2 (fun _ => 1) [[0, 1]] ⟨fun _ => 0, fun _ => 0, fun _ => 0⟩).map TaskPartition.sched).getD
  ⟨0, 0, 0, fun _ => 0, fun _ => 0, fun _ => 0, fun _ => [], fun _ => []⟩

/-- Parent lists and lengths of the inverse adjacency lists as the code computes them for `eye2`. -/
def eye2Parents : Nat → List Nat := fuseParents eye2S eye2 (fun i => i) (taskAdj eye2S eye2 (fun i => i) (fun i => i + 1))
def eye2Len (k : Nat) : Nat := (taskInv (allInvEvents eye2S eye2 (fun i => i) (fun i => i + 1) true) k).length

/-- C37 is false: for two independent rows on two threads, the list computed for task 0 is [0] (wait for itself) but the list handed out is [1]: task
0's list is overwritten by task 1's. -/
theorem C37_overlap_false : eye2S.T = 2 ∧ eye2S.ntasks = 2 ∧ eye2Parents 0 = [0] ∧ eye2Parents 1 = [1] ∧
    fuseRead eye2Parents eye2Len 2 0 = [1] := by
  decide

end SpMP.Props
