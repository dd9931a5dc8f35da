import Verif.IntRange
import Verif.PrefixSum
/-
prefixSumMultiple (/repo/PrefixSum.cpp:28-63) with the index arithmetic in 32-bit ints. Left unchecked: the sums themselves (they
depend on what the caller stores) and the increments of loop counters.
-/

namespace SpMP

set_option linter.unusedSectionVars false

variable [Races PArr]

/-- PrefixSum.cpp:28-63 prefixSumMultiple, index arithmetic checked. See `prefixSumMultiple`. -/
def prefixSumMultipleC (T n : Nat) : Script PTy Unit :=
  .phase (psSize T n) T (fun tid =>                   -- lines 33-36
      Prog.forUp 0 n () (fun i _ => do
        let v ← Prog.read (ty := PTy) (.io tid) i
        let t1 ← iAdd tid 1
        let a ← iMul t1 n
        let a ← iAdd a i
        Prog.write (ty := PTy) .ws a v)) fun _ =>
  .phase (psSize T n) T (fun tid =>                   -- lines 39-57, omp master
      if tid = 0 then do
        Prog.forUp 0 n () (fun i _ => Prog.write (ty := PTy) .ws i (0 : Int))
        Prog.forUp 1 T () (fun t _ =>
          Prog.forUp 0 n () (fun i _ => do
            let t1 ← iAdd t 1
            let a ← iMul t1 n
            let a ← iAdd a i
            let b ← iMul t n
            let b ← iAdd b i
            let x ← Prog.read (ty := PTy) .ws a
            let y ← Prog.read (ty := PTy) .ws b
            Prog.write (ty := PTy) .ws a (x + y : Int)))
        Prog.forUp 0 n () (fun i _ => do
          let a ← iMul (T : Int) n
          let a ← iAdd a i
          let s ← Prog.read (ty := PTy) .ws a
          Prog.write (ty := PTy) .sum i s)
      else pure ()) fun _ =>
  .phase (psSize T n) T (fun tid =>                   -- lines 60-62
      Prog.forUp 0 n () (fun i _ => do
        let a ← iMul (tid : Int) n
        let a ← iAdd a i
        let v ← Prog.read (ty := PTy) .ws a
        Prog.write (ty := PTy) (.io tid) i v)) fun _ =>
  .done ()

theorem ps_index {T n : Nat} {t i : Int} (hb : ((T : Int) + 1) * n ≤ 2147483648) (h0 : 0 ≤ t) (h1 : t ≤ T) (h2 : 0 ≤ i) (h3 : i < n) :
    InInt (t * n) ∧ InInt (t * n + i) := by
  have g1 : (t + 1) * n ≤ ((T : Int) + 1) * n := Int.mul_le_mul_of_nonneg_right (by omega) (by omega)
  have e : (t + 1) * n = t * n + n := by ring
  have g2 : 0 ≤ t * n := Int.mul_nonneg h0 (by omega)
  exact ⟨⟨by omega, by omega⟩, ⟨by omega, by omega⟩⟩

theorem sim_prefixSumMultiple {T n : Nat} {m0 : Mem PTy} (hT : (T : Int) ≤ 2147483647) (hb : ((T : Int) + 1) * n ≤ 2147483648) :
    Script.Sim (fun _ => False) m0 (prefixSumMultipleC T n) (prefixSumMultiple T n) := by
  unfold prefixSumMultipleC prefixSumMultiple
  refine .phase _ _ (fun _ _ => True) _ _ _ _ (fun t ht => Prog.Sim.forUp' fun i h1 h2 => ?_) fun _ _ => ?_
  · have g := ps_index hb (t := (t : Int) + 1) (by omega) (by omega) h1 h2
    refine Prog.Sim.bind Prog.Sim.read fun v _ => sim_ck ⟨by omega, by omega⟩ (sim_ck g.1 (sim_ck g.2 (Prog.Sim.write id)))
  refine .phase _ _ (fun _ _ => True) _ _ _ _ (fun t ht => ?_) fun _ _ => ?_
  · refine Prog.Sim.ite (fun _ => ?_) fun _ => .ret _ trivial
    refine Prog.Sim.bind (Prog.Sim.refl _) fun _ _ => Prog.Sim.bind (Prog.Sim.forUp' fun t h1 h2 => Prog.Sim.forUp' fun i h3 h4 => ?_) fun _ _ =>
      Prog.Sim.forUp' fun i h3 h4 => ?_
    · have g := ps_index hb (t := t + 1) (by omega) (by omega) h3 h4
      have g' := ps_index hb (t := t) (by omega) (by omega) h3 h4
      exact sim_ck ⟨by omega, by omega⟩ (sim_ck g.1 (sim_ck g.2 (sim_ck g'.1 (sim_ck g'.2 (Prog.Sim.refl _)))))
    · have g := ps_index hb (t := T) (by omega) (by omega) h3 h4
      exact sim_ck g.1 (sim_ck g.2 (Prog.Sim.refl _))
  refine .phase _ _ (fun _ _ => True) _ _ _ _ (fun t ht => Prog.Sim.forUp' fun i h1 h2 => ?_) fun _ _ => .done _
  have g := ps_index hb (t := (t : Int)) (by omega) (by omega) h1 h2
  exact sim_ck g.1 (sim_ck g.2 (Prog.Sim.refl _))

end SpMP
