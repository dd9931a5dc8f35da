import Verif.Prog
/-
Loop rules with natural-number counters. Models no particular function.
-/

namespace SpMP

section
variable {A : Type} [DecidableEq A] {ty : A → Type} {σ : Type} {sz : A → Int} {W R : A → Int → Prop}

/-- `for (i = lo + b; i < hi + b; ++i)`. -/
theorem wp_forN {lo hi : Nat} {b : Int} {s : σ} {body : Int → σ → Prog ty σ} {m : Mem ty} {Q : σ → Mem ty → Prop}
    (I : Nat → σ → Mem ty → Prop) (hle : lo ≤ hi) (h0 : I lo s m)
    (hstep : ∀ (i : Nat) (s : σ) (m : Mem ty), lo ≤ i → i < hi → I i s m → wp sz W R (body ((i : Int) + b) s) m (fun s' m' => I (i + 1) s' m'))
    (hQ : ∀ s m, I hi s m → Q s m) {lo' hi' : Int} (e1 : lo' = (lo : Int) + b) (e2 : hi' = (hi : Int) + b) :
    wp sz W R (Prog.forUp lo' hi' s body) m Q := by
  subst e1; subst e2
  refine wp_forUp (I := fun i s m => ∃ n : Nat, i = (n : Int) + b ∧ lo ≤ n ∧ n ≤ hi ∧ I n s m) ?_ ?_ ?_
  · exact ⟨lo, rfl, Nat.le_refl _, hle, h0⟩
  · rintro i s m h1 h2 ⟨n, rfl, h3, h4, h5⟩
    refine wp_mono (hstep n s m h3 (by omega) h5) ?_
    intro s' m' h; exact ⟨n + 1, by omega, by omega, by omega, h⟩
  · rintro s m ⟨n, h1, h3, h4, h5⟩
    obtain rfl : n = hi := by omega
    exact hQ s m h5

/-- `for (i = hi + b - 1; i >= lo + b; --i)`: `I i` holds when `i ..< hi` are done. -/
theorem wp_forDownN {lo hi : Nat} {b : Int} {s : σ} {body : Int → σ → Prog ty σ} {m : Mem ty} {Q : σ → Mem ty → Prop}
    (I : Nat → σ → Mem ty → Prop) (hle : lo ≤ hi) (h0 : I hi s m)
    (hstep : ∀ (i : Nat) (s : σ) (m : Mem ty), lo ≤ i → i < hi → I (i + 1) s m →
      wp sz W R (body ((i : Int) + b) s) m (fun s' m' => I i s' m'))
    (hQ : ∀ s m, I lo s m → Q s m) {lo' hi' : Int} (e1 : lo' = (lo : Int) + b) (e2 : hi' = (hi : Int) + b) :
    wp sz W R (Prog.forDown hi' lo' s body) m Q := by
  subst e1; subst e2
  refine wp_forDown (I := fun i s m => ∃ n : Nat, i = (n : Int) + b ∧ lo ≤ n ∧ n ≤ hi ∧ I n s m) ?_ ?_ ?_
  · exact ⟨hi, rfl, hle, Nat.le_refl _, h0⟩
  · rintro i s m h1 h2 ⟨n, h6, h3, h4, h5⟩
    obtain ⟨n', rfl⟩ : ∃ n', n = n' + 1 := ⟨n - 1, by omega⟩
    obtain rfl : i = (n' : Int) + b := by omega
    refine wp_mono (hstep n' s m (by omega) (by omega) h5) ?_
    intro s' m' h; exact ⟨n', by omega, by omega, by omega, h⟩
  · rintro s m ⟨n, h1, h3, h4, h5⟩
    obtain rfl : n = lo := by omega
    exact hQ s m h5

end

end SpMP
