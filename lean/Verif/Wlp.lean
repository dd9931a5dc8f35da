import Verif.Script
/-
Partial correctness of a team of one thread, on top of an already established `ParOk`. Models no particular function.
-/

namespace SpMP

section
variable {A : Type} [DecidableEq A] {ty : A → Type} {α β σ : Type} {sz : A → Int}

/-- If `p`, run alone from `m`, returns, then result and memory satisfy `Q`. -/
def wlp : Prog ty α → Mem ty → (α → Mem ty → Prop) → Prop
  | .ret a, m, Q => Q a m
  | .rd a i k, m, Q => ∀ v, m a i = some v → wlp (k v) m Q
  | .wr a i v k, m, Q => wlp k (m.set a i v) Q
  | .rmw a i f k, m, Q => ∀ v, m a i = some v → wlp (k v) (m.set a i (f v)) Q
  | .fail, _, _ => True

theorem wlp_mono {p : Prog ty α} {Q Q' : α → Mem ty → Prop} (hq : ∀ a m', Q a m' → Q' a m') :
    ∀ {m : Mem ty}, wlp p m Q → wlp p m Q' := by
  induction p with
  | ret a => intro m h; exact hq _ _ h
  | rd a i k ih => intro m h v hv; exact ih v (h v hv)
  | wr a i v k ih => intro m h; exact ih h
  | rmw a i f k ih => intro m h v hv; exact ih v (h v hv)
  | fail => intro m h; exact h

theorem wlp_bind {p : Prog ty α} {f : α → Prog ty β} {Q : β → Mem ty → Prop} :
    ∀ {m : Mem ty}, wlp p m (fun a m' => wlp (f a) m' Q) → wlp (p >>= f) m Q := by
  show ∀ {m : Mem ty}, wlp p m (fun a m' => wlp (f a) m' Q) → wlp (p.bind f) m Q
  induction p with
  | ret a => intro m h; exact h
  | rd a i k ih => intro m h v hv; exact ih v (h v hv)
  | wr a i v k ih => intro m h; exact ih h
  | rmw a i f k ih => intro m h v hv; exact ih v (h v hv)
  | fail => intro m _; exact trivial

theorem wlp_loopUp {body : Int → σ → Prog ty σ} (I : Int → σ → Mem ty → Prop) (n : Nat) :
    ∀ (lo : Int) (s : σ) (m : Mem ty) {Q : σ → Mem ty → Prop}, I lo s m →
      (∀ i s m, lo ≤ i → i < lo + n → I i s m → wlp (body i s) m (fun s' m' => I (i + 1) s' m')) →
      (∀ s m, I (lo + n) s m → Q s m) → wlp (Prog.loopUp body n lo s) m Q := by
  induction n with
  | zero => intro lo s m Q h0 _ hQ; exact hQ _ _ (by simpa using h0)
  | succ n ih =>
    intro lo s m Q h0 hstep hQ
    refine wlp_bind (wlp_mono ?_ (hstep lo s m (Int.le_refl _) (by omega) h0))
    intro s' m' h'
    refine ih (lo + 1) s' m' h' ?_ ?_
    · intro i s m h1 h2 h; exact hstep i s m (by omega) (by push_cast; omega) h
    · intro s m h; refine hQ s m ?_
      rwa [show lo + ((n + 1 : Nat) : Int) = lo + 1 + n by push_cast; omega]

theorem wlp_forUp {lo hi : Int} {s : σ} {body : Int → σ → Prog ty σ} {m : Mem ty} {Q : σ → Mem ty → Prop}
    (I : Int → σ → Mem ty → Prop) (h0 : I lo s m)
    (hstep : ∀ i s m, lo ≤ i → i < hi → I i s m → wlp (body i s) m (fun s' m' => I (i + 1) s' m'))
    (hQ : ∀ s m, I (max lo hi) s m → Q s m) : wlp (Prog.forUp lo hi s body) m Q := by
  unfold Prog.forUp
  refine wlp_loopUp I _ lo s m h0 ?_ ?_
  · intro i s m h1 h2 h; exact hstep i s m h1 (by omega) h
  · intro s m h; refine hQ s m ?_
    rwa [show lo + ((hi - lo).toNat : Int) = max lo hi by omega] at h

/-- A team of one thread. -/
theorem ParOk.wlp [Races A] {P : (Nat → α) → Mem ty → Prop} {Q : α → Mem ty → Prop} {ts : Nat → Prog ty α} {m : Mem ty}
    (h : ParOk sz 1 P ts m) (hq : SpMP.wlp (ts 0) m Q) : ParOk sz 1 (fun r m' => P r m' ∧ Q (r 0) m') ts m := by
  induction h with
  | @mk ts m h1 h2 hr h3 ih =>
    refine ParOk.mk h1 ?_ hr ?_
    · intro r hr
      refine ⟨h2 r hr, ?_⟩
      rw [hr 0 (by omega)] at hq
      exact hq
    · intro ts' m' hst
      refine ih ts' m' hst ?_
      obtain ⟨t, ht, p', hs, rfl⟩ := hst
      obtain rfl : t = 0 := by omega
      show SpMP.wlp (if 0 = 0 then p' else ts 0) m' Q
      rw [if_pos rfl]
      revert hq hs
      generalize ts 0 = p
      intro hq hs
      cases hs with
      | rd hv => exact hq _ hv
      | wr _ _ => exact hq
      | rmw hv _ _ => exact hq _ hv

end

end SpMP
