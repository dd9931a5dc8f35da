import Verif.RelyGuar
import Verif.SpinCore
/-
The rely-guarantee rule for teams whose threads spin on a cell between pieces of straight code. Models no particular function.
-/

namespace SpMP

section
variable {A : Type} [DecidableEq A] {ty : A → Type} {C α β σ Γ : Type}

/-- `a` is a possible result of `p`, in some memory. -/
def Prog.Ret : Prog ty α → α → Prop
  | .ret b, a => a = b
  | .rd _ _ k, a => ∃ v, (k v).Ret a
  | .wr _ _ _ k, a => k.Ret a
  | .rmw _ _ _ k, a => ∃ v, (k v).Ret a
  | .fail, _ => False

theorem Prog.ret_bind {p : Prog ty α} {f : α → Prog ty β} {b : β} (h : (p >>= f).Ret b) : ∃ a, p.Ret a ∧ (f a).Ret b := by
  change (p.bind f).Ret b at h
  induction p with
  | ret a => exact ⟨a, rfl, h⟩
  | rd a i k ih => obtain ⟨v, hv⟩ := h; obtain ⟨x, h1, h2⟩ := ih v hv; exact ⟨x, ⟨v, h1⟩, h2⟩
  | wr a i v k ih => exact ih h
  | rmw a i g k ih => obtain ⟨v, hv⟩ := h; obtain ⟨x, h1, h2⟩ := ih v hv; exact ⟨x, ⟨v, h1⟩, h2⟩
  | fail => exact h.elim

theorem Prog.ret_step {sz : A → Int} {p p' : Prog ty α} {m m' : Mem ty} (h : Step sz p m p' m') {a : α} (ha : p'.Ret a) : p.Ret a := by
  cases h with
  | rd h => exact ⟨_, ha⟩
  | wr => exact ha
  | rmw => exact ⟨_, ha⟩

/-- A thread makes finitely many steps when its control points descend. -/
theorem spin_acc {sz : A → Int} {S : Spin ty C} {lt : C → C → Prop} (hwf : WellFounded lt)
    (hdesc : ∀ c c', S.stop c = false → (S.code c).Ret c' → lt c' c) (l : SState ty C) :
    Acc (fun l' l => ∃ m m', SpinStep sz S l m l' m') l := by
  have hrun : ∀ p : Prog ty C, (∀ c, p.Ret c → Acc (fun l' l => ∃ m m', SpinStep sz S l m l' m') (SState.at c)) →
      Acc (fun l' l => ∃ m m', SpinStep sz S l m l' m') (SState.run p) := by
    intro p
    have hp := prog_acc (ty := ty) sz p
    induction hp with
    | intro p _ ih =>
      intro hc
      constructor
      rintro l' ⟨m, m', h⟩
      cases h with
      | exec h => exact ih _ ⟨m, m', h⟩ (fun c hr => hc c (Prog.ret_step h hr))
      | leave => exact hc _ rfl
  have hat : ∀ c, Acc (fun l' l => ∃ m m', SpinStep sz S l m l' m') (SState.at c) := by
    intro c
    induction c using hwf.induction with
    | h c ih =>
      constructor
      rintro l' ⟨m, m', h⟩
      cases h with
      | enter h1 h2 => exact hrun _ (fun c' hr => ih c' (hdesc c c' h1 hr))
  cases l with
  | «at» c => exact hat c
  | run p => exact hrun p (fun c _ => hat c)

/-- What a thread of the team satisfies in local state `l`. -/
def SpinLocal (sz : A → Int) (Inv : Γ → Mem ty → Prop) (Rely Guar : Γ → Mem ty → Γ → Mem ty → Prop) (P : C → Γ → Mem ty → Prop) :
    SState ty C → Γ → Mem ty → Prop
  | .at c, g, m => P c g m
  | .run p, g, m => wpRG sz Inv Rely Guar p g m P

/-- Rely-guarantee rule for a team of spinning threads: `P t c` is what thread `t` knows at control point `c`. -/
theorem spin_rule {sz : A → Int} {S : Spin ty C} {n : Nat} {c0 : Nat → C} {m0 : Mem ty} {Post : Mem ty → Prop}
    (Inv : Γ → Mem ty → Prop) (Rely Guar : Nat → Γ → Mem ty → Γ → Mem ty → Prop) (P : Nat → C → Γ → Mem ty → Prop)
    {lt : C → C → Prop} (hwf : WellFounded lt) (hdesc : ∀ c c', S.stop c = false → (S.code c).Ret c' → lt c' c)
    (hrefl : ∀ t g m, Rely t g m g m)
    (htrans : ∀ t g1 m1 g2 m2 g3 m3, Rely t g1 m1 g2 m2 → Rely t g2 m2 g3 m3 → Rely t g1 m1 g3 m3)
    (hGR : ∀ t u g m g' m', t < n → u < n → t ≠ u → Inv g m → Inv g' m' → Guar t g m g' m' → Rely u g m g' m')
    (hstable : ∀ t c g m g' m', t < n → Inv g m → Inv g' m' → P t c g m → Rely t g m g' m' → P t c g' m')
    (hinit : ∀ t c g m x, t < n → Inv g m → P t c g m → S.stop c = false → S.guard c = some x → ∃ v, m x.1 x.2.1 = some v)
    (hcode : ∀ t c g m, t < n → Inv g m → P t c g m → S.stop c = false → S.Open c m → wpRG sz Inv (Rely t) (Guar t) (S.code c) g m (P t))
    (hprog : ∀ g m (cs : Nat → C), Inv g m → (∀ t, t < n → P t (cs t) g m) → (∃ t, t < n ∧ S.stop (cs t) = false) →
      ∃ t, t < n ∧ S.stop (cs t) = false ∧ S.Open (cs t) m)
    (hpost : ∀ g m (cs : Nat → C), Inv g m → (∀ t, t < n → P t (cs t) g m ∧ S.stop (cs t) = true) → Post m)
    {g0 : Γ} (h0 : Inv g0 m0) (hP : ∀ t, t < n → P t (c0 t) g0 m0) :
    TeamOk (S.machine sz) n (fun _ m => Post m) (fun t => .at (c0 t)) m0 := by
  refine teamOk_of_inv (M := S.machine sz) (fun ls m => ∃ g, Inv g m ∧ ∀ t, t < n → SpinLocal sz Inv (Rely t) (Guar t) (P t) (ls t) g m)
    (spin_acc hwf hdesc) ?_ ?_ ?_ ?_ ⟨g0, h0, hP⟩
  · rintro ls m t l' m' ⟨g, hI, hL⟩ ht hs
    change SpinStep sz S (ls t) m l' m' at hs
    -- the others survive a step of thread t
    have others : ∀ g2, Inv g2 m' → Guar t g m g2 m' → ∀ u, u < n → u ≠ t →
        SpinLocal sz Inv (Rely u) (Guar u) (P u) (updT ls t l' u) g2 m' := by
      intro g2 hI2 hG u hu hne
      rw [updT_other _ _ hne]
      have hr := hGR t u g m g2 m' ht hu (Ne.symm hne) hI hI2 hG
      have hl := hL u hu
      cases e : ls u with
      | «at» c => rw [e] at hl; exact hstable u c g m g2 m' hu hI hI2 hl hr
      | run p => rw [e] at hl; exact wpRG_rely (htrans u) hl hr
    have same : ∀ u, u < n → u ≠ t → SpinLocal sz Inv (Rely u) (Guar u) (P u) (updT ls t l' u) g m := by
      intro u hu hne; rw [updT_other _ _ hne]; exact hL u hu
    have hl := hL t ht
    have hget : updT ls t l' t = l' := by simp [updT]
    cases e : ls t with
    | «at» c =>
      rw [e] at hs hl
      cases hs with
      | enter h1 h2 =>
        refine ⟨g, hI, fun u hu => ?_⟩
        by_cases hne : u = t
        · subst hne; rw [hget]; exact hcode u c g m hu hI hl h1 h2
        · exact same u hu hne
    | run p =>
      rw [e] at hs hl
      cases hs with
      | leave =>
        refine ⟨g, hI, fun u hu => ?_⟩
        by_cases hne : u = t
        · subst hne; rw [hget]; exact hl g m (hrefl u g m) hI
        · exact same u hu hne
      | exec h =>
        cases h with
        | rd hv =>
          obtain ⟨v, h1, g2, h2, h3, h4⟩ := hl g m (hrefl t g m) hI
          rw [hv] at h1; cases h1
          refine ⟨g2, h3, fun u hu => ?_⟩
          by_cases hne : u = t
          · subst hne; rw [hget]; exact h4
          · exact others g2 h3 h2 u hu hne
        | wr =>
          obtain ⟨_, _, g2, h2, h3, h4⟩ := hl g m (hrefl t g m) hI
          refine ⟨g2, h3, fun u hu => ?_⟩
          by_cases hne : u = t
          · subst hne; rw [hget]; exact h4
          · exact others g2 h3 h2 u hu hne
        | rmw hv =>
          obtain ⟨_, _, v, h1, g2, h2, h3, h4⟩ := hl g m (hrefl t g m) hI
          rw [hv] at h1; cases h1
          refine ⟨g2, h3, fun u hu => ?_⟩
          by_cases hne : u = t
          · subst hne; rw [hget]; exact h4
          · exact others g2 h3 h2 u hu hne
  · rintro ls m t ⟨g, hI, hL⟩ ht hb
    change SpinBad sz S (ls t) m at hb
    have hl := hL t ht
    cases e : ls t with
    | «at» c =>
      rw [e] at hb hl
      obtain ⟨h1, x, h2, h3⟩ := hb
      obtain ⟨v, hv⟩ := hinit t c g m x ht hI hl h1 h2
      rw [h3] at hv; cases hv
    | run p =>
      rw [e] at hb hl
      cases p with
      | ret a => exact hb
      | rd a i k => obtain ⟨v, h1, _⟩ := hl g m (hrefl t g m) hI; change m a i = none at hb; rw [hb] at h1; cases h1
      | wr a i v k => obtain ⟨h1, h2, _⟩ := hl g m (hrefl t g m) hI; exact hb ⟨h1, h2⟩
      | rmw a i f k =>
        obtain ⟨h1, h2, v, h3, _⟩ := hl g m (hrefl t g m) hI
        rcases hb with hb | hb
        · rw [hb] at h3; cases h3
        · exact hb ⟨h1, h2⟩
      | fail => exact hl
  · rintro ls m ⟨g, hI, hL⟩ hx
    by_cases hrun : ∃ t, t < n ∧ ∃ p, ls t = .run p
    · obtain ⟨t, ht, p, e⟩ := hrun
      have hl := hL t ht
      rw [e] at hl
      change wpRG sz Inv (Rely t) (Guar t) p g m (P t) at hl
      cases p with
      | ret c => exact ⟨t, .at c, m, ht, by show SpinStep sz S (ls t) m _ _; rw [e]; exact .leave⟩
      | rd a i k =>
        obtain ⟨v, h1, _⟩ := hl g m (hrefl t g m) hI
        exact ⟨t, .run (k v), m, ht, by show SpinStep sz S (ls t) m _ _; rw [e]; exact .exec (.rd h1)⟩
      | wr a i v k =>
        obtain ⟨h1, h2, _⟩ := hl g m (hrefl t g m) hI
        exact ⟨t, .run k, _, ht, by show SpinStep sz S (ls t) m _ _; rw [e]; exact .exec (.wr h1 h2)⟩
      | rmw a i f k =>
        obtain ⟨h1, h2, v, h3, _⟩ := hl g m (hrefl t g m) hI
        exact ⟨t, .run (k v), _, ht, by show SpinStep sz S (ls t) m _ _; rw [e]; exact .exec (.rmw h3 h1 h2)⟩
      | fail => exact hl.elim
    · have hat : ∀ t, ∃ c, t < n → ls t = .at c := by
        intro t
        by_cases ht : t < n
        · cases e : ls t with
          | «at» c => exact ⟨c, fun _ => rfl⟩
          | run p => exact absurd ⟨t, ht, p, e⟩ hrun
        · exact ⟨c0 0, fun h => absurd h ht⟩
      obtain ⟨cs, hcs⟩ := Classical.axiomOfChoice hat
      have hPs : ∀ t, t < n → P t (cs t) g m := by
        intro t ht
        have := hL t ht
        rw [hcs t ht] at this
        exact this
      obtain ⟨t, ht, hnf⟩ := hx
      change ¬ SpinFinal S (ls t) at hnf
      rw [hcs t ht] at hnf
      obtain ⟨u, hu, h1, h2⟩ := hprog g m cs hI hPs ⟨t, ht, by simpa [SpinFinal] using hnf⟩
      exact ⟨u, .run (S.code (cs u)), m, hu, by show SpinStep sz S (ls u) m _ _; rw [hcs u hu]; exact .enter h1 h2⟩
  · rintro ls m ⟨g, hI, hL⟩ hfin
    have hat : ∀ t, ∃ c, t < n → ls t = .at c ∧ S.stop c = true := by
      intro t
      by_cases ht : t < n
      · have h := hfin t ht
        change SpinFinal S (ls t) at h
        cases e : ls t with
        | «at» c => rw [e] at h; exact ⟨c, fun _ => ⟨rfl, h⟩⟩
        | run p => rw [e] at h; exact h.elim
      · exact ⟨c0 0, fun h => absurd h ht⟩
    obtain ⟨cs, hcs⟩ := Classical.axiomOfChoice hat
    refine hpost g m cs hI fun t ht => ?_
    have := hL t ht
    rw [(hcs t ht).1] at this
    exact ⟨this, (hcs t ht).2⟩

end

end SpMP
