import Verif.Spin
import Verif.Wlp
/-
Teams whose threads have cells of their own, read cells nobody writes, and share other cells under an invariant. A thread is reasoned
about with its own view of memory and what it knows about the shared cells. Models no particular function.
-/

namespace SpMP

variable {A : Type} [DecidableEq A] {ty : A → Type} {Γ κ : Type}

/-- A team: `Own t` are the cells only thread `t` writes, `Loc t` those of them the invariant does not mention, `Const` the cells nobody
writes, `Inv` the invariant, `X t` how the others may change the shared cells, `K t` what thread `t` may know about them. -/
structure OwnEnv {A : Type} (ty : A → Type) (Γ κ : Type) where
  sz : A → Int
  T : Nat
  m0 : Mem ty
  Own : Nat → A → Int → Prop
  Loc : Nat → A → Int → Prop
  Const : A → Int → Prop
  Inv : Γ → Mem ty → Prop
  X : Nat → Γ → Mem ty → Γ → Mem ty → Prop
  K : Nat → κ → Γ → Mem ty → Prop

namespace OwnEnv

variable (E : OwnEnv ty Γ κ)

def Rely (t : Nat) (g : Γ) (m : Mem ty) (g' : Γ) (m' : Mem ty) : Prop := (∀ a i, E.Own t a i → m' a i = m a i) ∧ E.X t g m g' m'

def Guar (t : Nat) (g : Γ) (m : Mem ty) (g' : Γ) (m' : Mem ty) : Prop := ∀ u, u < E.T → u ≠ t → E.Rely u g m g' m'

structure Ok : Prop where
  disj : ∀ t u a i, t < E.T → u < E.T → t ≠ u → E.Own t a i → ¬ E.Own u a i
  con_own : ∀ t a i, t < E.T → E.Const a i → ¬ E.Own t a i
  const : ∀ g m a i, E.Inv g m → E.Const a i → m a i = E.m0 a i
  refl : ∀ t g m, E.X t g m g m
  trans : ∀ t g1 m1 g2 m2 g3 m3, E.X t g1 m1 g2 m2 → E.X t g2 m2 g3 m3 → E.X t g1 m1 g3 m3
  stable : ∀ t x g m g' m', t < E.T → E.Inv g m → E.Inv g' m' → E.K t x g m → E.Rely t g m g' m' → E.K t x g' m'
  loc_own : ∀ t a i, E.Loc t a i → E.Own t a i
  loc_inv : ∀ t g m a i v, t < E.T → E.Inv g m → E.Loc t a i → E.Inv g (m.set a i v)
  loc_X : ∀ t u g m a i v, t < E.T → u < E.T → u ≠ t → E.Inv g m → E.Loc t a i → E.X u g m g (m.set a i v)
  loc_K : ∀ t x g m a i v, t < E.T → E.Inv g m → E.K t x g m → E.Loc t a i → E.K t x g (m.set a i v)

/-- `m1` is thread `t`'s view of `m`. -/
def Agree (t : Nat) (m m1 : Mem ty) : Prop := ∀ a i, E.Own t a i ∨ E.Const a i → m a i = m1 a i

/-- Thread `t`, with view `m1` and knowledge `x`. -/
def LB {α : Type} (t : Nat) (p : Prog ty α) (m1 : Mem ty) (x : κ) (Q : α → Mem ty → κ → Prop) : Prop :=
  ∀ g m, E.Inv g m → E.K t x g m → E.Agree t m m1 →
    wpRG E.sz E.Inv (E.Rely t) (E.Guar t) p g m (fun a g' m' => ∃ m1' x', E.Agree t m' m1' ∧ E.K t x' g' m' ∧ Q a m1' x')

variable {E}

/-- Another thread's cells survive a write to an own cell. -/
theorem Ok.rely_set (hE : E.Ok) {t u : Nat} {g g' : Γ} {m : Mem ty} {a : A} {i : Int} {v : ty a} (ht : t < E.T) (hu : u < E.T) (hne : u ≠ t)
    (ho : E.Own t a i) (hx : E.X u g m g' (m.set a i v)) : E.Rely u g m g' (m.set a i v) := by
  refine ⟨fun b j hb => ?_, hx⟩
  rcases Mem.set_cases m a i v b j with ⟨rfl, rfl⟩ | h
  · exact absurd hb (hE.disj t u b j ht hu (Ne.symm hne) ho)
  · exact h

theorem Agree.set {t : Nat} {m m1 : Mem ty} {a : A} {i : Int} {v : ty a} (h : E.Agree t m m1) : E.Agree t (m.set a i v) (m1.set a i v) := by
  intro b j hb
  by_cases hab : b = a
  · subst hab
    rw [Mem.set_same, Mem.set_same]
    split
    · rfl
    · exact h b j hb
  · rw [congrFun (Mem.set_other _ _ _ _ _ hab) j, congrFun (Mem.set_other _ _ _ _ _ hab) j]; exact h b j hb

section
variable (hE : E.Ok) {t : Nat} {α β σ : Type}
include hE

theorem Ok.rely_refl (g : Γ) (m : Mem ty) : E.Rely t g m g m := ⟨fun _ _ _ => rfl, hE.refl t g m⟩

theorem Ok.rely_trans {g1 g2 g3 : Γ} {m1 m2 m3 : Mem ty} (h1 : E.Rely t g1 m1 g2 m2) (h2 : E.Rely t g2 m2 g3 m3) : E.Rely t g1 m1 g3 m3 :=
  ⟨fun a i h => (h2.1 a i h).trans (h1.1 a i h), hE.trans _ _ _ _ _ _ _ h1.2 h2.2⟩

theorem Ok.guar_refl (g : Γ) (m : Mem ty) : E.Guar t g m g m := fun _ _ _ => hE.rely_refl g m

theorem Ok.agree_rely {g g' : Γ} {m m' m1 : Mem ty} (hI : E.Inv g m) (hI' : E.Inv g' m') (h : E.Agree t m m1) (hr : E.Rely t g m g' m') :
    E.Agree t m' m1 := by
  intro a i hh
  rcases hh with ho | hc
  · rw [hr.1 a i ho]; exact h a i (Or.inl ho)
  · rw [← h a i (Or.inr hc), hE.const g m a i hI hc, hE.const g' m' a i hI' hc]

omit hE in
theorem LB_mono {p : Prog ty α} {m1 : Mem ty} {x : κ} {Q Q' : α → Mem ty → κ → Prop}
    (h : E.LB t p m1 x Q) (hq : ∀ a m x, Q a m x → Q' a m x) : E.LB t p m1 x Q' := by
  intro g m h1 h2 h3
  refine wpRG_mono (h g m h1 h2 h3) ?_
  rintro a g' m' _ ⟨m1', x', q1, q2, q3⟩
  exact ⟨m1', x', q1, q2, hq _ _ _ q3⟩

theorem LB_bind {p : Prog ty α} {f : α → Prog ty β} {m1 : Mem ty} {x : κ} {Q : β → Mem ty → κ → Prop}
    (h : E.LB t p m1 x (fun a m1 x => E.LB t (f a) m1 x Q)) : E.LB t (p >>= f) m1 x Q := by
  intro g m h1 h2 h3
  refine wpRG_bind (fun g m => hE.rely_refl g m) (fun _ _ _ _ _ _ => hE.rely_trans) h1 ?_
  refine wpRG_mono (h g m h1 h2 h3) ?_
  rintro a g' m' hI ⟨m1', x', q1, q2, q3⟩
  exact q3 g' m' hI q2 q1

/-- A piece of program that writes only cells the invariant does not mention and reads own or constant cells. -/
theorem LB_local (ht : t < E.T) {p : Prog ty α} {x : κ} {Q : α → Mem ty → κ → Prop} :
    ∀ {m1 : Mem ty}, wp E.sz (E.Loc t) (fun a i => E.Own t a i ∨ E.Const a i) p m1 (fun a m1' => Q a m1' x) → E.LB t p m1 x Q := by
  induction p with
  | ret a =>
    intro m1 h g m h1 h2 h3 g' m' hr hI'
    rw [wp_ret] at h
    exact ⟨m1, x, hE.agree_rely h1 hI' h3 hr, hE.stable t x g m g' m' ht h1 hI' h2 hr, h⟩
  | rd a i k ih =>
    intro m1 h g m h1 h2 h3 g' m' hr hI'
    unfold wp at h
    obtain ⟨q1, v, q2, q3⟩ := h
    have hA := hE.agree_rely h1 hI' h3 hr
    refine ⟨v, by rw [hA a i q1]; exact q2, g', hE.guar_refl g' m', hI', ?_⟩
    exact ih v q3 g' m' hI' (hE.stable t x g m g' m' ht h1 hI' h2 hr) hA
  | wr a i v k ih =>
    intro m1 h g m h1 h2 h3 g' m' hr hI'
    unfold wp at h
    obtain ⟨q1, q2, q3, q4⟩ := h
    have s2 := hE.loc_inv t g' m' a i v ht hI' q1
    exact ⟨q2, q3, g', fun u hu hne => hE.rely_set ht hu hne (hE.loc_own t a i q1) (hE.loc_X t u g' m' a i v ht hu hne hI' q1), s2,
      ih q4 g' _ s2 (hE.loc_K t x g' m' a i v ht hI' (hE.stable t x g m g' m' ht h1 hI' h2 hr) q1) (hE.agree_rely h1 hI' h3 hr).set⟩
  | rmw a i f k ih =>
    intro m1 h g m h1 h2 h3 g' m' hr hI'
    unfold wp at h
    obtain ⟨q1, q2, q3, _, v, q5, q4⟩ := h
    have hA := hE.agree_rely h1 hI' h3 hr
    have s2 := hE.loc_inv t g' m' a i (f v) ht hI' q1
    refine ⟨q2, q3, v, by rw [hA a i (Or.inl (hE.loc_own t a i q1))]; exact q5, g',
      fun u hu hne => hE.rely_set ht hu hne (hE.loc_own t a i q1) (hE.loc_X t u g' m' a i (f v) ht hu hne hI' q1), s2, ?_⟩
    exact ih v q4 g' _ s2 (hE.loc_K t x g' m' a i (f v) ht hI' (hE.stable t x g m g' m' ht h1 hI' h2 hr) q1) hA.set
  | fail => intro m1 h; unfold wp at h; exact h.elim

theorem LB_pure (ht : t < E.T) {a : α} {m1 : Mem ty} {x : κ} {Q : α → Mem ty → κ → Prop} (h : Q a m1 x) : E.LB t (pure a) m1 x Q :=
  LB_local hE ht (wp_pure.2 h)

/-- A local piece followed by more. -/
theorem LB_seq (ht : t < E.T) {p : Prog ty α} {f : α → Prog ty β} {m1 : Mem ty} {x : κ} {Q : β → Mem ty → κ → Prop}
    (h : wp E.sz (E.Loc t) (fun a i => E.Own t a i ∨ E.Const a i) p m1 (fun a m1' => E.LB t (f a) m1' x Q)) :
    E.LB t (p >>= f) m1 x Q := LB_bind hE (LB_local hE ht h)

theorem LB_rd (ht : t < E.T) {a : A} {i : Int} (v : ty a) {f : ty a → Prog ty β} {m1 : Mem ty} {x : κ} {Q : β → Mem ty → κ → Prop}
    (h1 : E.Own t a i ∨ E.Const a i) (h2 : m1 a i = some v) (h : E.LB t (f v) m1 x Q) : E.LB t (Prog.read a i >>= f) m1 x Q :=
  LB_seq hE ht (wp_read.2 ⟨h1, v, h2, h⟩)

theorem LB_assert (ht : t < E.T) {c : Prop} [Decidable c] {f : Unit → Prog ty β} {m1 : Mem ty} {x : κ} {Q : β → Mem ty → κ → Prop}
    (h1 : c) (h : E.LB t (f ()) m1 x Q) : E.LB t (Prog.assert c >>= f) m1 x Q :=
  LB_seq hE ht (wp_assert.2 ⟨h1, h⟩)

/-- Reading a shared cell. -/
theorem LB_rdx (ht : t < E.T) {a : A} {i : Int} {f : ty a → Prog ty β} {m1 : Mem ty} {x : κ} {Q : β → Mem ty → κ → Prop}
    (h : ∀ g m, E.Inv g m → E.K t x g m → E.Agree t m m1 → ∃ v, m a i = some v ∧ ∃ x', E.K t x' g m ∧ E.LB t (f v) m1 x' Q) :
    E.LB t (Prog.read a i >>= f) m1 x Q := by
  intro g m h1 h2 h3 g' m' hr hI'
  have hA := hE.agree_rely h1 hI' h3 hr
  obtain ⟨v, q1, x', q2, q3⟩ := h g' m' hI' (hE.stable t x g m g' m' ht h1 hI' h2 hr) hA
  exact ⟨v, q1, g', hE.guar_refl g' m', hI', q3 g' m' hI' q2 hA⟩

/-- Writing a cell the invariant mentions. -/
theorem LB_wrx (ht : t < E.T) {a : A} {i : Int} {v : ty a} {f : Unit → Prog ty β} {m1 : Mem ty} {x : κ} (m1' : Mem ty) (x' : κ) {Q : β → Mem ty → κ → Prop}
    (hb : 0 ≤ i ∧ i < E.sz a)
    (h : ∀ g m, E.Inv g m → E.K t x g m → E.Agree t m m1 → ∃ g', E.Inv g' (m.set a i v) ∧ E.Guar t g m g' (m.set a i v) ∧
      E.K t x' g' (m.set a i v) ∧ E.Agree t (m.set a i v) m1')
    (hk : E.LB t (f ()) m1' x' Q) : E.LB t (Prog.write a i v >>= f) m1 x Q := by
  intro g m h1 h2 h3 g' m' hr hI'
  have hA := hE.agree_rely h1 hI' h3 hr
  obtain ⟨g2, q1, q2, q3, q4⟩ := h g' m' hI' (hE.stable t x g m g' m' ht h1 hI' h2 hr) hA
  exact ⟨hb.1, hb.2, g2, q2, q1, hk g2 _ q1 q3 q4⟩

theorem LB_loopUp (ht : t < E.T) {body : Int → σ → Prog ty σ} (I : Int → σ → Mem ty → κ → Prop) (n : Nat) :
    ∀ (lo : Int) (s : σ) (m1 : Mem ty) (x : κ) {Q : σ → Mem ty → κ → Prop}, I lo s m1 x →
      (∀ i s m1 x, lo ≤ i → i < lo + n → I i s m1 x → E.LB t (body i s) m1 x (fun s' m' x' => I (i + 1) s' m' x')) →
      (∀ s m x, I (lo + n) s m x → Q s m x) → E.LB t (Prog.loopUp body n lo s) m1 x Q := by
  induction n with
  | zero =>
    intro lo s m1 x Q h0 _ hQ
    exact LB_pure hE ht (hQ _ _ _ (by simpa using h0))
  | succ n ih =>
    intro lo s m1 x Q h0 hstep hQ
    refine LB_bind hE (LB_mono (hstep lo s m1 x (Int.le_refl _) (by omega) h0) ?_)
    intro s' m' x' h'
    refine ih (lo + 1) s' m' x' h' ?_ ?_
    · intro i s m x h1 h2 h; exact hstep i s m x (by omega) (by push_cast; omega) h
    · intro s m x h; refine hQ s m x ?_
      rwa [show lo + ((n + 1 : Nat) : Int) = lo + 1 + n by push_cast; omega]

/-- A loop over `b + lo ≤ i < b + hi`, with a counter in `Nat`. -/
theorem LB_forN (ht : t < E.T) {lo hi : Nat} {b l h : Int} {s : σ} {body : Int → σ → Prog ty σ} {m1 : Mem ty} {x : κ} {Q : σ → Mem ty → κ → Prop}
    (I : Nat → σ → Mem ty → κ → Prop) (hle : lo ≤ hi) (h0 : I lo s m1 x)
    (hstep : ∀ n s m1 x, lo ≤ n → n < hi → I n s m1 x → E.LB t (body ((n : Int) + b) s) m1 x (fun s' m' x' => I (n + 1) s' m' x'))
    (hQ : ∀ s m x, I hi s m x → Q s m x) (hl : l = lo + b) (hh : h = hi + b) : E.LB t (Prog.forUp l h s body) m1 x Q := by
  subst hl hh
  unfold Prog.forUp
  refine LB_loopUp hE ht (fun i s m x => I (i - b).toNat s m x) _ _ s m1 x ?_ ?_ ?_
  · rw [show ((lo : Int) + b - b).toNat = lo by omega]; exact h0
  · intro i s m x h1 h2 hI
    have h3 : i < (hi : Int) + b := by omega
    have := hstep (i - b).toNat s m x (by omega) (by omega) hI
    rw [show (((i - b).toNat : Nat) : Int) + b = i by omega] at this
    refine LB_mono this ?_
    intro s' m' x' h'
    show I (i + 1 - b).toNat s' m' x'
    rw [show (i + 1 - b).toNat = (i - b).toNat + 1 by omega]; exact h'
  · intro s m x h
    refine hQ s m x ?_
    have e : ((lo : Int) + b + (((hi : Int) + b - ((lo : Int) + b)).toNat : Int) - b).toNat = hi := by omega
    rw [← e]; exact h

/-- A loop over integers. -/
theorem LB_forUp (ht : t < E.T) {l h : Int} {s : σ} {body : Int → σ → Prog ty σ} {m1 : Mem ty} {x : κ} {Q : σ → Mem ty → κ → Prop}
    (I : Int → σ → Mem ty → κ → Prop) (h0 : I l s m1 x)
    (hstep : ∀ i s m1 x, l ≤ i → i < h → I i s m1 x → E.LB t (body i s) m1 x (fun s' m' x' => I (i + 1) s' m' x'))
    (hQ : ∀ s m x, I (max l h) s m x → Q s m x) : E.LB t (Prog.forUp l h s body) m1 x Q := by
  unfold Prog.forUp
  refine LB_loopUp hE ht I _ _ s m1 x h0 (fun i s m x h1 h2 hI => hstep i s m x h1 (by omega) hI) ?_
  intro s m x h1
  refine hQ s m x ?_
  rwa [show max l h = l + ((h - l).toNat : Int) by omega]

end

/-- A team of threads without spin loops. -/
theorem team (hE : E.Ok) {α : Type} {ts : Nat → Prog ty α} {Q : Nat → α → Mem ty → κ → Prop} {x0 : Nat → κ} {g0 : Γ} {Post : (Nat → α) → Mem ty → Prop}
    (h0 : E.Inv g0 E.m0) (hK : ∀ t, t < E.T → E.K t (x0 t) g0 E.m0) (hLB : ∀ t, t < E.T → E.LB t (ts t) E.m0 (x0 t) (Q t))
    (hpost : ∀ (r : Nat → α) g m, E.Inv g m → (∀ t, t < E.T → ∃ m1 x, E.Agree t m m1 ∧ E.K t x g m ∧ Q t (r t) m1 x) → Post r m) :
    ParOk E.sz E.T Post ts E.m0 :=
  rg_rule E.Inv E.Rely E.Guar (fun t a g m => ∃ m1 x, E.Agree t m m1 ∧ E.K t x g m ∧ Q t a m1 x) g0 h0
    (fun _ g m => hE.rely_refl g m) (fun _ _ _ _ _ _ _ => hE.rely_trans)
    (fun t u _ _ _ _ _ hu hne _ _ hG => hG u hu (Ne.symm hne))
    (fun t ht => hLB t ht g0 E.m0 h0 (hK t ht) (fun _ _ _ => rfl)) hpost

end OwnEnv

end SpMP
