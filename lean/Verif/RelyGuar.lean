import Verif.Script
/-
Rely-guarantee rule for phases whose threads do communicate through shared cells (flags, atomic counters), and the
special case of cells that only move forward along a preorder. Models no particular function.
-/

namespace SpMP

section
variable {A : Type} [DecidableEq A] {ty : A → Type} {α β σ : Type} {Γ : Type} {sz : A → Int}

/-- What a thread does from ghost state `g` and memory `m`, when between any two of its accesses the other threads may
change the state according to `Rely`. `Guar` bounds its own changes; `Inv` holds throughout. -/
def wpRG (sz : A → Int) (Inv : Γ → Mem ty → Prop) (Rely Guar : Γ → Mem ty → Γ → Mem ty → Prop) :
    Prog ty α → Γ → Mem ty → (α → Γ → Mem ty → Prop) → Prop
  | .ret a, g, m, Q => ∀ g' m', Rely g m g' m' → Inv g' m' → Q a g' m'
  | .rd a i k, g, m, Q => ∀ g' m', Rely g m g' m' → Inv g' m' →
      ∃ v, m' a i = some v ∧ ∃ g2, Guar g' m' g2 m' ∧ Inv g2 m' ∧ wpRG sz Inv Rely Guar (k v) g2 m' Q
  | .wr a i v k, g, m, Q => ∀ g' m', Rely g m g' m' → Inv g' m' →
      0 ≤ i ∧ i < sz a ∧ ∃ g2, Guar g' m' g2 (m'.set a i v) ∧ Inv g2 (m'.set a i v) ∧
        wpRG sz Inv Rely Guar k g2 (m'.set a i v) Q
  | .rmw a i f k, g, m, Q => ∀ g' m', Rely g m g' m' → Inv g' m' →
      0 ≤ i ∧ i < sz a ∧ ∃ v, m' a i = some v ∧ ∃ g2, Guar g' m' g2 (m'.set a i (f v)) ∧
        Inv g2 (m'.set a i (f v)) ∧ wpRG sz Inv Rely Guar (k v) g2 (m'.set a i (f v)) Q
  | .fail, _, _, _ => False

theorem wpRG_mono {Inv : Γ → Mem ty → Prop} {Rely Guar : Γ → Mem ty → Γ → Mem ty → Prop} {p : Prog ty α}
    {Q Q' : α → Γ → Mem ty → Prop} : ∀ {g : Γ} {m : Mem ty}, wpRG sz Inv Rely Guar p g m Q →
      (∀ a g m, Inv g m → Q a g m → Q' a g m) → wpRG sz Inv Rely Guar p g m Q' := by
  induction p with
  | ret a => intro g m h hq g' m' h1 h2; exact hq _ _ _ h2 (h g' m' h1 h2)
  | rd a i k ih =>
    intro g m h hq g' m' h1 h2
    obtain ⟨v, h3, g2, h4, h5, h6⟩ := h g' m' h1 h2
    exact ⟨v, h3, g2, h4, h5, ih v h6 hq⟩
  | wr a i v k ih =>
    intro g m h hq g' m' h1 h2
    obtain ⟨h3, h4, g2, h5, h6, h7⟩ := h g' m' h1 h2
    exact ⟨h3, h4, g2, h5, h6, ih h7 hq⟩
  | rmw a i f k ih =>
    intro g m h hq g' m' h1 h2
    obtain ⟨h3, h4, v, h5, g2, h6, h7, h8⟩ := h g' m' h1 h2
    exact ⟨h3, h4, v, h5, g2, h6, h7, ih v h8 hq⟩
  | fail => intro g m h _; exact h

/-- Assertions survive interference before the next access. -/
theorem wpRG_rely {Inv : Γ → Mem ty → Prop} {Rely Guar : Γ → Mem ty → Γ → Mem ty → Prop}
    (htrans : ∀ g1 m1 g2 m2 g3 m3, Rely g1 m1 g2 m2 → Rely g2 m2 g3 m3 → Rely g1 m1 g3 m3)
    {p : Prog ty α} {Q : α → Γ → Mem ty → Prop} {g g' : Γ} {m m' : Mem ty}
    (h : wpRG sz Inv Rely Guar p g m Q) (hr : Rely g m g' m') : wpRG sz Inv Rely Guar p g' m' Q := by
  cases p with
  | ret a => intro g2 m2 h1 h2; exact h g2 m2 (htrans _ _ _ _ _ _ hr h1) h2
  | rd a i k => intro g2 m2 h1 h2; exact h g2 m2 (htrans _ _ _ _ _ _ hr h1) h2
  | wr a i v k => intro g2 m2 h1 h2; exact h g2 m2 (htrans _ _ _ _ _ _ hr h1) h2
  | rmw a i f k => intro g2 m2 h1 h2; exact h g2 m2 (htrans _ _ _ _ _ _ hr h1) h2
  | fail => exact h

theorem wpRG_bind {Inv : Γ → Mem ty → Prop} {Rely Guar : Γ → Mem ty → Γ → Mem ty → Prop}
    (hrefl : ∀ g m, Rely g m g m)
    (htrans : ∀ g1 m1 g2 m2 g3 m3, Rely g1 m1 g2 m2 → Rely g2 m2 g3 m3 → Rely g1 m1 g3 m3)
    {p : Prog ty α} {f : α → Prog ty β} {Q : β → Γ → Mem ty → Prop} :
    ∀ {g : Γ} {m : Mem ty}, Inv g m →
      wpRG sz Inv Rely Guar p g m (fun a g' m' => wpRG sz Inv Rely Guar (f a) g' m' Q) →
      wpRG sz Inv Rely Guar (p >>= f) g m Q := by
  show ∀ {g : Γ} {m : Mem ty}, Inv g m →
      wpRG sz Inv Rely Guar p g m (fun a g' m' => wpRG sz Inv Rely Guar (f a) g' m' Q) →
      wpRG sz Inv Rely Guar (p.bind f) g m Q
  induction p with
  | ret a => intro g m hi h; exact h g m (hrefl _ _) hi
  | rd a i k ih =>
    intro g m _ h g' m' h1 h2
    obtain ⟨v, h3, g2, h4, h5, h6⟩ := h g' m' h1 h2
    exact ⟨v, h3, g2, h4, h5, ih v h5 h6⟩
  | wr a i v k ih =>
    intro g m _ h g' m' h1 h2
    obtain ⟨h3, h4, g2, h5, h6, h7⟩ := h g' m' h1 h2
    exact ⟨h3, h4, g2, h5, h6, ih h6 h7⟩
  | rmw a i f k ih =>
    intro g m _ h g' m' h1 h2
    obtain ⟨h3, h4, v, h5, g2, h6, h7, h8⟩ := h g' m' h1 h2
    exact ⟨h3, h4, v, h5, g2, h6, h7, ih v h7 h8⟩
  | fail => intro g m _ h; exact h

/-- Any child of a program is below it. -/
theorem prog_acc (sz : A → Int) (p : Prog ty α) :
    Acc (fun p' p : Prog ty α => ∃ (m : Mem ty) (m' : Mem ty), Step sz p m p' m') p := by
  induction p with
  | ret a => constructor; rintro y ⟨m, m', h⟩; cases h
  | rd a i k ih => constructor; rintro y ⟨m, m', h⟩; cases h; exact ih _
  | wr a i v k ih => constructor; rintro y ⟨m, m', h⟩; cases h; exact ih
  | rmw a i f k ih => constructor; rintro y ⟨m, m', h⟩; cases h; exact ih _
  | fail => constructor; rintro y ⟨m, m', h⟩; cases h

theorem team_acc (sz : A → Int) (n : Nat) (ts : Nat → Prog ty α) :
    Acc (fun ts' ts : Nat → Prog ty α => ∃ t, t < n ∧ ∃ p', (∃ (m : Mem ty) (m' : Mem ty), Step sz (ts t) m p' m') ∧
      ts' = fun u => if u = t then p' else ts u) ts := by
  induction n generalizing ts with
  | zero => constructor; rintro y ⟨t, h, _⟩; omega
  | succ d ihd =>
    have key : ∀ p : Prog ty α, Acc (fun p' p : Prog ty α => ∃ (m : Mem ty) (m' : Mem ty), Step sz p m p' m') p →
        ∀ ts : Nat → Prog ty α, ts d = p →
        Acc (fun ts' ts : Nat → Prog ty α => ∃ t, t < d + 1 ∧ ∃ p',
          (∃ (m : Mem ty) (m' : Mem ty), Step sz (ts t) m p' m') ∧ ts' = fun u => if u = t then p' else ts u) ts := by
      intro p hp
      induction hp with
      | intro p _ ihp =>
        intro ts hts
        have hacc := ihd ts
        induction hacc with
        | intro ts _ iht =>
          constructor
          rintro ts' ⟨t, ht, p', hc, rfl⟩
          by_cases htd : t = d
          · subst htd
            exact ihp p' (by rw [← hts]; exact hc) _ (by simp)
          · refine iht _ ⟨t, by omega, p', hc, rfl⟩ ?_
            show (if d = t then p' else ts d) = p
            rw [if_neg (fun h => htd h.symm)]; exact hts
    exact key (ts d) (prog_acc sz _) ts rfl

/-- As `wpRG`; moreover the thread performs only accesses in `K`. -/
def wpRGk (sz : A → Int) (Inv : Γ → Mem ty → Prop) (Rely Guar : Γ → Mem ty → Γ → Mem ty → Prop) (K : A → Int → Acc1 → Prop) :
    Prog ty α → Γ → Mem ty → (α → Γ → Mem ty → Prop) → Prop
  | .ret a, g, m, Q => ∀ g' m', Rely g m g' m' → Inv g' m' → Q a g' m'
  | .rd a i k, g, m, Q => ∀ g' m', Rely g m g' m' → Inv g' m' →
      K a i .rd ∧ ∃ v, m' a i = some v ∧ ∃ g2, Guar g' m' g2 m' ∧ Inv g2 m' ∧ wpRGk sz Inv Rely Guar K (k v) g2 m' Q
  | .wr a i v k, g, m, Q => ∀ g' m', Rely g m g' m' → Inv g' m' →
      K a i .wr ∧ 0 ≤ i ∧ i < sz a ∧ ∃ g2, Guar g' m' g2 (m'.set a i v) ∧ Inv g2 (m'.set a i v) ∧
        wpRGk sz Inv Rely Guar K k g2 (m'.set a i v) Q
  | .rmw a i f k, g, m, Q => ∀ g' m', Rely g m g' m' → Inv g' m' →
      K a i .at ∧ 0 ≤ i ∧ i < sz a ∧ ∃ v, m' a i = some v ∧ ∃ g2, Guar g' m' g2 (m'.set a i (f v)) ∧
        Inv g2 (m'.set a i (f v)) ∧ wpRGk sz Inv Rely Guar K (k v) g2 (m'.set a i (f v)) Q
  | .fail, _, _, _ => False

theorem wpRGk_of_wpRG {Inv : Γ → Mem ty → Prop} {Rely Guar : Γ → Mem ty → Γ → Mem ty → Prop} {p : Prog ty α}
    {Q : α → Γ → Mem ty → Prop} : ∀ {g : Γ} {m : Mem ty}, wpRG sz Inv Rely Guar p g m Q →
      wpRGk sz Inv Rely Guar (fun _ _ _ => True) p g m Q := by
  induction p with
  | ret a => intro g m h; exact h
  | rd a i k ih =>
    intro g m h g' m' h1 h2
    obtain ⟨v, h3, g2, h4, h5, h6⟩ := h g' m' h1 h2
    exact ⟨trivial, v, h3, g2, h4, h5, ih v h6⟩
  | wr a i v k ih =>
    intro g m h g' m' h1 h2
    obtain ⟨h3, h4, g2, h5, h6, h7⟩ := h g' m' h1 h2
    exact ⟨trivial, h3, h4, g2, h5, h6, ih h7⟩
  | rmw a i f k ih =>
    intro g m h g' m' h1 h2
    obtain ⟨h3, h4, v, h5, g2, h6, h7, h8⟩ := h g' m' h1 h2
    exact ⟨trivial, h3, h4, v, h5, g2, h6, h7, ih v h8⟩
  | fail => intro g m h; exact h

theorem wpRGk_rely {Inv : Γ → Mem ty → Prop} {Rely Guar : Γ → Mem ty → Γ → Mem ty → Prop} {K : A → Int → Acc1 → Prop}
    (htrans : ∀ g1 m1 g2 m2 g3 m3, Rely g1 m1 g2 m2 → Rely g2 m2 g3 m3 → Rely g1 m1 g3 m3)
    {p : Prog ty α} {Q : α → Γ → Mem ty → Prop} {g g' : Γ} {m m' : Mem ty}
    (h : wpRGk sz Inv Rely Guar K p g m Q) (hr : Rely g m g' m') : wpRGk sz Inv Rely Guar K p g' m' Q := by
  cases p with
  | ret a => intro g2 m2 h1 h2; exact h g2 m2 (htrans _ _ _ _ _ _ hr h1) h2
  | rd a i k => intro g2 m2 h1 h2; exact h g2 m2 (htrans _ _ _ _ _ _ hr h1) h2
  | wr a i v k => intro g2 m2 h1 h2; exact h g2 m2 (htrans _ _ _ _ _ _ hr h1) h2
  | rmw a i f k => intro g2 m2 h1 h2; exact h g2 m2 (htrans _ _ _ _ _ _ hr h1) h2
  | fail => exact h

/-- The next access is in `K`. -/
theorem wpRGk_next {Inv : Γ → Mem ty → Prop} {Rely Guar : Γ → Mem ty → Γ → Mem ty → Prop} {K : A → Int → Acc1 → Prop}
    {p : Prog ty α} {Q : α → Γ → Mem ty → Prop} {g : Γ} {m : Mem ty} {a : A} {i : Int} {c : Acc1}
    (h : wpRGk sz Inv Rely Guar K p g m Q) (hr : Rely g m g m) (hi : Inv g m) (hn : p.next = some (a, i, c)) : K a i c := by
  cases p with
  | ret _ => cases hn
  | rd b j k => cases hn; exact (h g m hr hi).1
  | wr b j v k => cases hn; exact (h g m hr hi).1
  | rmw b j f k => cases hn; exact (h g m hr hi).1
  | fail => cases hn

/-- Rely-guarantee rule for a phase in which thread `t` performs only accesses in `K t`. -/
theorem rgk_rule [Races A] {n : Nat} {ts : Nat → Prog ty α} {m0 : Mem ty} {Post : (Nat → α) → Mem ty → Prop}
    (Inv : Γ → Mem ty → Prop) (Rely Guar : Nat → Γ → Mem ty → Γ → Mem ty → Prop)
    (K : Nat → A → Int → Acc1 → Prop)
    (hK : ∀ t u a i c d, t < n → u < n → t ≠ u → K t a i c → K u a i d → c.Conflict d → Races.tol a i)
    (Q : Nat → α → Γ → Mem ty → Prop) (g0 : Γ) (h0 : Inv g0 m0)
    (hrefl : ∀ t g m, Rely t g m g m)
    (htrans : ∀ t g1 m1 g2 m2 g3 m3, Rely t g1 m1 g2 m2 → Rely t g2 m2 g3 m3 → Rely t g1 m1 g3 m3)
    (hGR : ∀ t u g m g' m', t < n → u < n → t ≠ u → Inv g m → Inv g' m' → Guar t g m g' m' → Rely u g m g' m')
    (hwp : ∀ t, t < n → wpRGk sz Inv (Rely t) (Guar t) (K t) (ts t) g0 m0 (Q t))
    (hpost : ∀ (r : Nat → α) g m, Inv g m → (∀ t, t < n → Q t (r t) g m) → Post r m) :
    ParOk sz n Post ts m0 := by
  suffices H : ∀ (ts : Nat → Prog ty α) (g : Γ) (m : Mem ty), Inv g m →
      (∀ t, t < n → wpRGk sz Inv (Rely t) (Guar t) (K t) (ts t) g m (Q t)) → ParOk sz n Post ts m from H ts g0 m0 h0 hwp
  intro ts
  have hts := team_acc sz n ts
  induction hts with
  | intro ts _ ih =>
    intro g m hi hw
    refine ParOk.mk ?_ ?_ ?_ ?_
    · intro t ht
      have h := hw t ht
      cases hp : ts t with
      | ret a => simp [Stuck]
      | rd a i k =>
        rw [hp] at h
        obtain ⟨_, v, h1, _⟩ := h g m (hrefl _ _ _) hi
        simp [Stuck, h1]
      | wr a i v k =>
        rw [hp] at h
        obtain ⟨_, h1, h2, _⟩ := h g m (hrefl _ _ _) hi
        simp [Stuck, h1, h2]
      | rmw a i f k =>
        rw [hp] at h
        obtain ⟨_, h1, h2, v, h3, _⟩ := h g m (hrefl _ _ _) hi
        simp [Stuck, h1, h2, h3]
      | fail => rw [hp] at h; exact h.elim
    · intro r hr
      refine hpost r g m hi ?_
      intro t ht
      have h := hw t ht
      rw [hr t ht] at h
      exact h g m (hrefl _ _ _) hi
    · rintro t u a i ht hu htu ⟨c, d, h1, h2, h3⟩
      exact hK t u a i c d ht hu htu (wpRGk_next (hw t ht) (hrefl _ _ _) hi h1) (wpRGk_next (hw u hu) (hrefl _ _ _) hi h2) h3
    · rintro ts' m' ⟨t, ht, p', hstep, rfl⟩
      have h := hw t ht
      have main : ∃ g2, Guar t g m g2 m' ∧ Inv g2 m' ∧ wpRGk sz Inv (Rely t) (Guar t) (K t) p' g2 m' (Q t) := by
        revert h
        generalize ts t = p at hstep
        intro h
        cases hstep with
        | @rd a i k v _ hv =>
          obtain ⟨_, v', h1, g2, h2, h3, h4⟩ := h g m (hrefl _ _ _) hi
          rw [hv] at h1; cases h1
          exact ⟨g2, h2, h3, h4⟩
        | @wr a i v k _ _ _ =>
          obtain ⟨_, _, _, g2, h2, h3, h4⟩ := h g m (hrefl _ _ _) hi
          exact ⟨g2, h2, h3, h4⟩
        | @rmw a i f k v _ hv _ _ =>
          obtain ⟨_, _, _, v', h1, g2, h2, h3, h4⟩ := h g m (hrefl _ _ _) hi
          rw [hv] at h1; cases h1
          exact ⟨g2, h2, h3, h4⟩
      obtain ⟨g2, hg, hi2, hw2⟩ := main
      refine ih _ ⟨t, ht, p', ⟨m, m', hstep⟩, rfl⟩ g2 m' hi2 ?_
      intro u hu
      by_cases hut : u = t
      · subst hut; simpa using hw2
      · simp only [hut, if_false]
        exact wpRGk_rely (htrans u) (hw u hu) (hGR t u g m g2 m' ht hu (fun e => hut e.symm) hi hi2 hg)

/-- Rely-guarantee rule for a phase. -/
theorem rg_rule [Races A] [RacesAll A] {n : Nat} {ts : Nat → Prog ty α} {m0 : Mem ty} {Post : (Nat → α) → Mem ty → Prop}
    (Inv : Γ → Mem ty → Prop) (Rely Guar : Nat → Γ → Mem ty → Γ → Mem ty → Prop)
    (Q : Nat → α → Γ → Mem ty → Prop) (g0 : Γ) (h0 : Inv g0 m0)
    (hrefl : ∀ t g m, Rely t g m g m)
    (htrans : ∀ t g1 m1 g2 m2 g3 m3, Rely t g1 m1 g2 m2 → Rely t g2 m2 g3 m3 → Rely t g1 m1 g3 m3)
    (hGR : ∀ t u g m g' m', t < n → u < n → t ≠ u → Inv g m → Inv g' m' → Guar t g m g' m' → Rely u g m g' m')
    (hwp : ∀ t, t < n → wpRG sz Inv (Rely t) (Guar t) (ts t) g0 m0 (Q t))
    (hpost : ∀ (r : Nat → α) g m, Inv g m → (∀ t, t < n → Q t (r t) g m) → Post r m) :
    ParOk sz n Post ts m0 :=
  rgk_rule Inv Rely Guar (fun _ _ _ _ => True) (fun _ _ a i _ _ _ _ _ _ _ _ => RacesAll.all a i) Q g0 h0 hrefl htrans hGR
    (fun t ht => wpRGk_of_wpRG (hwp t ht)) hpost

/-! ### Cells that only move forward -/

/-- Like `wp`, but cells in `S` are shared: other threads may move them along `rel` at any time; the private memory holds
a lower bound of their value. -/
def wps (sz : A → Int) (W R S : A → Int → Prop) (rel : (a : A) → Int → ty a → ty a → Prop) :
    Prog ty α → Mem ty → (α → Mem ty → Prop) → Prop
  | .ret a, m, Q => Q a m
  | .rd a i k, m, Q =>
      (R a i ∧ ∃ v, m a i = some v ∧ wps sz W R S rel (k v) m Q) ∨
      (S a i ∧ ∃ v, m a i = some v ∧ ∀ v', rel a i v v' → wps sz W R S rel (k v') (m.set a i v') Q)
  | .wr a i v k, m, Q =>
      0 ≤ i ∧ i < sz a ∧ ((W a i ∧ wps sz W R S rel k (m.set a i v) Q) ∨
      (S a i ∧ ∃ v0, m a i = some v0 ∧ (∀ v', rel a i v0 v' → rel a i v' v) ∧ wps sz W R S rel k (m.set a i v) Q))
  | .rmw a i f k, m, Q =>
      0 ≤ i ∧ i < sz a ∧ ((W a i ∧ R a i ∧ ∃ v, m a i = some v ∧ wps sz W R S rel (k v) (m.set a i (f v)) Q) ∨
      (S a i ∧ ∃ v0, m a i = some v0 ∧ ∀ v', rel a i v0 v' → rel a i v' (f v') ∧
        wps sz W R S rel (k v') (m.set a i (f v')) Q))
  | .fail, _, _ => False

theorem wps_mono {W R S : A → Int → Prop} {rel : (a : A) → Int → ty a → ty a → Prop} {p : Prog ty α}
    {Q Q' : α → Mem ty → Prop} : ∀ {m : Mem ty}, wps sz W R S rel p m Q → (∀ a m', Q a m' → Q' a m') →
      wps sz W R S rel p m Q' := by
  induction p with
  | ret a => intro m h hq; exact hq _ _ h
  | rd a i k ih =>
    intro m h hq
    rcases h with ⟨h1, v, h2, h3⟩ | ⟨h1, v, h2, h3⟩
    · exact Or.inl ⟨h1, v, h2, ih v h3 hq⟩
    · exact Or.inr ⟨h1, v, h2, fun v' hv => ih v' (h3 v' hv) hq⟩
  | wr a i v k ih =>
    intro m h hq
    obtain ⟨h1, h2, h3⟩ := h
    refine ⟨h1, h2, ?_⟩
    rcases h3 with ⟨h3, h4⟩ | ⟨h3, v0, h4, h5, h6⟩
    · exact Or.inl ⟨h3, ih h4 hq⟩
    · exact Or.inr ⟨h3, v0, h4, h5, ih h6 hq⟩
  | rmw a i f k ih =>
    intro m h hq
    obtain ⟨h1, h2, h3⟩ := h
    refine ⟨h1, h2, ?_⟩
    rcases h3 with ⟨h3, h4, v, h5, h6⟩ | ⟨h3, v0, h4, h5⟩
    · exact Or.inl ⟨h3, h4, v, h5, ih v h6 hq⟩
    · exact Or.inr ⟨h3, v0, h4, fun v' hv => ⟨(h5 v' hv).1, ih v' (h5 v' hv).2 hq⟩⟩
  | fail => intro m h _; exact h

theorem wps_bind {W R S : A → Int → Prop} {rel : (a : A) → Int → ty a → ty a → Prop} {p : Prog ty α}
    {f : α → Prog ty β} {Q : β → Mem ty → Prop} : ∀ {m : Mem ty},
      wps sz W R S rel p m (fun a m' => wps sz W R S rel (f a) m' Q) → wps sz W R S rel (p >>= f) m Q := by
  show ∀ {m : Mem ty},
      wps sz W R S rel p m (fun a m' => wps sz W R S rel (f a) m' Q) → wps sz W R S rel (p.bind f) m Q
  induction p with
  | ret a => intro m h; exact h
  | rd a i k ih =>
    intro m h
    rcases h with ⟨h1, v, h2, h3⟩ | ⟨h1, v, h2, h3⟩
    · exact Or.inl ⟨h1, v, h2, ih v h3⟩
    · exact Or.inr ⟨h1, v, h2, fun v' hv => ih v' (h3 v' hv)⟩
  | wr a i v k ih =>
    intro m h
    obtain ⟨h1, h2, h3⟩ := h
    refine ⟨h1, h2, ?_⟩
    rcases h3 with ⟨h3, h4⟩ | ⟨h3, v0, h4, h5, h6⟩
    · exact Or.inl ⟨h3, ih h4⟩
    · exact Or.inr ⟨h3, v0, h4, h5, ih h6⟩
  | rmw a i f k ih =>
    intro m h
    obtain ⟨h1, h2, h3⟩ := h
    refine ⟨h1, h2, ?_⟩
    rcases h3 with ⟨h3, h4, v, h5, h6⟩ | ⟨h3, v0, h4, h5⟩
    · exact Or.inl ⟨h3, h4, v, h5, ih v h6⟩
    · exact Or.inr ⟨h3, v0, h4, fun v' hv => ⟨(h5 v' hv).1, ih v' (h5 v' hv).2⟩⟩
  | fail => intro m h; exact h

/-- Private code is shared code. -/
theorem wps_of_wp {W R S : A → Int → Prop} {rel : (a : A) → Int → ty a → ty a → Prop} {p : Prog ty α}
    {Q : α → Mem ty → Prop} : ∀ {m : Mem ty}, wp sz W R p m Q → wps sz W R S rel p m Q := by
  induction p with
  | ret a => intro m h; exact wp_ret.1 h
  | rd a i k ih => intro m h; unfold wp at h; obtain ⟨h1, v, h2, h3⟩ := h; exact Or.inl ⟨h1, v, h2, ih v h3⟩
  | wr a i v k ih =>
    intro m h; unfold wp at h; obtain ⟨h1, h2, h3, h4⟩ := h; exact ⟨h2, h3, Or.inl ⟨h1, ih h4⟩⟩
  | rmw a i f k ih =>
    intro m h; unfold wp at h; obtain ⟨h1, h2, h3, h4, v, h5, h6⟩ := h
    exact ⟨h2, h3, Or.inl ⟨h1, h4, v, h5, ih v h6⟩⟩
  | fail => intro m h; exact (wp_fail.1 h).elim

theorem wps_pure {W R S : A → Int → Prop} {rel : (a : A) → Int → ty a → ty a → Prop} {a : α}
    {Q : α → Mem ty → Prop} {m : Mem ty} (h : Q a m) : wps sz W R S rel (pure a : Prog ty α) m Q := h

theorem wps_loopUp {W R S : A → Int → Prop} {rel : (a : A) → Int → ty a → ty a → Prop}
    {body : Int → σ → Prog ty σ} (I : Int → σ → Mem ty → Prop) (n : Nat) :
    ∀ (lo : Int) (s : σ) (m : Mem ty) {Q : σ → Mem ty → Prop},
      I lo s m →
      (∀ i s m, lo ≤ i → i < lo + n → I i s m →
        wps sz W R S rel (body i s) m (fun s' m' => I (i + 1) s' m')) →
      (∀ s m, I (lo + n) s m → Q s m) →
      wps sz W R S rel (Prog.loopUp body n lo s) m Q := by
  induction n with
  | zero => intro lo s m Q h0 _ hQ; exact hQ _ _ (by simpa using h0)
  | succ n ih =>
    intro lo s m Q h0 hstep hQ
    unfold Prog.loopUp
    refine wps_bind (wps_mono (hstep lo s m (by omega) (by omega) h0) ?_)
    intro s' m' h'
    refine ih (lo + 1) s' m' h' ?_ ?_
    · intro i s m h1 h2 h3; exact hstep i s m (by omega) (by omega) h3
    · intro s m h; exact hQ s m (by have : lo + 1 + (n : Int) = lo + ((n + 1 : Nat) : Int) := by omega
                                    rw [this] at h; exact h)

theorem wps_forUp {W R S : A → Int → Prop} {rel : (a : A) → Int → ty a → ty a → Prop}
    {lo hi : Int} {s : σ} {body : Int → σ → Prog ty σ} {m : Mem ty}
    {Q : σ → Mem ty → Prop} (I : Int → σ → Mem ty → Prop)
    (h0 : I lo s m)
    (hstep : ∀ i s m, lo ≤ i → i < hi → I i s m →
      wps sz W R S rel (body i s) m (fun s' m' => I (i + 1) s' m'))
    (hQ : ∀ s m, I (max lo hi) s m → Q s m) :
    wps sz W R S rel (Prog.forUp lo hi s body) m Q := by
  unfold Prog.forUp
  refine wps_loopUp I _ lo s m h0 ?_ ?_
  · intro i s m h1 h2 h3; exact hstep i s m h1 (by omega) h3
  · intro s m h
    have : lo + ((hi - lo).toNat : Int) = max lo hi := by omega
    rw [this] at h; exact hQ s m h

/-- Phase rule with shared forward-moving cells. -/
theorem shared_rule [Races A] {n : Nat} {ts : Nat → Prog ty α} {m0 : Mem ty} {Post : (Nat → α) → Mem ty → Prop}
    (W R : Nat → A → Int → Prop) (S : A → Int → Prop) (rel : (a : A) → Int → ty a → ty a → Prop)
    (Q : Nat → α → Mem ty → Prop)
    (hrefl : ∀ a i v, rel a i v v) (htrans : ∀ a i u v w, rel a i u v → rel a i v w → rel a i u w)
    (hdisj : ∀ t u a i, t < n → u < n → t ≠ u → W t a i → ¬ R u a i)
    (hWS : ∀ t a i, t < n → W t a i → ¬ S a i) (hRS : ∀ t a i, t < n → R t a i → ¬ S a i)
    (hS0 : ∀ a i, S a i → ∃ v, m0 a i = some v)
    (hwp : ∀ t, t < n → wps sz (W t) (R t) S rel (ts t) m0 (Q t))
    (hpost : ∀ (r : Nat → α) (m : Mem ty),
      (∀ t, t < n → ∃ mt, Q t (r t) mt ∧ (∀ a i, R t a i → m a i = mt a i) ∧
        ∀ a i, S a i → ∃ v v', mt a i = some v ∧ m a i = some v' ∧ rel a i v v') →
      (∀ a i, S a i → ∃ v v', m0 a i = some v ∧ m a i = some v' ∧ rel a i v v') →
      (∀ a i, ¬ S a i → (∀ t, t < n → ¬ W t a i) → m a i = m0 a i) → Post r m)
    (htol : ∀ a i, S a i → Races.tol a i)
    (hWR : ∀ t a i, t < n → W t a i → R t a i := by wr_le_rd) :
    ParOk sz n Post ts m0 := by
  let K : Nat → A → Int → Acc1 → Prop := fun t a i c => S a i ∨ (c = .rd ∧ R t a i) ∨ (c ≠ .rd ∧ W t a i)
  -- compatibility of a private memory with the actual one
  let C : Nat → Mem ty → Mem ty → Prop := fun t mt m =>
    (∀ a i, R t a i → m a i = mt a i) ∧ ∀ a i, S a i → ∃ v v', mt a i = some v ∧ m a i = some v' ∧ rel a i v v'
  let Fwd : Mem ty → Mem ty → Prop := fun m m' => ∀ a i, S a i → ∀ v, m a i = some v → ∃ v', m' a i = some v' ∧ rel a i v v'
  let Inv : Unit → Mem ty → Prop := fun _ m =>
    (∀ a i, S a i → ∃ v v', m0 a i = some v ∧ m a i = some v' ∧ rel a i v v') ∧
    (∀ a i, ¬ S a i → (∀ t, t < n → ¬ W t a i) → m a i = m0 a i)
  let Rely : Nat → Unit → Mem ty → Unit → Mem ty → Prop := fun t _ m _ m' =>
    (∀ a i, R t a i → m' a i = m a i) ∧ Fwd m m'
  let Guar : Nat → Unit → Mem ty → Unit → Mem ty → Prop := fun t _ m _ m' =>
    (∀ a i, ¬ S a i → ¬ W t a i → m' a i = m a i) ∧ Fwd m m'
  have hfrefl : ∀ m, Fwd m m := fun m a i _ v hv => ⟨v, hv, hrefl _ _ _⟩
  have hftrans : ∀ m1 m2 m3, Fwd m1 m2 → Fwd m2 m3 → Fwd m1 m3 := by
    intro m1 m2 m3 h1 h2 a i hs v hv
    obtain ⟨v2, e2, r2⟩ := h1 a i hs v hv
    obtain ⟨v3, e3, r3⟩ := h2 a i hs v2 e2
    exact ⟨v3, e3, htrans _ _ _ _ _ r2 r3⟩
  have hCrely : ∀ t mt m m', C t mt m → Rely t () m () m' → C t mt m' := by
    rintro t mt m m' ⟨c1, c2⟩ ⟨r1, r2⟩
    refine ⟨fun a i hr => by rw [r1 a i hr]; exact c1 a i hr, ?_⟩
    intro a i hs
    obtain ⟨v, v', e1, e2, h⟩ := c2 a i hs
    obtain ⟨v2, e3, h2⟩ := r2 a i hs v' e2
    exact ⟨v, v2, e1, e3, htrans _ _ _ _ _ h h2⟩
  -- effect of writing a private cell
  have wrW : ∀ t, t < n → ∀ a i (v : ty a) (m mt : Mem ty), W t a i → C t mt m → Inv () m →
      Guar t () m () (m.set a i v) ∧ Inv () (m.set a i v) ∧ C t (mt.set a i v) (m.set a i v) := by
    intro t ht a i v m mt hw hc hi
    have hns := hWS t a i ht hw
    have hsame : ∀ b j, S b j → m.set a i v b j = m b j := by
      intro b j hs
      rcases Mem.set_cases m a i v b j with ⟨rfl, rfl⟩ | h
      · exact absurd hs hns
      · exact h
    have hsame' : ∀ b j, S b j → mt.set a i v b j = mt b j := by
      intro b j hs
      rcases Mem.set_cases mt a i v b j with ⟨rfl, rfl⟩ | h
      · exact absurd hs hns
      · exact h
    refine ⟨⟨?_, ?_⟩, ⟨?_, ?_⟩, ?_, ?_⟩
    · intro b j _ hnw
      rcases Mem.set_cases m a i v b j with ⟨rfl, rfl⟩ | h
      · exact absurd hw hnw
      · exact h
    · intro b j hs w hb; exact ⟨w, by rw [hsame b j hs]; exact hb, hrefl _ _ _⟩
    · intro b j hs; rw [hsame b j hs]; exact hi.1 b j hs
    · intro b j hs hnw
      rcases Mem.set_cases m a i v b j with ⟨rfl, rfl⟩ | h
      · exact absurd hw (hnw t ht)
      · rw [h]; exact hi.2 b j hs hnw
    · intro b j hr
      unfold Mem.set
      split
      · split
        · rfl
        · exact hc.1 _ _ hr
      · exact hc.1 _ _ hr
    · intro b j hs; rw [hsame b j hs, hsame' b j hs]; exact hc.2 b j hs
  -- effect of moving a shared cell
  have wrS : ∀ t, t < n → ∀ a i (v : ty a) (m mt : Mem ty), S a i → C t mt m → Inv () m →
      (∀ u, m a i = some u → rel a i u v) →
      Guar t () m () (m.set a i v) ∧ Inv () (m.set a i v) ∧ C t (mt.set a i v) (m.set a i v) := by
    intro t ht a i v m mt hs hc hi hrel
    have hfwd : Fwd m (m.set a i v) := by
      intro b j hsb w hb
      rcases Mem.set_cases m a i v b j with ⟨rfl, rfl⟩ | h
      · exact ⟨v, by simp, hrel w hb⟩
      · exact ⟨w, by rw [h]; exact hb, hrefl _ _ _⟩
    refine ⟨⟨?_, hfwd⟩, ⟨?_, ?_⟩, ?_, ?_⟩
    · intro b j hnsb _
      rcases Mem.set_cases m a i v b j with ⟨rfl, rfl⟩ | h
      · exact absurd hs hnsb
      · exact h
    · intro b j hsb
      obtain ⟨w, w', e1, e2, h⟩ := hi.1 b j hsb
      obtain ⟨w2, e3, h2⟩ := hfwd b j hsb w' e2
      exact ⟨w, w2, e1, e3, htrans _ _ _ _ _ h h2⟩
    · intro b j hnsb hnw
      rcases Mem.set_cases m a i v b j with ⟨rfl, rfl⟩ | h
      · exact absurd hs hnsb
      · rw [h]; exact hi.2 b j hnsb hnw
    · intro b j hr
      unfold Mem.set
      split
      · split
        · rfl
        · exact hc.1 _ _ hr
      · exact hc.1 _ _ hr
    · intro b j hsb
      by_cases hb : b = a
      · subst hb
        by_cases hj : j = i
        · subst hj; exact ⟨v, v, by simp, by simp, hrefl _ _ _⟩
        · simp only [Mem.set_same, hj, if_false]; exact hc.2 b j hsb
      · rw [Mem.set_other _ _ _ _ _ hb, Mem.set_other _ _ _ _ _ hb]; exact hc.2 b j hsb
  have conv : ∀ t, t < n → ∀ (p : Prog ty α) (mt m : Mem ty), wps sz (W t) (R t) S rel p mt (Q t) → C t mt m →
      wpRGk sz Inv (Rely t) (Guar t) (K t) p () m (fun r _ m' => ∃ mt, Q t r mt ∧ C t mt m') := by
    intro t ht p
    induction p with
    | ret a => intro mt m h hc g' m' hr _; exact ⟨mt, h, hCrely _ _ _ _ hc hr⟩
    | rd a i k ih =>
      intro mt m h hc _ m' hr hi
      have hc' := hCrely _ _ _ _ hc hr
      have hg : Guar t () m' () m' := ⟨fun _ _ _ _ => rfl, hfrefl _⟩
      rcases h with ⟨h1, v, h2, h3⟩ | ⟨h1, v, h2, h3⟩
      · exact ⟨Or.inr (Or.inl ⟨rfl, h1⟩), v, by rw [hc'.1 a i h1]; exact h2, (), hg, hi, ih v mt m' h3 hc'⟩
      · obtain ⟨v1, v', e1, e2, hrel⟩ := hc'.2 a i h1
        rw [h2] at e1; cases e1
        refine ⟨Or.inl h1, v', e2, (), hg, hi, ih v' _ m' (h3 v' hrel) ?_⟩
        refine ⟨?_, ?_⟩
        · intro b j hb
          rcases Mem.set_cases mt a i v' b j with ⟨rfl, rfl⟩ | h
          · exact absurd h1 (hRS t _ _ ht hb)
          · rw [h]; exact hc'.1 b j hb
        · intro b j hs
          by_cases hb : b = a
          · subst hb
            by_cases hj : j = i
            · subst hj; exact ⟨v', v', by simp, e2, hrefl _ _ _⟩
            · simp only [Mem.set_same, hj, if_false]; exact hc'.2 b j hs
          · rw [Mem.set_other _ _ _ _ _ hb]; exact hc'.2 b j hs
    | wr a i v k ih =>
      intro mt m h hc _ m' hr hi
      have hc' := hCrely _ _ _ _ hc hr
      obtain ⟨h1, h2, h3⟩ := h
      refine ⟨h3.elim (fun h => Or.inr (Or.inr ⟨by simp, h.1⟩)) (fun h => Or.inl h.1), h1, h2, (), ?_⟩
      rcases h3 with ⟨h3, h4⟩ | ⟨h3, v0, h4, h5, h6⟩
      · obtain ⟨q1, q2, q3⟩ := wrW t ht a i v m' mt h3 hc' hi
        exact ⟨q1, q2, ih _ _ h4 q3⟩
      · obtain ⟨q1, q2, q3⟩ := wrS t ht a i v m' mt h3 hc' hi (by
          intro u hu
          obtain ⟨w, w', e1, e2, hrel⟩ := hc'.2 a i h3
          rw [h4] at e1; cases e1
          rw [hu] at e2; cases e2
          exact h5 _ hrel)
        exact ⟨q1, q2, ih _ _ h6 q3⟩
    | rmw a i f k ih =>
      intro mt m h hc _ m' hr hi
      have hc' := hCrely _ _ _ _ hc hr
      obtain ⟨h1, h2, h3⟩ := h
      refine ⟨h3.elim (fun h => Or.inr (Or.inr ⟨by simp, h.1⟩)) (fun h => Or.inl h.1), h1, h2, ?_⟩
      rcases h3 with ⟨h3, h4, v, h5, h6⟩ | ⟨h3, v0, h4, h5⟩
      · obtain ⟨q1, q2, q3⟩ := wrW t ht a i (f v) m' mt h3 hc' hi
        exact ⟨v, by rw [hc'.1 a i h4]; exact h5, (), q1, q2, ih v _ _ h6 q3⟩
      · obtain ⟨w, w', e1, e2, hrel⟩ := hc'.2 a i h3
        rw [h4] at e1; cases e1
        obtain ⟨q1, q2, q3⟩ := wrS t ht a i (f w') m' mt h3 hc' hi (by
          intro u hu
          rw [hu] at e2; cases e2
          exact (h5 _ hrel).1)
        exact ⟨w', e2, (), q1, q2, ih w' _ _ (h5 w' hrel).2 q3⟩
    | fail => intro mt m h; exact h.elim
  have hC0 : ∀ t, C t m0 m0 := by
    intro t
    refine ⟨fun _ _ _ => rfl, ?_⟩
    intro a i hs; obtain ⟨v, hv⟩ := hS0 a i hs; exact ⟨v, v, hv, hv, hrefl _ _ _⟩
  refine rgk_rule (Γ := Unit) Inv Rely Guar K ?_ (fun t r _ m' => ∃ mt, Q t r mt ∧ C t mt m') () ?_ ?_ ?_ ?_ ?_ ?_
  · rintro t u a i c d ht hu htu h1 h2 ⟨h3, h4⟩
    rcases h1 with h1 | ⟨e1, r1⟩ | ⟨e1, r1⟩
    · exact htol a i h1
    · rcases h2 with h2 | ⟨e2, r2⟩ | ⟨e2, r2⟩
      · exact htol a i h2
      · exact absurd ⟨e1, e2⟩ h3
      · exact absurd r1 (hdisj u t a i hu ht (fun e => htu e.symm) r2)
    · rcases h2 with h2 | ⟨e2, r2⟩ | ⟨e2, r2⟩
      · exact htol a i h2
      · exact absurd r2 (hdisj t u a i ht hu htu r1)
      · exact absurd (hWR u a i hu r2) (hdisj t u a i ht hu htu r1)
  · exact ⟨(hC0 0).2, fun _ _ _ _ => rfl⟩
  · intro t _ m; exact ⟨fun _ _ _ => rfl, hfrefl m⟩
  · rintro t _ m1 _ m2 _ m3 ⟨a1, a2⟩ ⟨b1, b2⟩
    exact ⟨fun a i hr => by rw [b1 a i hr, a1 a i hr], hftrans _ _ _ a2 b2⟩
  · rintro t u _ m _ m' ht hu htu _ _ ⟨g1, g2⟩
    refine ⟨?_, g2⟩
    intro a i hr
    exact g1 a i (hRS u a i hu hr) (fun hw => hdisj t u a i ht hu htu hw hr)
  · intro t ht; exact conv t ht _ m0 m0 (hwp t ht) (hC0 t)
  · intro r _ m hi hq
    refine hpost r m ?_ hi.1 hi.2
    intro t ht
    obtain ⟨mt, h1, h2, h3⟩ := hq t ht
    exact ⟨mt, h1, h2, h3⟩

end

end SpMP
