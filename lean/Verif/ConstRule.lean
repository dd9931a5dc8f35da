import Verif.RelyGuar
/-
Phase rule for threads that may all write the same constant into a shared cell (a benign race on one value).
Models no particular function.
-/

namespace SpMP

section
variable {A : Type} [DecidableEq A] {ty : A → Type} {α β σ : Type} {sz : A → Int}

/-- Every write of `p` to a cell in `S` stores the constant `cv`. -/
def Prog.ConstW (S : A → Int → Prop) (cv : (a : A) → Int → ty a) : Prog ty α → Prop
  | .ret _ => True
  | .rd _ _ k => ∀ v, (k v).ConstW S cv
  | .wr a i v k => (S a i → v = cv a i) ∧ k.ConstW S cv
  | .rmw a i _ k => ¬ S a i ∧ ∀ v, (k v).ConstW S cv
  | .fail => True

theorem Prog.ConstW.bind {S : A → Int → Prop} {cv : (a : A) → Int → ty a} {p : Prog ty α} {f : α → Prog ty β}
    (hp : p.ConstW S cv) (hf : ∀ a, (f a).ConstW S cv) : (p >>= f).ConstW S cv := by
  show (p.bind f).ConstW S cv
  induction p with
  | ret a => exact hf a
  | rd a i k ih => exact fun v => ih v (hp v)
  | wr a i v k ih => exact ⟨hp.1, ih hp.2⟩
  | rmw a i g k ih => exact ⟨hp.1, fun v => ih v (hp.2 v)⟩
  | fail => trivial

theorem Prog.ConstW.pure {S : A → Int → Prop} {cv : (a : A) → Int → ty a} (a : α) :
    (Pure.pure a : Prog ty α).ConstW S cv := trivial

theorem Prog.ConstW.read {S : A → Int → Prop} {cv : (a : A) → Int → ty a} (a : A) (i : Int) :
    (Prog.read a i : Prog ty (ty a)).ConstW S cv := fun _ => trivial

theorem Prog.ConstW.write {S : A → Int → Prop} {cv : (a : A) → Int → ty a} {a : A} {i : Int} {v : ty a}
    (h : S a i → v = cv a i) : (Prog.write a i v : Prog ty Unit).ConstW S cv := ⟨h, trivial⟩

theorem Prog.ConstW.forUp {S : A → Int → Prop} {cv : (a : A) → Int → ty a} {lo hi : Int} {s : σ}
    {body : Int → σ → Prog ty σ} (h : ∀ i s, (body i s).ConstW S cv) : (Prog.forUp lo hi s body).ConstW S cv := by
  unfold Prog.forUp
  generalize (hi - lo).toNat = n
  induction n generalizing lo s with
  | zero => trivial
  | succ n ih => exact (h lo s).bind (fun s' => ih)

theorem Prog.ConstW.forUp' {S : A → Int → Prop} {cv : (a : A) → Int → ty a} {lo hi : Int} {s : σ}
    {body : Int → σ → Prog ty σ} (h : ∀ i s, lo ≤ i → i < hi → (body i s).ConstW S cv) :
    (Prog.forUp lo hi s body).ConstW S cv := by
  unfold Prog.forUp
  generalize hn : (hi - lo).toNat = n
  induction n generalizing lo s with
  | zero => trivial
  | succ n ih =>
    exact (h lo s (by omega) (by omega)).bind (fun s' => ih (fun i s h1 h2 => h i s (by omega) h2) (by omega))

theorem Prog.ConstW.ite {S : A → Int → Prop} {cv : (a : A) → Int → ty a} {c : Prop} [Decidable c] {p q : Prog ty α}
    (h1 : p.ConstW S cv) (h2 : q.ConstW S cv) : (if c then p else q : Prog ty α).ConstW S cv := by
  split <;> assumption

/-- Memory with the cells in `S` forgotten. -/
noncomputable def Mem.forget (S : A → Int → Prop) (m : Mem ty) : Mem ty :=
  open Classical in fun a i => if S a i then none else m a i

theorem Mem.forget_of_not {S : A → Int → Prop} {m : Mem ty} {a : A} {i : Int} (h : ¬ S a i) : m.forget S a i = m a i := by
  unfold Mem.forget; rw [if_neg h]

/-- Phase rule: as `par_rule`, but the cells in `S` may be written by several threads, always with the same constant, and a
thread reads them only after writing them itself (the proof of each thread starts from a memory without these cells). -/
theorem const_rule [Races A] {n : Nat} {ts : Nat → Prog ty α} {m0 : Mem ty} {Post : (Nat → α) → Mem ty → Prop}
    (S : A → Int → Prop) (cv : (a : A) → Int → ty a)
    (W R : Nat → A → Int → Prop) (Q : Nat → α → Mem ty → Prop)
    (hdisj : ∀ t u a i, t < n → u < n → t ≠ u → W t a i → ¬ S a i → ¬ R u a i)
    (hconst : ∀ t, t < n → (ts t).ConstW S cv)
    (hwp : ∀ t, t < n → wp sz (W t) (R t) (ts t) (m0.forget S) (Q t))
    (hpost : ∀ (r : Nat → α) (m : Mem ty),
      (∀ t, t < n → ∃ mt, Q t (r t) mt ∧ (∀ a i, R t a i → ¬ S a i → m a i = mt a i) ∧
        (∀ a i, S a i → ∀ v, mt a i = some v → m a i = some v)) →
      (∀ a i, ¬ S a i → (∀ t, t < n → ¬ W t a i) → m a i = m0 a i) → Post r m)
    (htol : ∀ a i, S a i → Races.tol a i)
    (hWR : ∀ t a i, t < n → W t a i → R t a i := by wr_le_rd) :
    ParOk sz n Post ts m0 := by
  let C : Nat → Mem ty → Mem ty → Prop := fun t mt m =>
    (∀ a i, R t a i → ¬ S a i → m a i = mt a i) ∧
    ∀ a i, S a i → ∀ v, mt a i = some v → v = cv a i ∧ m a i = some (cv a i)
  let Inv : Unit → Mem ty → Prop := fun _ m => ∀ a i, ¬ S a i → (∀ t, t < n → ¬ W t a i) → m a i = m0 a i
  let Keep : Mem ty → Mem ty → Prop := fun m m' => ∀ a i, S a i → m a i = some (cv a i) → m' a i = some (cv a i)
  let Rely : Nat → Unit → Mem ty → Unit → Mem ty → Prop := fun t _ m _ m' =>
    (∀ a i, R t a i → ¬ S a i → m' a i = m a i) ∧ Keep m m'
  let Guar : Nat → Unit → Mem ty → Unit → Mem ty → Prop := fun t _ m _ m' =>
    (∀ a i, ¬ S a i → ¬ W t a i → m' a i = m a i) ∧ Keep m m'
  have hCrely : ∀ t mt m m', C t mt m → Rely t () m () m' → C t mt m' := by
    rintro t mt m m' ⟨c1, c2⟩ ⟨r1, r2⟩
    refine ⟨fun a i hr hs => by rw [r1 a i hr hs]; exact c1 a i hr hs, ?_⟩
    intro a i hs v hv
    obtain ⟨e1, e2⟩ := c2 a i hs v hv
    exact ⟨e1, r2 a i hs e2⟩
  have wrAll : ∀ t, t < n → ∀ a i (v : ty a) (m mt : Mem ty), W t a i → (S a i → v = cv a i) → C t mt m → Inv () m →
      Guar t () m () (m.set a i v) ∧ Inv () (m.set a i v) ∧ C t (mt.set a i v) (m.set a i v) := by
    intro t ht a i v m mt hw hv hc hi
    refine ⟨⟨?_, ?_⟩, ?_, ?_, ?_⟩
    · intro b j _ hnw
      rcases Mem.set_cases m a i v b j with ⟨rfl, rfl⟩ | h
      · exact absurd hw hnw
      · exact h
    · intro b j hs hb
      by_cases hba : b = a
      · subst hba
        by_cases hji : j = i
        · subst hji; simp [hv hs]
        · simp only [Mem.set_same, hji, if_false]; exact hb
      · rw [Mem.set_other _ _ _ _ _ hba]; exact hb
    · intro b j hs hnw
      rcases Mem.set_cases m a i v b j with ⟨rfl, rfl⟩ | h
      · exact absurd hw (hnw t ht)
      · rw [h]; exact hi b j hs hnw
    · intro b j hr hs
      unfold Mem.set
      split
      · split
        · rfl
        · exact hc.1 _ _ hr hs
      · exact hc.1 _ _ hr hs
    · intro b j hs w hb
      by_cases hba : b = a
      · subst hba
        by_cases hji : j = i
        · subst hji
          simp only [Mem.set_same, if_true, Option.some.injEq] at hb ⊢
          subst hb; exact ⟨hv hs, hv hs⟩
        · simp only [Mem.set_same, hji, if_false] at hb ⊢; exact hc.2 _ _ hs w hb
      · rw [Mem.set_other _ _ _ _ _ hba] at hb ⊢; exact hc.2 _ _ hs w hb
  have main : ∀ t, t < n → ∀ (p : Prog ty α) (mt m : Mem ty), p.ConstW S cv → wp sz (W t) (R t) p mt (Q t) → C t mt m →
      wpRGk sz Inv (Rely t) (Guar t) (fun a i c => (c = .rd ∧ R t a i) ∨ (c ≠ .rd ∧ W t a i)) p () m (fun r _ m' => ∃ mt, Q t r mt ∧ C t mt m') := by
    intro t ht p
    induction p with
    | ret a => intro mt m _ h hc g' m' hr _; exact ⟨mt, wp_ret.1 h, hCrely t mt m m' hc hr⟩
    | rd a i k ih =>
      intro mt m hk h hc g' m' hr hi
      unfold wp at h
      obtain ⟨h1, v, h2, h3⟩ := h
      have hc' := hCrely t mt m m' hc hr
      have hmv : m' a i = some v := by
        by_cases hs : S a i
        · obtain ⟨e1, e2⟩ := hc'.2 a i hs v h2; rw [e1]; exact e2
        · rw [hc'.1 a i h1 hs]; exact h2
      exact ⟨Or.inl ⟨rfl, h1⟩, v, hmv, (), ⟨fun _ _ _ _ => rfl, fun _ _ _ h => h⟩, hi, ih v mt m' (hk v) h3 hc'⟩
    | wr a i v k ih =>
      intro mt m hk h hc g' m' hr hi
      unfold wp at h
      obtain ⟨h1, h2, h3, h4⟩ := h
      have hc' := hCrely t mt m m' hc hr
      obtain ⟨q1, q2, q3⟩ := wrAll t ht a i v m' mt h1 hk.1 hc' hi
      exact ⟨Or.inr ⟨by simp, h1⟩, h2, h3, (), q1, q2, ih _ _ hk.2 h4 q3⟩
    | rmw a i f k ih =>
      intro mt m hk h hc g' m' hr hi
      unfold wp at h
      obtain ⟨h1, h2, h3, h4, v, h5, h6⟩ := h
      have hc' := hCrely t mt m m' hc hr
      have hmv : m' a i = some v := by rw [hc'.1 a i h4 hk.1]; exact h5
      obtain ⟨q1, q2, q3⟩ := wrAll t ht a i (f v) m' mt h1 (fun hs => absurd hs hk.1) hc' hi
      exact ⟨Or.inr ⟨by simp, h1⟩, h2, h3, v, hmv, (), q1, q2, ih v _ _ (hk.2 v) h6 q3⟩
    | fail => intro mt m _ h _; exact (wp_fail.1 h).elim
  refine rgk_rule Inv Rely Guar (fun t a i c => (c = .rd ∧ R t a i) ∨ (c ≠ .rd ∧ W t a i)) ?_
    (fun t r _ m' => ∃ mt, Q t r mt ∧ C t mt m') () ?_ ?_ ?_ ?_ ?_ ?_
  · rintro t u a i c d ht hu htu h1 h2 ⟨h3, h4⟩
    refine Classical.byContradiction fun hn => ?_
    have hs : ¬ S a i := fun hs => hn (htol a i hs)
    rcases h1 with ⟨e1, r1⟩ | ⟨e1, r1⟩
    · rcases h2 with ⟨e2, r2⟩ | ⟨e2, r2⟩
      · exact h3 ⟨e1, e2⟩
      · exact hdisj u t a i hu ht (fun e => htu e.symm) r2 hs r1
    · rcases h2 with ⟨e2, r2⟩ | ⟨e2, r2⟩
      · exact hdisj t u a i ht hu htu r1 hs r2
      · exact hdisj t u a i ht hu htu r1 hs (hWR u a i hu r2)
  · intro a i _ _; rfl
  · intro t g m; exact ⟨fun _ _ _ _ => rfl, fun _ _ _ h => h⟩
  · rintro t g1 m1 g2 m2 g3 m3 ⟨a1, a2⟩ ⟨b1, b2⟩
    exact ⟨fun a i hr hs => by rw [b1 a i hr hs, a1 a i hr hs], fun a i hs h => b2 a i hs (a2 a i hs h)⟩
  · rintro t u g m g' m' ht hu htu _ _ ⟨h1, h2⟩
    refine ⟨?_, h2⟩
    intro a i hr hs
    exact h1 a i hs (fun hw => hdisj t u a i ht hu htu hw hs hr)
  · intro t ht
    refine main t ht _ _ _ (hconst t ht) (hwp t ht) ⟨?_, ?_⟩
    · intro a i _ hs; rw [Mem.forget_of_not hs]
    · intro a i hs v hv; unfold Mem.forget at hv; rw [if_pos hs] at hv; cases hv
  · intro r g m hi hq
    refine hpost r m ?_ hi
    intro t ht
    obtain ⟨mt, q1, q2, q3⟩ := hq t ht
    exact ⟨mt, q1, q2, fun a i hs v hv => by obtain ⟨e1, e2⟩ := q3 a i hs v hv; rw [e1]; exact e2⟩

end

end SpMP
