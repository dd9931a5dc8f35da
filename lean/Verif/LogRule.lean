import Verif.RelyGuar
/-
Phases whose threads communicate only through atomic accesses to shared cells: every interleaving yields one sequence of all the
shared accesses, consistent with what each thread saw. Models no particular function.
-/

namespace SpMP

section
variable {A : Type} [DecidableEq A] {ty : A → Type} {α β σ : Type} {sz : A → Int}

/-- An access to a shared cell that found `old` and left `new`. -/
structure Ev (ty : A → Type) where
  a : A
  i : Int
  old : ty a
  new : ty a

abbrev EvLog (ty : A → Type) := List (Nat × Ev ty)

/-- The accesses of thread `t`. -/
def evOf (t : Nat) (log : EvLog ty) : List (Ev ty) := (log.filter fun e => e.1 = t).map Prod.snd

theorem evOf_append (t : Nat) (l l' : EvLog ty) : evOf t (l ++ l') = evOf t l ++ evOf t l' := by simp [evOf]

theorem evOf_self (t : Nat) (x : Ev ty) : evOf t [(t, x)] = [x] := by simp [evOf]

theorem evOf_other {t u : Nat} (h : u ≠ t) (x : Ev ty) : evOf t [(u, x)] = [] := by simp [evOf, h]

theorem mem_evOf {t : Nat} {log : EvLog ty} {e : Ev ty} : e ∈ evOf t log ↔ (t, e) ∈ log := by
  unfold evOf
  constructor
  · intro h
    obtain ⟨⟨u, e'⟩, h1, rfl⟩ := List.mem_map.mp h
    obtain ⟨h3, h4⟩ := List.mem_filter.mp h1
    have h4 : u = t := by simpa using h4
    subst h4; exact h3
  · intro h
    exact List.mem_map.mpr ⟨(t, e), List.mem_filter.mpr ⟨h, by simp⟩, rfl⟩

/-- The accesses, one after the other, from memory `m` to memory `m'`. -/
inductive EvRun (m : Mem ty) : EvLog ty → Mem ty → Prop
  | nil : EvRun m [] m
  | snoc {l : EvLog ty} {m' : Mem ty} (h : EvRun m l m') (t : Nat) (e : Ev ty) (he : m' e.a e.i = some e.old) :
      EvRun m (l ++ [(t, e)]) (m'.set e.a e.i e.new)

theorem EvRun.init {m : Mem ty} {l : EvLog ty} {m' : Mem ty} (h : EvRun m l m') {a : A} {i : Int} (h0 : ∃ v, m a i = some v) :
    ∃ v, m' a i = some v := by
  induction h with
  | nil => exact h0
  | snoc h t e he ih =>
    rcases Mem.set_cases (ty := ty) _ e.a e.i e.new a i with ⟨rfl, rfl⟩ | h2
    · exact ⟨e.new, by simp [Mem.set]⟩
    · rw [h2]; exact ih

theorem EvRun.frame {m : Mem ty} {l : EvLog ty} {m' : Mem ty} (h : EvRun m l m') {a : A} {i : Int}
    (h0 : ∀ x ∈ l, ¬ (x.2.a = a ∧ x.2.i = i)) : m' a i = m a i := by
  induction h with
  | nil => rfl
  | snoc h t e he ih =>
    rcases Mem.set_cases (ty := ty) _ e.a e.i e.new a i with ⟨h1, h2⟩ | h2
    · exact absurd ⟨h1.symm, h2.symm⟩ (h0 (t, e) (List.mem_append_right _ (List.mem_singleton.mpr rfl)))
    · rw [h2]; exact ih (fun x hx => h0 x (List.mem_append_left _ hx))

/-- What a thread does if an access to a shared cell may find any value that keeps the sequence `tr` of its shared accesses
admissible; every shared access must satisfy `Ok`. -/
def wpA (sz : A → Int) (W R S : A → Int → Prop) (Ok : Ev ty → Prop) (Adm : List (Ev ty) → Prop) :
     Prog ty α → Mem ty → List (Ev ty) → (α → List (Ev ty) → Mem ty → Prop) → Prop
  | .ret a, m, tr, Q => Q a tr m
  | .rd a i k, m, tr, Q => (S a i ∧ ∀ v, Ok ⟨a, i, v, v⟩ ∧ (Adm (tr ++ [⟨a, i, v, v⟩]) → wpA sz W R S Ok Adm (k v) m (tr ++ [⟨a, i, v, v⟩]) Q)) ∨
      (¬ S a i ∧ R a i ∧ ∃ v, m a i = some v ∧ wpA sz W R S Ok Adm (k v) m tr Q)
  | .wr a i v k, m, tr, Q => ¬ S a i ∧ W a i ∧ 0 ≤ i ∧ i < sz a ∧ wpA sz W R S Ok Adm k (m.set a i v) tr Q
  | .rmw a i f k, m, tr, Q => 0 ≤ i ∧ i < sz a ∧ ((S a i ∧ ∀ v, Ok ⟨a, i, v, f v⟩ ∧ (Adm (tr ++ [⟨a, i, v, f v⟩]) → wpA sz W R S Ok Adm (k v) m (tr ++ [⟨a, i, v, f v⟩]) Q)) ∨
      (¬ S a i ∧ W a i ∧ R a i ∧ ∃ v, m a i = some v ∧ wpA sz W R S Ok Adm (k v) (m.set a i (f v)) tr Q))
  | .fail, _, _, _ => False

theorem wpA_mono {W R S : A → Int → Prop} {Ok : Ev ty → Prop} {Adm : List (Ev ty) → Prop} {p : Prog ty α} {Q Q' : α → List (Ev ty) → Mem ty → Prop} :
    ∀ {m : Mem ty} {tr : List (Ev ty)}, wpA sz W R S Ok Adm p m tr Q → (∀ a tr m, Q a tr m → Q' a tr m) → wpA sz W R S Ok Adm p m tr Q' := by
  induction p with
  | ret a => intro m tr h hq; exact hq _ _ _ h
  | rd a i k ih =>
    intro m tr h hq
    rcases h with ⟨h1, h2⟩ | ⟨h1, h2, v, h3, h4⟩
    · exact Or.inl ⟨h1, fun v => ⟨(h2 v).1, fun ha => ih v ((h2 v).2 ha) hq⟩⟩
    · exact Or.inr ⟨h1, h2, v, h3, ih v h4 hq⟩
  | wr a i v k ih => intro m tr h hq; obtain ⟨h1, h2, h3, h4, h5⟩ := h; exact ⟨h1, h2, h3, h4, ih h5 hq⟩
  | rmw a i f k ih =>
    intro m tr h hq
    obtain ⟨h1, h2, ⟨h3, h4⟩ | ⟨h3, h4, h5, v, h6, h7⟩⟩ := h
    · exact ⟨h1, h2, Or.inl ⟨h3, fun v => ⟨(h4 v).1, fun ha => ih v ((h4 v).2 ha) hq⟩⟩⟩
    · exact ⟨h1, h2, Or.inr ⟨h3, h4, h5, v, h6, ih v h7 hq⟩⟩
  | fail => intro m tr h _; exact h

theorem wpA_bind {W R S : A → Int → Prop} {Ok : Ev ty → Prop} {Adm : List (Ev ty) → Prop} {p : Prog ty α} {f : α → Prog ty β} {Q : β → List (Ev ty) → Mem ty → Prop} :
    ∀ {m : Mem ty} {tr : List (Ev ty)}, wpA sz W R S Ok Adm p m tr (fun a tr' m' => wpA sz W R S Ok Adm (f a) m' tr' Q) →
      wpA sz W R S Ok Adm (p >>= f) m tr Q := by
  show ∀ {m : Mem ty} {tr : List (Ev ty)}, wpA sz W R S Ok Adm p m tr (fun a tr' m' => wpA sz W R S Ok Adm (f a) m' tr' Q) →
      wpA sz W R S Ok Adm (p.bind f) m tr Q
  induction p with
  | ret a => intro m tr h; exact h
  | rd a i k ih =>
    intro m tr h
    rcases h with ⟨h1, h2⟩ | ⟨h1, h2, v, h3, h4⟩
    · exact Or.inl ⟨h1, fun v => ⟨(h2 v).1, fun ha => ih v ((h2 v).2 ha)⟩⟩
    · exact Or.inr ⟨h1, h2, v, h3, ih v h4⟩
  | wr a i v k ih => intro m tr h; obtain ⟨h1, h2, h3, h4, h5⟩ := h; exact ⟨h1, h2, h3, h4, ih h5⟩
  | rmw a i f k ih =>
    intro m tr h
    obtain ⟨h1, h2, ⟨h3, h4⟩ | ⟨h3, h4, h5, v, h6, h7⟩⟩ := h
    · exact ⟨h1, h2, Or.inl ⟨h3, fun v => ⟨(h4 v).1, fun ha => ih v ((h4 v).2 ha)⟩⟩⟩
    · exact ⟨h1, h2, Or.inr ⟨h3, h4, h5, v, h6, ih v h7⟩⟩
  | fail => intro m tr h; exact h

theorem wpA_pure {W R S : A → Int → Prop} {Ok : Ev ty → Prop} {Adm : List (Ev ty) → Prop} {a : α} {Q : α → List (Ev ty) → Mem ty → Prop} {m : Mem ty} {tr : List (Ev ty)} (h : Q a tr m) :
    wpA sz W R S Ok Adm (pure a) m tr Q := h

/-- A private read followed by the rest. -/
theorem wpA_rd {W R S : A → Int → Prop} {Ok : Ev ty → Prop} {Adm : List (Ev ty) → Prop} {a : A} {i : Int} {f : ty a → Prog ty α} {Q : α → List (Ev ty) → Mem ty → Prop}
    {m : Mem ty} {tr : List (Ev ty)} (v : ty a) (hS : ¬ S a i) (hR : R a i) (hv : m a i = some v) (h : wpA sz W R S Ok Adm (f v) m tr Q) :
    wpA sz W R S Ok Adm (Prog.read a i >>= f) m tr Q :=
  wpA_bind (Or.inr ⟨hS, hR, v, hv, h⟩)

/-- A read of a shared cell followed by the rest. -/
theorem wpA_rdS {W R S : A → Int → Prop} {Ok : Ev ty → Prop} {Adm : List (Ev ty) → Prop} {a : A} {i : Int} {f : ty a → Prog ty α} {Q : α → List (Ev ty) → Mem ty → Prop}
    {m : Mem ty} {tr : List (Ev ty)} (hS : S a i)
    (h : ∀ v, Ok ⟨a, i, v, v⟩ ∧ (Adm (tr ++ [⟨a, i, v, v⟩]) → wpA sz W R S Ok Adm (f v) m (tr ++ [⟨a, i, v, v⟩]) Q)) :
    wpA sz W R S Ok Adm (Prog.read a i >>= f) m tr Q :=
  wpA_bind (Or.inl ⟨hS, h⟩)

theorem wpA_wr {W R S : A → Int → Prop} {Ok : Ev ty → Prop} {Adm : List (Ev ty) → Prop} {a : A} {i : Int} {v : ty a} {f : Unit → Prog ty α} {Q : α → List (Ev ty) → Mem ty → Prop}
    {m : Mem ty} {tr : List (Ev ty)} (hS : ¬ S a i) (hW : W a i) (hb : 0 ≤ i ∧ i < sz a) (h : wpA sz W R S Ok Adm (f ()) (m.set a i v) tr Q) :
    wpA sz W R S Ok Adm (Prog.write a i v >>= f) m tr Q :=
  wpA_bind ⟨hS, hW, hb.1, hb.2, h⟩

/-- An atomic update followed by the rest. -/
theorem wpA_at {W R S : A → Int → Prop} {Ok : Ev ty → Prop} {Adm : List (Ev ty) → Prop} {a : A} {i : Int} {g : ty a → ty a} {f : ty a → Prog ty α} {Q : α → List (Ev ty) → Mem ty → Prop}
    {m : Mem ty} {tr : List (Ev ty)} (hS : S a i) (hb : 0 ≤ i ∧ i < sz a) 
    (h : ∀ v, Ok ⟨a, i, v, g v⟩ ∧ (Adm (tr ++ [⟨a, i, v, g v⟩]) → wpA sz W R S Ok Adm (f v) m (tr ++ [⟨a, i, v, g v⟩]) Q)) :
    wpA sz W R S Ok Adm (Prog.atomic a i g >>= f) m tr Q :=
  wpA_bind ⟨hb.1, hb.2, Or.inl ⟨hS, h⟩⟩

theorem wpA_loopUp {W R S : A → Int → Prop} {Ok : Ev ty → Prop} {Adm : List (Ev ty) → Prop} {body : Int → σ → Prog ty σ} (I : Int → σ → List (Ev ty) → Mem ty → Prop) (n : Nat) :
    ∀ (i : Int) (s : σ) (m : Mem ty) (tr : List (Ev ty)), I i s tr m →
      (∀ j s m tr, i ≤ j → j < i + n → I j s tr m → wpA sz W R S Ok Adm (body j s) m tr (fun s' tr' m' => I (j + 1) s' tr' m')) →
      wpA sz W R S Ok Adm (Prog.loopUp body n i s) m tr (fun s' tr' m' => I (i + n) s' tr' m') := by
  induction n with
  | zero => intro i s m tr h _; show I _ _ _ _; rw [Int.natCast_zero, Int.add_zero]; exact h
  | succ n ih =>
    intro i s m tr h hb
    show wpA sz W R S Ok Adm (body i s >>= fun s' => Prog.loopUp body n (i + 1) s') m tr _
    refine wpA_bind (wpA_mono (hb i s m tr (by omega) (by omega) h) ?_)
    intro s' tr' m' h'
    have := ih (i + 1) s' m' tr' h' (fun j s m tr h1 h2 => hb j s m tr (by omega) (by omega))
    rw [show i + 1 + (n : Int) = i + ((n + 1 : Nat) : Int) by omega] at this
    exact this

/-- `for (i = lo + b; i < hi + b; ++i)`. -/
theorem wpA_forN {W R S : A → Int → Prop} {Ok : Ev ty → Prop} {Adm : List (Ev ty) → Prop} {lo hi : Nat} {b : Int} {s : σ} {body : Int → σ → Prog ty σ} {m : Mem ty} {tr : List (Ev ty)}
    {Q : σ → List (Ev ty) → Mem ty → Prop}
    (I : Nat → σ → List (Ev ty) → Mem ty → Prop) (hle : lo ≤ hi) (h0 : I lo s tr m)
    (hstep : ∀ (i : Nat) (s : σ) (tr : List (Ev ty)) (m : Mem ty), lo ≤ i → i < hi → I i s tr m →
      wpA sz W R S Ok Adm (body ((i : Int) + b) s) m tr (fun s' tr' m' => I (i + 1) s' tr' m'))
    (hQ : ∀ s tr m, I hi s tr m → Q s tr m) {lo' hi' : Int} (e1 : lo' = (lo : Int) + b) (e2 : hi' = (hi : Int) + b) :
    wpA sz W R S Ok Adm (Prog.forUp lo' hi' s body) m tr Q := by
  subst e1; subst e2
  have := wpA_loopUp (sz := sz) (W := W) (R := R) (S := S) (Ok := Ok) (Adm := Adm) (body := body)
    (fun j s tr m => ∃ n : Nat, j = (n : Int) + b ∧ lo ≤ n ∧ I n s tr m) (hi - lo) ((lo : Int) + b) s m tr
    ⟨lo, rfl, Nat.le_refl _, h0⟩ (by
      rintro j s m tr h1 h2 ⟨n, rfl, h3, h4⟩
      refine wpA_mono (hstep n s tr m h3 (by omega) h4) ?_
      intro s' tr' m' h; exact ⟨n + 1, by omega, by omega, h⟩)
  unfold Prog.forUp
  rw [show ((hi : Int) + b - ((lo : Int) + b)).toNat = hi - lo by omega]
  refine wpA_mono this ?_
  rintro s' tr' m' ⟨n, h1, h2, h3⟩
  obtain rfl : n = hi := by omega
  exact hQ _ _ _ h3

/-- A program without shared accesses. -/
theorem wpA_of_wp {W R S : A → Int → Prop} {Ok : Ev ty → Prop} {Adm : List (Ev ty) → Prop} {p : Prog ty α} {Q : α → Mem ty → Prop} (hW : ∀ a i, W a i → ¬ S a i) (hR : ∀ a i, R a i → ¬ S a i) :
    ∀ {m : Mem ty} {tr : List (Ev ty)}, wp sz W R p m Q → wpA sz W R S Ok Adm p m tr (fun r tr' m' => tr' = tr ∧ Q r m') := by
  induction p with
  | ret a => intro m tr h; rw [wp_ret] at h; exact ⟨rfl, h⟩
  | rd a i k ih =>
    intro m tr h
    unfold wp at h
    obtain ⟨h1, v, h2, h3⟩ := h
    exact Or.inr ⟨hR _ _ h1, h1, v, h2, ih v h3⟩
  | wr a i v k ih =>
    intro m tr h
    unfold wp at h
    obtain ⟨h1, h2, h3, h4⟩ := h
    exact ⟨hW _ _ h1, h1, h2, h3, ih h4⟩
  | rmw a i f k ih =>
    intro m tr h
    unfold wp at h
    obtain ⟨h1, h2, h3, h4, v, h5, h6⟩ := h
    exact ⟨h2, h3, Or.inr ⟨hW _ _ h1, h1, h4, v, h5, ih v h6⟩⟩
  | fail => intro m tr h; exact (wp_fail.1 h).elim

/-- Sequences of accesses of thread `t` that occur in a run of the team in which every access is to a shared cell and `Ok`. -/
def Adm (m0 : Mem ty) (n : Nat) (S : A → Int → Prop) (Ok : Ev ty → Prop) (t : Nat) (tr : List (Ev ty)) : Prop :=
  ∃ (log : EvLog ty) (ms : Mem ty), EvRun m0 log ms ∧ (∀ e ∈ log, e.1 < n ∧ S e.2.a e.2.i ∧ Ok e.2) ∧ evOf t log = tr

/-- The rule. -/
theorem log_rule [Races A] {n : Nat} {ts : Nat → Prog ty α} {m0 : Mem ty} {Post : (Nat → α) → Mem ty → Prop}
    (W R : Nat → A → Int → Prop) (S : A → Int → Prop) (Ok : Ev ty → Prop) (Q : Nat → α → List (Ev ty) → Mem ty → Prop)
    (hS : ∀ a i, S a i → ∃ v, m0 a i = some v)
    (hdisj : ∀ t u a i, t < n → u < n → t ≠ u → W t a i → ¬ R u a i)
    (hwp : ∀ t, t < n → wpA sz (W t) (R t) S Ok (Adm m0 n S Ok t) (ts t) m0 [] (Q t))
    (hpost : ∀ (r : Nat → α) (log : EvLog ty) (ms m : Mem ty), EvRun m0 log ms → (∀ e ∈ log, e.1 < n ∧ S e.2.a e.2.i ∧ Ok e.2) →
      (∀ a i, S a i → m a i = ms a i) →
      (∀ t, t < n → ∃ mt, Q t (r t) (evOf t log) mt ∧ ∀ a i, ¬ S a i → R t a i → m a i = mt a i) →
      (∀ a i, ¬ S a i → (∀ t, t < n → ¬ W t a i) → m a i = m0 a i) → Post r m)
    (htol : ∀ a i, S a i → Races.tol a i)
    (hWR : ∀ t a i, t < n → W t a i → R t a i := by wr_le_rd) :
    ParOk sz n Post ts m0 := by
  let K : Nat → A → Int → Acc1 → Prop := fun t a i c => S a i ∨ (c = .rd ∧ R t a i) ∨ (c ≠ .rd ∧ W t a i)
  let Inv : EvLog ty → Mem ty → Prop := fun g m => ∃ ms, EvRun m0 g ms ∧ (∀ e ∈ g, e.1 < n ∧ S e.2.a e.2.i ∧ Ok e.2) ∧
    (∀ a i, S a i → m a i = ms a i) ∧ (∀ a i, ¬ S a i → (∀ t, t < n → ¬ W t a i) → m a i = m0 a i)
  let Rely : Nat → EvLog ty → Mem ty → EvLog ty → Mem ty → Prop := fun t g m g' m' => evOf t g' = evOf t g ∧
    ∀ a i, ¬ S a i → R t a i → m' a i = m a i
  let Guar : Nat → EvLog ty → Mem ty → EvLog ty → Mem ty → Prop := fun t g m g' m' => (∀ u, u ≠ t → evOf u g' = evOf u g) ∧
    ∀ a i, ¬ S a i → ¬ W t a i → m' a i = m a i
  have hrefl : ∀ t g m, Rely t g m g m := fun t g m => ⟨rfl, fun _ _ _ _ => rfl⟩
  have htrans : ∀ t g1 m1 g2 m2 g3 m3, Rely t g1 m1 g2 m2 → Rely t g2 m2 g3 m3 → Rely t g1 m1 g3 m3 :=
    fun t g1 m1 g2 m2 g3 m3 h1 h2 => ⟨h2.1.trans h1.1, fun a i h3 h4 => (h2.2 a i h3 h4).trans (h1.2 a i h3 h4)⟩
  have step : ∀ t, t < n → ∀ g m (e : Ev ty), Inv g m → S e.a e.i → Ok e → m e.a e.i = some e.old →
      Inv (g ++ [(t, e)]) (m.set e.a e.i e.new) ∧ Guar t g m (g ++ [(t, e)]) (m.set e.a e.i e.new) := by
    rintro t ht g m e ⟨ms, h1, h2, h3, h4⟩ hSe hOk he
    refine ⟨⟨ms.set e.a e.i e.new, h1.snoc t e ((h3 _ _ hSe).symm.trans he), ?_, ?_, ?_⟩, ?_, ?_⟩
    · intro x hx
      rcases List.mem_append.mp hx with hx | hx
      · exact h2 x hx
      · rw [List.mem_singleton.mp hx]; exact ⟨ht, hSe, hOk⟩
    · intro a i hs
      unfold Mem.set
      split
      · split
        · rfl
        · exact h3 _ _ hs
      · exact h3 _ _ hs
    · intro a i hs hw
      rcases Mem.set_cases m e.a e.i e.new a i with ⟨rfl, rfl⟩ | h
      · exact absurd hSe hs
      · rw [h]; exact h4 a i hs hw
    · intro u hu
      rw [evOf_append, evOf_other (Ne.symm hu), List.append_nil]
    · intro a i hs _
      rcases Mem.set_cases m e.a e.i e.new a i with ⟨rfl, rfl⟩ | h
      · exact absurd hSe hs
      · exact h
  have wstep : ∀ t, t < n → ∀ g m a i (v : ty a), ¬ S a i → W t a i → Inv g m → Inv g (m.set a i v) ∧ Guar t g m g (m.set a i v) := by
    rintro t ht g m a i v h1 h2 ⟨ms, i1, i2, i3, i4⟩
    refine ⟨⟨ms, i1, i2, ?_, ?_⟩, fun _ _ => rfl, ?_⟩
    · intro b j hb
      rcases Mem.set_cases m a i v b j with ⟨rfl, rfl⟩ | h
      · exact absurd hb h1
      · rw [h]; exact i3 b j hb
    · intro b j hb hw
      rcases Mem.set_cases m a i v b j with ⟨rfl, rfl⟩ | h
      · exact absurd h2 (hw t ht)
      · rw [h]; exact i4 b j hb hw
    · intro b j hb1 hb2
      rcases Mem.set_cases m a i v b j with ⟨rfl, rfl⟩ | h
      · exact absurd h2 hb2
      · exact h
  have conv : ∀ t, t < n → ∀ (p : Prog ty α) (mt : Mem ty) (tr : List (Ev ty)) (g : EvLog ty) (m : Mem ty),
      wpA sz (W t) (R t) S Ok (Adm m0 n S Ok t) p mt tr (Q t) → evOf t g = tr → (∀ a i, ¬ S a i → R t a i → m a i = mt a i) →
      wpRGk sz Inv (Rely t) (Guar t) (K t) p g m (fun r g' m' => ∃ mt', Q t r (evOf t g') mt' ∧ ∀ a i, ¬ S a i → R t a i → m' a i = mt' a i) := by
    intro t ht p
    induction p with
    | ret a =>
      rintro mt tr g m h htr hag g' m' ⟨r1, r2⟩ _
      refine ⟨mt, by rw [r1, htr]; exact h, fun a i h1 h2 => (r2 a i h1 h2).trans (hag a i h1 h2)⟩
    | rd a i k ih =>
      rintro mt tr g m h htr hag g' m' ⟨r1, r2⟩ hinv
      rcases h with ⟨h1, h2⟩ | ⟨h1, h2, v, h3, h4⟩
      · obtain ⟨ms, i1, i2, i3, i4⟩ := hinv
        obtain ⟨v, hv⟩ := i1.init (hS a i h1)
        have hv' : m' a i = some v := (i3 a i h1).trans hv
        refine ⟨Or.inl h1, v, hv', ?_⟩
        obtain ⟨s1, s2⟩ := step t ht g' m' ⟨a, i, v, v⟩ ⟨ms, i1, i2, i3, i4⟩ h1 (h2 v).1 hv'
        have hset : m'.set a i v = m' := by
          funext b j
          rcases Mem.set_cases m' a i v b j with ⟨rfl, rfl⟩ | h
          · rw [hv']; simp [Mem.set]
          · exact h
        have s1 : Inv (g' ++ [(t, ⟨a, i, v, v⟩)]) (m'.set a i v) := s1
        have s2 : Guar t g' m' (g' ++ [(t, ⟨a, i, v, v⟩)]) (m'.set a i v) := s2
        rw [hset] at s1 s2
        have htr' : evOf t (g' ++ [(t, ⟨a, i, v, v⟩)]) = tr ++ [⟨a, i, v, v⟩] := by rw [evOf_append, evOf_self, r1, htr]
        refine ⟨_, s2, s1, ih v mt _ _ _ ((h2 v).2 ?_) htr' ?_⟩
        · obtain ⟨ms', j1, j2, _⟩ := s1
          exact ⟨_, ms', j1, j2, htr'⟩
        · intro b j hb1 hb2; exact (r2 b j hb1 hb2).trans (hag b j hb1 hb2)
      · refine ⟨Or.inr (Or.inl ⟨rfl, h2⟩), v, (r2 a i h1 h2).trans ((hag a i h1 h2).trans h3), g', ⟨fun _ _ => rfl, fun _ _ _ _ => rfl⟩, hinv, ih v mt tr _ _ h4 (r1.trans htr) ?_⟩
        intro b j hb1 hb2; exact (r2 b j hb1 hb2).trans (hag b j hb1 hb2)
    | wr a i v k ih =>
      rintro mt tr g m h htr hag g' m' ⟨r1, r2⟩ hinv
      obtain ⟨h1, h2, h3, h4, h5⟩ := h
      refine ⟨Or.inr (Or.inr ⟨by simp, h2⟩), h3, h4, g', (wstep t ht g' m' a i v h1 h2 hinv).2, (wstep t ht g' m' a i v h1 h2 hinv).1,
        ih _ tr _ _ h5 (r1.trans htr) ?_⟩
      · intro b j hb1 hb2
        have := (r2 b j hb1 hb2).trans (hag b j hb1 hb2)
        unfold Mem.set
        split
        · split
          · rfl
          · exact this
        · exact this
    | rmw a i f k ih =>
      rintro mt tr g m h htr hag g' m' ⟨r1, r2⟩ hinv
      obtain ⟨h2, h3, ⟨h1, h4⟩ | ⟨h1, h4, h5, v, h6, h7⟩⟩ := h
      · obtain ⟨ms, i1, i2, i3, i4⟩ := hinv
        obtain ⟨v, hv⟩ := i1.init (hS a i h1)
        have hv' : m' a i = some v := (i3 a i h1).trans hv
        obtain ⟨s1, s2⟩ := step t ht g' m' ⟨a, i, v, f v⟩ ⟨ms, i1, i2, i3, i4⟩ h1 (h4 v).1 hv'
        have htr' : evOf t (g' ++ [(t, ⟨a, i, v, f v⟩)]) = tr ++ [⟨a, i, v, f v⟩] := by rw [evOf_append, evOf_self, r1, htr]
        refine ⟨Or.inl h1, h2, h3, v, hv', _, s2, s1, ih v mt _ _ _ ((h4 v).2 ?_) htr' ?_⟩
        · obtain ⟨ms', j1, j2, _⟩ := s1
          exact ⟨_, ms', j1, j2, htr'⟩
        · intro b j hb1 hb2
          rcases Mem.set_cases m' a i (f v) b j with ⟨rfl, rfl⟩ | h
          · exact absurd h1 hb1
          · exact h.trans ((r2 b j hb1 hb2).trans (hag b j hb1 hb2))
      · refine ⟨Or.inr (Or.inr ⟨by simp, h4⟩), h2, h3, v, (r2 a i h1 h5).trans ((hag a i h1 h5).trans h6), g', (wstep t ht g' m' a i (f v) h1 h4 hinv).2,
          (wstep t ht g' m' a i (f v) h1 h4 hinv).1, ih v _ tr _ _ h7 (r1.trans htr) ?_⟩
        intro b j hb1 hb2
        have := (r2 b j hb1 hb2).trans (hag b j hb1 hb2)
        unfold Mem.set
        split
        · split
          · rfl
          · exact this
        · exact this
    | fail => intro mt tr g m h; exact h.elim
  refine rgk_rule (Γ := EvLog ty) Inv Rely Guar K ?_ (fun t r g m => ∃ mt, Q t r (evOf t g) mt ∧ ∀ a i, ¬ S a i → R t a i → m a i = mt a i)
    [] ⟨m0, EvRun.nil, by simp, fun _ _ _ => rfl, fun _ _ _ _ => rfl⟩ hrefl htrans ?_ ?_ ?_
  · rintro t u a i c d ht hu htu h1 h2 ⟨h3, h4⟩
    rcases h1 with h1 | ⟨e1, r1⟩ | ⟨e1, r1⟩
    · exact htol a i h1
    · rcases h2 with h2 | ⟨e2, r2⟩ | ⟨e2, r2⟩
      · exact htol a i h2
      · exact absurd ⟨e1, e2⟩ h3
      · exact absurd r1 (hdisj u t a i hu ht (fun e => htu e.symm) r2)
    · rcases h2 with h2 | ⟨e2, r2⟩ | ⟨e2, r2⟩
      · exact htol a i h2
      · exact absurd r2 (hdisj t u a i ht hu htu r1)
      · exact absurd (hWR u a i hu r2) (hdisj t u a i ht hu htu r1)
  · intro t u g m g' m' ht hu htu _ _ hg
    refine ⟨hg.1 u (Ne.symm htu), ?_⟩
    intro a i h1 h2
    exact hg.2 a i h1 (fun hw => hdisj t u a i ht hu htu hw h2)
  · intro t ht
    exact conv t ht (ts t) m0 [] [] m0 (hwp t ht) rfl (fun _ _ _ _ => rfl)
  · rintro r g m ⟨ms, i1, i2, i3, i4⟩ hq
    exact hpost r g ms m i1 i2 i3 hq i4

end

end SpMP
