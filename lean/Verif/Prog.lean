/-
Core of the model: thread programs over C arrays, their interleaving semantics, and the two proof rules
(sequential weakest precondition, race-free parallel phase) used by all function models.

This file models no particular function of /repo. It is the semantics in which the function models are
written. Relation to the C++ code: an array cell read/write is one atomic step (sequentially consistent
interleaving); reading a never-written cell, writing outside the allocated size and a failing assert are
errors (`Stuck`), never "some value".
-/

namespace SpMP

/-- Memory: for every array `a` and index `i`, `none` = not allocated or never written. -/
abbrev Mem {A : Type} (ty : A → Type) := (a : A) → Int → Option (ty a)

section
variable {A : Type} [DecidableEq A] {ty : A → Type}

/-- Store `v` into cell `i` of array `a`. -/
def Mem.set (m : Mem ty) (a : A) (i : Int) (v : ty a) : Mem ty := fun b j =>
  if h : b = a then (if j = i then some (h ▸ v) else m b j) else m b j

@[simp] theorem Mem.set_same (m : Mem ty) (a : A) (i : Int) (v : ty a) (j : Int) :
    m.set a i v a j = if j = i then some v else m a j := by
  simp [Mem.set]

@[simp] theorem Mem.set_other (m : Mem ty) (a b : A) (i : Int) (v : ty a) (h : b ≠ a) :
    m.set a i v b = m b := by
  funext j; simp [Mem.set, h]

theorem Mem.set_cases (m : Mem ty) (a : A) (i : Int) (v : ty a) (b : A) (j : Int) :
    (b = a ∧ j = i) ∨ m.set a i v b j = m b j := by
  by_cases h : b = a
  · subst h
    by_cases h2 : j = i
    · exact Or.inl ⟨rfl, h2⟩
    · right; simp [h2]
  · right; rw [Mem.set_other _ _ _ _ _ h]

end

/-- Thread code: a finite tree of single memory accesses.
`rmw` is an atomic read-modify-write (`__sync_fetch_and_add`, `__sync_bool_compare_and_swap`, ...).
`fail` is an assertion failure or other undefined behaviour. -/
inductive Prog {A : Type} (ty : A → Type) (α : Type) : Type where
  | ret (a : α) : Prog ty α
  | rd (a : A) (i : Int) (k : ty a → Prog ty α) : Prog ty α
  | wr (a : A) (i : Int) (v : ty a) (k : Prog ty α) : Prog ty α
  | rmw (a : A) (i : Int) (f : ty a → ty a) (k : ty a → Prog ty α) : Prog ty α
  | fail : Prog ty α

namespace Prog
variable {A : Type} {ty : A → Type} {α β σ : Type}

/-- Sequencing. -/
def bind : Prog ty α → (α → Prog ty β) → Prog ty β
  | ret a, f => f a
  | rd a i k, f => rd a i (fun v => bind (k v) f)
  | wr a i v k, f => wr a i v (bind k f)
  | rmw a i g k, f => rmw a i g (fun v => bind (k v) f)
  | fail, _ => fail

instance : Monad (Prog ty) where
  pure := ret
  bind := bind

/-- `x = a[i]` -/
def read (a : A) (i : Int) : Prog ty (ty a) := rd a i ret
/-- `a[i] = v` -/
def write (a : A) (i : Int) (v : ty a) : Prog ty Unit := wr a i v (ret ())
/-- atomic update returning the old value -/
def atomic (a : A) (i : Int) (f : ty a → ty a) : Prog ty (ty a) := rmw a i f ret
/-- `assert(c)` -/
def assert (c : Prop) [Decidable c] : Prog ty Unit := if c then ret () else fail

/-- `n` loop iterations starting at counter `i`, carrying the loop's local variables `s`. -/
def loopUp (body : Int → σ → Prog ty σ) : Nat → Int → σ → Prog ty σ
  | 0, _, s => ret s
  | n + 1, i, s => bind (body i s) (fun s' => loopUp body n (i + 1) s')

/-- `for (int i = lo; i < hi; ++i)` with local state `s`. -/
def forUp (lo hi : Int) (s : σ) (body : Int → σ → Prog ty σ) : Prog ty σ :=
  loopUp body (hi - lo).toNat lo s

/-- `n` loop iterations counting down from counter `i`. -/
def loopDown (body : Int → σ → Prog ty σ) : Nat → Int → σ → Prog ty σ
  | 0, _, s => ret s
  | n + 1, i, s => bind (body i s) (fun s' => loopDown body n (i - 1) s')

/-- `for (int i = hi - 1; i >= lo; --i)` with local state `s`. -/
def forDown (hi lo : Int) (s : σ) (body : Int → σ → Prog ty σ) : Prog ty σ :=
  loopDown body (hi - lo).toNat (hi - 1) s

end Prog

/-! ### Operational semantics -/

section
variable {A : Type} [DecidableEq A] {ty : A → Type} {α β σ : Type}

/-- One memory access of one thread. `sz a` is the allocated length of array `a`. -/
inductive Step (sz : A → Int) : Prog ty α → Mem ty → Prog ty α → Mem ty → Prop
  | rd {a i k v} {m : Mem ty} : m a i = some v → Step sz (.rd a i k) m (k v) m
  | wr {a i v k} {m : Mem ty} : 0 ≤ i → i < sz a → Step sz (.wr a i v k) m k (m.set a i v)
  | rmw {a i f k v} {m : Mem ty} : m a i = some v → 0 ≤ i → i < sz a →
      Step sz (.rmw a i f k) m (k v) (m.set a i (f v))

/-- Undefined behaviour: the thread's next access is an error. -/
def Stuck (sz : A → Int) : Prog ty α → Mem ty → Prop
  | .ret _, _ => False
  | .rd a i _, m => m a i = none
  | .wr a i _ _, _ => ¬ (0 ≤ i ∧ i < sz a)
  | .rmw a i _ _, m => m a i = none ∨ ¬ (0 ≤ i ∧ i < sz a)
  | .fail, _ => True

/-- One step of a team of `n` threads: some thread performs one access. -/
def PStep (sz : A → Int) (n : Nat) (ts : Nat → Prog ty α) (m : Mem ty)
    (ts' : Nat → Prog ty α) (m' : Mem ty) : Prop :=
  ∃ t, t < n ∧ ∃ p', Step sz (ts t) m p' m' ∧ ts' = fun u => if u = t then p' else ts u

/-- Kinds of memory accesses: plain read, plain write, atomic read-modify-write. -/
inductive Acc1 where
  | rd
  | wr
  | at
deriving DecidableEq

/-- The next memory access of a thread. -/
def Prog.next : Prog ty α → Option (A × Int × Acc1)
  | .ret _ => none
  | .rd a i _ => some (a, i, .rd)
  | .wr a i _ _ => some (a, i, .wr)
  | .rmw a i _ _ => some (a, i, .at)
  | .fail => none

/-- Two accesses to one cell conflict unless both are reads or both are atomic. -/
def Acc1.Conflict (c d : Acc1) : Prop := ¬ (c = .rd ∧ d = .rd) ∧ ¬ (c = .at ∧ d = .at)

instance (c d : Acc1) : Decidable (c.Conflict d) := by unfold Acc1.Conflict; infer_instance

/-- A data race on cell `i` of array `a`: two threads are both about to access it, and the accesses conflict. -/
def Race (p q : Prog ty α) (a : A) (i : Int) : Prop :=
  ∃ c d, p.next = some (a, i, c) ∧ q.next = some (a, i, d) ∧ c.Conflict d

/-- The cells on which data races are tolerated. A theorem for every `Races` holds for `Races.none` in particular, so it includes the
absence of data races. Where nothing is said all cells are meant (the instance below). -/
class Races (A : Type) where
  tol : A → Int → Prop

/-- No data race anywhere. -/
@[reducible] def Races.none : Races A := ⟨fun _ _ => False⟩

instance (priority := low) Races.any : Races A := ⟨fun _ _ => True⟩

/-- All races are tolerated. -/
class RacesAll (A : Type) [Races A] : Prop where
  all : ∀ (a : A) (i : Int), Races.tol a i

instance (priority := low) : RacesAll A := ⟨fun _ _ => trivial⟩

/-- `ParOk sz n Post ts m`: every interleaving of the `n` thread programs `ts` from memory `m` is free of
undefined behaviour, is finite, and ends (all threads returned) in a state satisfying `Post`; data races occur only on tolerated cells.
(Inductive, so an infinite interleaving would not be accepted.) -/
inductive ParOk [Races A] (sz : A → Int) (n : Nat) (Post : (Nat → α) → Mem ty → Prop) :
    (Nat → Prog ty α) → Mem ty → Prop
  | mk {ts m} :
      (∀ t, t < n → ¬ Stuck sz (ts t) m) →
      (∀ r : Nat → α, (∀ t, t < n → ts t = .ret (r t)) → Post r m) →
      (∀ t u a i, t < n → u < n → t ≠ u → Race (ts t) (ts u) a i → Races.tol a i) →
      (∀ ts' m', PStep sz n ts m ts' m' → ParOk sz n Post ts' m') →
      ParOk sz n Post ts m

/-! ### Sequential weakest precondition with access rights -/

/-- `wp sz W R p m Q`: running `p` alone from `m` accesses only cells it may read (`R`) or write (`W`),
meets no undefined behaviour and ends with result and memory satisfying `Q`. -/
def wp (sz : A → Int) (W R : A → Int → Prop) : Prog ty α → Mem ty → (α → Mem ty → Prop) → Prop
  | .ret a, m, Q => Q a m
  | .rd a i k, m, Q => R a i ∧ ∃ v, m a i = some v ∧ wp sz W R (k v) m Q
  | .wr a i v k, m, Q => W a i ∧ 0 ≤ i ∧ i < sz a ∧ wp sz W R k (m.set a i v) Q
  | .rmw a i f k, m, Q => W a i ∧ 0 ≤ i ∧ i < sz a ∧ R a i ∧
      ∃ v, m a i = some v ∧ wp sz W R (k v) (m.set a i (f v)) Q
  | .fail, _, _ => False

variable {sz : A → Int} {W R : A → Int → Prop}

theorem wp_mono {p : Prog ty α} {m : Mem ty} {Q Q' : α → Mem ty → Prop}
    (h : wp sz W R p m Q) (hq : ∀ a m', Q a m' → Q' a m') : wp sz W R p m Q' := by
  induction p generalizing m with
  | ret a => exact hq _ _ h
  | rd a i k ih => obtain ⟨h1, v, h2, h3⟩ := h; exact ⟨h1, v, h2, ih v h3⟩
  | wr a i v k ih => obtain ⟨h1, h2, h3, h4⟩ := h; exact ⟨h1, h2, h3, ih h4⟩
  | rmw a i f k ih =>
    obtain ⟨h1, h2, h3, h4, v, h5, h6⟩ := h; exact ⟨h1, h2, h3, h4, v, h5, ih v h6⟩
  | fail => exact h

theorem wp_bind' {p : Prog ty α} {f : α → Prog ty β} {m : Mem ty} {Q : β → Mem ty → Prop} :
    wp sz W R (p.bind f) m Q ↔ wp sz W R p m (fun a m' => wp sz W R (f a) m' Q) := by
  induction p generalizing m with
  | ret a => exact Iff.rfl
  | rd a i k ih => simp only [Prog.bind, wp, ih]
  | wr a i v k ih => simp only [Prog.bind, wp, ih]
  | rmw a i g k ih => simp only [Prog.bind, wp, ih]
  | fail => exact Iff.rfl

@[simp] theorem wp_bind {p : Prog ty α} {f : α → Prog ty β} {m : Mem ty} {Q : β → Mem ty → Prop} :
    wp sz W R (p >>= f) m Q ↔ wp sz W R p m (fun a m' => wp sz W R (f a) m' Q) := wp_bind'

@[simp] theorem wp_pure {a : α} {m : Mem ty} {Q : α → Mem ty → Prop} :
    wp sz W R (pure a : Prog ty α) m Q ↔ Q a m := Iff.rfl

@[simp] theorem wp_ret {a : α} {m : Mem ty} {Q : α → Mem ty → Prop} :
    wp sz W R (Prog.ret a : Prog ty α) m Q ↔ Q a m := Iff.rfl

@[simp] theorem wp_read {a : A} {i : Int} {m : Mem ty} {Q : ty a → Mem ty → Prop} :
    wp sz W R (Prog.read a i) m Q ↔ R a i ∧ ∃ v, m a i = some v ∧ Q v m := Iff.rfl

@[simp] theorem wp_write {a : A} {i : Int} {v : ty a} {m : Mem ty} {Q : Unit → Mem ty → Prop} :
    wp sz W R (Prog.write a i v) m Q ↔ W a i ∧ 0 ≤ i ∧ i < sz a ∧ Q () (m.set a i v) := Iff.rfl

@[simp] theorem wp_assert {c : Prop} [Decidable c] {m : Mem ty} {Q : Unit → Mem ty → Prop} :
    wp sz W R (Prog.assert c : Prog ty Unit) m Q ↔ c ∧ Q () m := by
  unfold Prog.assert; split <;> simp_all [wp]

@[simp] theorem wp_fail {m : Mem ty} {Q : α → Mem ty → Prop} :
    wp sz W R (Prog.fail : Prog ty α) m Q ↔ False := Iff.rfl

@[simp] theorem wp_ite {c : Prop} [Decidable c] {p q : Prog ty α} {m : Mem ty}
    {Q : α → Mem ty → Prop} :
    wp sz W R (if c then p else q) m Q ↔ (c → wp sz W R p m Q) ∧ (¬ c → wp sz W R q m Q) := by
  split <;> simp_all

theorem wp_loopUp {body : Int → σ → Prog ty σ} (I : Int → σ → Mem ty → Prop) (n : Nat) :
    ∀ (lo : Int) (s : σ) (m : Mem ty) {Q : σ → Mem ty → Prop},
      I lo s m →
      (∀ i s m, lo ≤ i → i < lo + n → I i s m →
        wp sz W R (body i s) m (fun s' m' => I (i + 1) s' m')) →
      (∀ s m, I (lo + n) s m → Q s m) →
      wp sz W R (Prog.loopUp body n lo s) m Q := by
  induction n with
  | zero => intro lo s m Q h0 _ hQ; exact hQ _ _ (by simpa using h0)
  | succ n ih =>
    intro lo s m Q h0 hstep hQ
    unfold Prog.loopUp
    rw [wp_bind']
    refine wp_mono (hstep lo s m (by omega) (by omega) h0) ?_
    intro s' m' h'
    refine ih (lo + 1) s' m' h' ?_ ?_
    · intro i s m h1 h2 h3; exact hstep i s m (by omega) (by omega) h3
    · intro s m h; exact hQ s m (by have : lo + 1 + (n : Int) = lo + ((n + 1 : Nat) : Int) := by omega
                                    rw [this] at h; exact h)

/-- Invariant rule for `for (i = lo; i < hi; ++i)`; the loop ends with `i = max lo hi`. -/
theorem wp_forUp {lo hi : Int} {s : σ} {body : Int → σ → Prog ty σ} {m : Mem ty}
    {Q : σ → Mem ty → Prop} (I : Int → σ → Mem ty → Prop)
    (h0 : I lo s m)
    (hstep : ∀ i s m, lo ≤ i → i < hi → I i s m →
      wp sz W R (body i s) m (fun s' m' => I (i + 1) s' m'))
    (hQ : ∀ s m, I (max lo hi) s m → Q s m) :
    wp sz W R (Prog.forUp lo hi s body) m Q := by
  unfold Prog.forUp
  refine wp_loopUp I _ lo s m h0 ?_ ?_
  · intro i s m h1 h2 h3; exact hstep i s m h1 (by omega) h3
  · intro s m h
    have : lo + ((hi - lo).toNat : Int) = max lo hi := by omega
    rw [this] at h; exact hQ s m h

theorem wp_loopDown {body : Int → σ → Prog ty σ} (I : Int → σ → Mem ty → Prop) (n : Nat) :
    ∀ (hi : Int) (s : σ) (m : Mem ty) {Q : σ → Mem ty → Prop},
      I hi s m →
      (∀ i s m, hi - n < i → i ≤ hi → I i s m →
        wp sz W R (body i s) m (fun s' m' => I (i - 1) s' m')) →
      (∀ s m, I (hi - n) s m → Q s m) →
      wp sz W R (Prog.loopDown body n hi s) m Q := by
  induction n with
  | zero => intro lo s m Q h0 _ hQ; exact hQ _ _ (by simpa using h0)
  | succ n ih =>
    intro hi s m Q h0 hstep hQ
    unfold Prog.loopDown
    rw [wp_bind']
    refine wp_mono (hstep hi s m (by omega) (by omega) h0) ?_
    intro s' m' h'
    refine ih (hi - 1) s' m' h' ?_ ?_
    · intro i s m h1 h2 h3; exact hstep i s m (by omega) (by omega) h3
    · intro s m h; exact hQ s m (by have : hi - 1 - (n : Int) = hi - ((n + 1 : Nat) : Int) := by omega
                                    rw [this] at h; exact h)

/-- Invariant rule for `for (i = hi - 1; i >= lo; --i)`: `I i` holds when cells `i ..< hi` are done. -/
theorem wp_forDown {hi lo : Int} {s : σ} {body : Int → σ → Prog ty σ} {m : Mem ty}
    {Q : σ → Mem ty → Prop} (I : Int → σ → Mem ty → Prop)
    (h0 : I hi s m)
    (hstep : ∀ i s m, lo ≤ i → i < hi → I (i + 1) s m →
      wp sz W R (body i s) m (fun s' m' => I i s' m'))
    (hQ : ∀ s m, I (min lo hi) s m → Q s m) :
    wp sz W R (Prog.forDown hi lo s body) m Q := by
  unfold Prog.forDown
  refine wp_loopDown (fun i s m => I (i + 1) s m) _ (hi - 1) s m ?_ ?_ ?_
  · show I (hi - 1 + 1) s m
    have : hi - 1 + 1 = hi := by omega
    rw [this]; exact h0
  · intro i s m h1 h2 h3
    refine wp_mono (hstep i s m (by omega) (by omega) h3) ?_
    intro s' m' h
    show I (i - 1 + 1) s' m'
    have : i - 1 + 1 = i := by omega
    rw [this]; exact h
  · intro s m h
    have : hi - 1 - ((hi - lo).toNat : Int) + 1 = min lo hi := by omega
    simp only [this] at h; exact hQ s m h

/-! ### The parallel phase rule -/

/-- The next access of a thread is one it has the right to. -/
theorem wp_next {p : Prog ty α} {m : Mem ty} {Q : α → Mem ty → Prop} {a : A} {i : Int} {c : Acc1} (h : wp sz W R p m Q)
    (hn : p.next = some (a, i, c)) : (c = .rd ∧ R a i) ∨ (c ≠ .rd ∧ W a i) := by
  cases p with
  | ret _ => cases hn
  | rd b j k => cases hn; exact Or.inl ⟨rfl, h.1⟩
  | wr b j v k => cases hn; exact Or.inr ⟨by simp, h.1⟩
  | rmw b j f k => cases hn; exact Or.inr ⟨by simp, h.1⟩
  | fail => cases hn

/-- Closes `W t a i → R t a i` for the usual rights. -/
macro "wr_le_rd" : tactic => `(tactic| (intros; rename_i h; first
  | exact h | exact True.intro | exact Or.inl h | exact Or.inr h | exact Or.inr (Or.inl h) | exact Or.inr (Or.inr h)
  | exact Or.inr (Or.inr (Or.inl h)) | exact Or.inr (Or.inr (Or.inr h)) | exact Or.inl (Or.inl h) | exact Or.inl (Or.inr h)
  | exact Or.inr h.2 | exact Or.inr (Or.inr h.2)))

/-- If every thread, run alone from any memory, stays inside its rights, and no thread may write a cell that
another thread may access, then every interleaving is error free, finite, and ends in a memory that agrees
with each thread's private final memory on that thread's cells and with the initial memory elsewhere. -/
theorem par_rule [Races A] {n : Nat} {ts : Nat → Prog ty α} {m0 : Mem ty}
    {Post : (Nat → α) → Mem ty → Prop}
    (W R : Nat → A → Int → Prop) (Q : Nat → α → Mem ty → Prop)
    (hdisj : ∀ t u a i, t < n → u < n → t ≠ u → W t a i → ¬ R u a i)
    (hwp : ∀ t, t < n → wp sz (W t) (R t) (ts t) m0 (Q t))
    (hpost : ∀ (r : Nat → α) (m : Mem ty),
      (∀ t, t < n → ∃ mt, Q t (r t) mt ∧ ∀ a i, R t a i → m a i = mt a i) →
      (∀ a i, (∀ t, t < n → ¬ W t a i) → m a i = m0 a i) → Post r m)
    (hWR : ∀ t a i, t < n → W t a i → R t a i := by wr_le_rd) :
    ParOk sz n Post ts m0 := by
  -- generalise: current programs `ts`, private memories
  suffices H : ∀ (ts : Nat → Prog ty α) (m : Mem ty) (ms : Nat → Mem ty),
      (∀ t, t < n → wp sz (W t) (R t) (ts t) (ms t) (Q t)) →
      (∀ t, t < n → ∀ a i, R t a i → m a i = ms t a i) →
      (∀ a i, (∀ t, t < n → ¬ W t a i) → m a i = m0 a i) →
      ParOk sz n Post ts m by
    exact H ts m0 (fun _ => m0) hwp (fun _ _ _ _ _ => rfl) (fun _ _ _ => rfl)
  -- Child relation on programs
  let child : Prog ty α → Prog ty α → Prop := fun p' p =>
    ∃ (m : Mem ty) (m' : Mem ty), Step sz p m p' m'
  have accP : ∀ p : Prog ty α, Acc child p := by
    intro p
    induction p with
    | ret a => constructor; rintro y ⟨m, m', h⟩; cases h
    | rd a i k ih => constructor; rintro y ⟨m, m', h⟩; cases h; exact ih _
    | wr a i v k ih => constructor; rintro y ⟨m, m', h⟩; cases h; exact ih
    | rmw a i f k ih => constructor; rintro y ⟨m, m', h⟩; cases h; exact ih _
    | fail => constructor; rintro y ⟨m, m', h⟩; cases h
  -- team descent: exactly one of the first `d` components descends
  have accT : ∀ (d : Nat), d ≤ n → ∀ ts : Nat → Prog ty α,
      Acc (fun ts' ts => ∃ t, t < d ∧ ∃ p', child p' (ts t) ∧
        ts' = fun u => if u = t then p' else ts u) ts := by
    intro d
    induction d with
    | zero => intro _ ts; constructor; rintro y ⟨t, h, _⟩; omega
    | succ d ihd =>
      intro hd ts
      -- induction on component d, then on the first d components
      have key : ∀ p, Acc child p → ∀ ts : Nat → Prog ty α, ts d = p →
          Acc (fun ts' ts => ∃ t, t < d + 1 ∧ ∃ p', child p' (ts t) ∧
            ts' = fun u => if u = t then p' else ts u) ts := by
        intro p hp
        induction hp with
        | intro p _ ihp =>
          intro ts hts
          have hacc := ihd (by omega) ts
          induction hacc with
          | intro ts _ iht =>
            constructor
            rintro ts' ⟨t, ht, p', hc, rfl⟩
            by_cases htd : t = d
            · subst htd
              exact ihp p' (by rw [← hts]; exact hc) _ (by simp)
            · refine iht _ ⟨t, by omega, p', hc, rfl⟩ ?_
              show (if d = t then p' else ts d) = p
              rw [if_neg (fun h => htd h.symm)]; exact hts
      exact key (ts d) (accP _) ts rfl
  intro ts
  have hts := accT n (Nat.le_refl _) ts
  induction hts with
  | intro ts _ ih =>
    intro m ms hwp hag hframe
    refine ParOk.mk ?_ ?_ ?_ ?_
    · intro t ht
      have h := hwp t ht
      have hag' := hag t ht
      cases hp : ts t with
      | ret a => simp [Stuck]
      | rd a i k =>
        rw [hp] at h; obtain ⟨h1, v, h2, _⟩ := h
        simp [Stuck, hag' a i h1, h2]
      | wr a i v k =>
        rw [hp] at h; obtain ⟨_, h2, h3, _⟩ := h
        simp [Stuck, h2, h3]
      | rmw a i f k =>
        rw [hp] at h; obtain ⟨_, h2, h3, h4, v, h5, _⟩ := h
        simp [Stuck, hag' a i h4, h5, h2, h3]
      | fail => rw [hp] at h; exact h.elim
    · intro r hr
      refine hpost r m ?_ hframe
      intro t ht
      refine ⟨ms t, ?_, hag t ht⟩
      have h := hwp t ht
      rw [hr t ht] at h; exact h
    · rintro t u a i ht hu htu ⟨c, d, h1, h2, h3, h4⟩
      exfalso
      rcases wp_next (hwp t ht) h1 with ⟨e1, r1⟩ | ⟨e1, r1⟩
      · rcases wp_next (hwp u hu) h2 with ⟨e2, r2⟩ | ⟨e2, r2⟩
        · exact h3 ⟨e1, e2⟩
        · exact hdisj u t a i hu ht (fun e => htu e.symm) r2 r1
      · rcases wp_next (hwp u hu) h2 with ⟨e2, r2⟩ | ⟨e2, r2⟩
        · exact hdisj t u a i ht hu htu r1 r2
        · exact hdisj t u a i ht hu htu r1 (hWR u a i hu r2)
    · rintro ts' m' ⟨t, ht, p', hstep, rfl⟩
      have h := hwp t ht
      -- effect of the step on memories
      have main : ∃ mt', wp sz (W t) (R t) p' mt' (Q t) ∧
          (∀ a i, R t a i → m' a i = mt' a i) ∧
          (∀ a i, m' a i = m a i ∨ W t a i) := by
        revert h
        generalize ts t = p at hstep
        intro h
        cases hstep with
        | @rd a i k v _ hv =>
          obtain ⟨h1, v', h2, h3⟩ := h
          have : v' = v := by
            have := hag t ht a i h1; rw [hv, h2] at this; injection this with this; exact this.symm
          subst this
          exact ⟨ms t, h3, hag t ht, fun _ _ => Or.inl rfl⟩
        | @wr a i v k _ _ _ =>
          obtain ⟨h1, _, _, h4⟩ := h
          refine ⟨(ms t).set a i v, h4, ?_, ?_⟩
          · intro b j hb
            by_cases hba : b = a
            · subst hba; simp only [Mem.set_same]
              split
              · rfl
              · exact hag t ht b j hb
            · rw [Mem.set_other _ _ _ _ _ hba, Mem.set_other _ _ _ _ _ hba]
              exact hag t ht b j hb
          · intro b j
            rcases Mem.set_cases m a i v b j with ⟨rfl, rfl⟩ | h
            · exact Or.inr h1
            · exact Or.inl h
        | @rmw a i f k v _ hv _ _ =>
          obtain ⟨h1, _, _, h4, v', h5, h6⟩ := h
          have : v' = v := by
            have := hag t ht a i h4; rw [hv, h5] at this; injection this with this; exact this.symm
          subst this
          refine ⟨(ms t).set a i (f v'), h6, ?_, ?_⟩
          · intro b j hb
            by_cases hba : b = a
            · subst hba; simp only [Mem.set_same]
              split
              · rfl
              · exact hag t ht b j hb
            · rw [Mem.set_other _ _ _ _ _ hba, Mem.set_other _ _ _ _ _ hba]
              exact hag t ht b j hb
          · intro b j
            rcases Mem.set_cases m a i (f v') b j with ⟨rfl, rfl⟩ | h
            · exact Or.inr h1
            · exact Or.inl h
      obtain ⟨mt', hw', hag', hch⟩ := main
      refine ih _ ⟨t, ht, p', ⟨m, m', hstep⟩, rfl⟩ m' (fun u => if u = t then mt' else ms u) ?_ ?_ ?_
      · intro u hu
        by_cases hut : u = t
        · subst hut; simpa using hw'
        · simp only [hut, if_false]; exact hwp u hu
      · intro u hu a i hr
        by_cases hut : u = t
        · subst hut; simpa using hag' a i hr
        · simp only [hut, if_false]
          rcases hch a i with h | h
          · rw [h]; exact hag u hu a i hr
          · exact absurd hr (hdisj t u a i ht hu (fun e => hut e.symm) h)
      · intro a i hnw
        rcases hch a i with h | h
        · rw [h]; exact hframe a i hnw
        · exact absurd h (hnw t ht)

attribute [irreducible] wp

end

end SpMP
