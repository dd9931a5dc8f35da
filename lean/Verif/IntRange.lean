import Verif.Partition
/-
32-bit `int` arithmetic. The rest of the model computes with unbounded integers; here are the operations of the code as the C++
standard defines them (a result that does not fit an `int` is undefined behaviour), and the rule that carries a theorem about a
function over to the function with checked arithmetic. Models no particular function except getSimpleThreadPartition and
getLoadBalancedPartition at the end.
-/

namespace SpMP

set_option linter.unusedSectionVars false

/-- The values of a 32-bit `int`. -/
def InInt (v : Int) : Prop := -2147483648 ≤ v ∧ v ≤ 2147483647

instance (v : Int) : Decidable (InInt v) := by unfold InInt; infer_instance

section
variable {A : Type} {ty : A → Type} {α β σ : Type}

/-- An arithmetic result: undefined behaviour unless it fits. -/
@[irreducible] def ck (v : Int) : Prog ty Int := if InInt v then .ret v else .fail
/-- `a + b` on ints. -/
def iAdd (a b : Int) : Prog ty Int := ck (a + b)
/-- `a - b` on ints. -/
def iSub (a b : Int) : Prog ty Int := ck (a - b)
/-- `a*b` on ints. -/
def iMul (a b : Int) : Prog ty Int := ck (a * b)
/-- `a/b` on ints (truncating; division by zero is undefined). -/
def iDiv (a b : Int) : Prog ty Int := if b = 0 then .fail else ck (a.tdiv b)
/-- `a%b` on ints; undefined when `a/b` is. -/
def iMod (a b : Int) : Prog ty Int := if b = 0 ∨ ¬ InInt (a.tdiv b) then .fail else .ret (a.tmod b)

/-! ### The rule -/

/-- `p'` does the same accesses as `p` and returns the same result (which satisfies `Q`), whatever the memory holds, as long as
the arrays in `C` hold what they hold in `m0`; `p` does not write these arrays. Where `p` fails nothing is required of `p'`. -/
inductive Prog.Sim (C : A → Prop) (m0 : Mem ty) (Q : α → Prop) : Prog ty α → Prog ty α → Prop
  | ret (a : α) : Q a → Sim C m0 Q (.ret a) (.ret a)
  | rd (a : A) (i : Int) (k' k : ty a → Prog ty α) : (∀ v, (C a → m0 a i = some v) → Sim C m0 Q (k' v) (k v)) →
      Sim C m0 Q (.rd a i k') (.rd a i k)
  | wr (a : A) (i : Int) (v : ty a) (k' k : Prog ty α) : ¬ C a → Sim C m0 Q k' k → Sim C m0 Q (.wr a i v k') (.wr a i v k)
  | rmw (a : A) (i : Int) (f : ty a → ty a) (k' k : ty a → Prog ty α) : ¬ C a → (∀ v, Sim C m0 Q (k' v) (k v)) →
      Sim C m0 Q (.rmw a i f k') (.rmw a i f k)
  | fail (p : Prog ty α) : Sim C m0 Q p .fail

variable {C : A → Prop} {m0 : Mem ty}

theorem Prog.Sim.mono {Q Q' : α → Prop} {p' p : Prog ty α} (h : Prog.Sim C m0 Q p' p) (hq : ∀ a, Q a → Q' a) :
    Prog.Sim C m0 Q' p' p := by
  induction h with
  | ret a h => exact .ret a (hq a h)
  | rd a i k' k _ ih => exact .rd a i k' k ih
  | wr a i v k' k hc _ ih => exact .wr a i v k' k hc ih
  | rmw a i f k' k hc _ ih => exact .rmw a i f k' k hc ih
  | fail p => exact .fail p

theorem Prog.Sim.bind {Q : α → Prop} {P : β → Prop} {p' p : Prog ty α} {f' f : α → Prog ty β} (h : Prog.Sim C m0 Q p' p)
    (hf : ∀ a, Q a → Prog.Sim C m0 P (f' a) (f a)) : Prog.Sim C m0 P (p' >>= f') (p >>= f) := by
  show Prog.Sim C m0 P (p'.bind f') (p.bind f)
  induction h with
  | ret a h => exact hf a h
  | rd a i k' k _ ih => exact .rd a i _ _ ih
  | wr a i v k' k hc _ ih => exact .wr a i v _ _ hc ih
  | rmw a i f k' k hc _ ih => exact .rmw a i f _ _ hc ih
  | fail p => exact .fail _

theorem Prog.Sim.read {a : A} {i : Int} : Prog.Sim C m0 (fun v => C a → m0 a i = some v) (Prog.read a i : Prog ty (ty a)) (Prog.read a i) :=
  .rd a i _ _ fun v h => .ret v h

theorem Prog.Sim.write {a : A} {i : Int} {v : ty a} (h : ¬ C a) :
    Prog.Sim C m0 (fun _ => True) (Prog.write a i v : Prog ty Unit) (Prog.write a i v) := .wr a i v _ _ h (.ret () trivial)

theorem Prog.Sim.assert {c : Prop} [Decidable c] : Prog.Sim C m0 (fun _ => c) (Prog.assert c : Prog ty Unit) (Prog.assert c) := by
  unfold Prog.assert
  split
  · exact .ret () ‹_›
  · exact .fail _

theorem Prog.Sim.pure {Q : α → Prop} (a : α) (h : Q a) : Prog.Sim C m0 Q (Pure.pure a : Prog ty α) (Pure.pure a) := .ret a h

theorem Prog.Sim.ite {Q : α → Prop} {c : Prop} [Decidable c] {p' p q' q : Prog ty α} (h1 : c → Prog.Sim C m0 Q p' p)
    (h2 : ¬ c → Prog.Sim C m0 Q q' q) : Prog.Sim C m0 Q (if c then p' else q') (if c then p else q) := by
  split
  · exact h1 ‹_›
  · exact h2 ‹_›

theorem Prog.Sim.forUp {I : Int → σ → Prop} {lo hi : Int} {s : σ} {b' b : Int → σ → Prog ty σ} (h0 : I lo s)
    (hb : ∀ i s, lo ≤ i → i < hi → I i s → Prog.Sim C m0 (fun s' => I (i + 1) s') (b' i s) (b i s)) :
    Prog.Sim C m0 (fun s' => I (max lo hi) s') (Prog.forUp lo hi s b') (Prog.forUp lo hi s b) := by
  unfold Prog.forUp
  generalize hn : (hi - lo).toNat = n
  induction n generalizing lo s with
  | zero => rw [show max lo hi = lo by omega]; exact .ret s h0
  | succ n ih =>
    refine Prog.Sim.bind (hb lo s (by omega) (by omega) h0) fun s' hs' => ?_
    have := ih hs' (fun i s h1 h2 => hb i s (by omega) h2) (by omega)
    rwa [show max (lo + 1) hi = max lo hi by omega] at this

theorem Prog.Sim.forUp' {lo hi : Int} {b' b : Int → Unit → Prog ty Unit}
    (hb : ∀ i, lo ≤ i → i < hi → Prog.Sim C m0 (fun _ => True) (b' i ()) (b i ())) :
    Prog.Sim C m0 (fun _ => True) (Prog.forUp lo hi () b') (Prog.forUp lo hi () b) :=
  Prog.Sim.forUp (I := fun _ _ => True) trivial fun i _ h1 h2 _ => hb i h1 h2

theorem Prog.Sim.forDown {hi lo : Int} {b' b : Int → Unit → Prog ty Unit}
    (hb : ∀ i, lo ≤ i → i < hi → Prog.Sim C m0 (fun _ => True) (b' i ()) (b i ())) :
    Prog.Sim C m0 (fun _ => True) (Prog.forDown hi lo () b') (Prog.forDown hi lo () b) := by
  unfold Prog.forDown
  generalize hn : (hi - lo).toNat = n
  induction n generalizing hi with
  | zero => exact .ret () trivial
  | succ n ih =>
    refine Prog.Sim.bind (hb (hi - 1) (by omega) (by omega)) fun s' _ => ?_
    exact ih (fun i h1 h2 => hb i h1 (by omega)) (by omega)

/-- Without assumptions on the memory every program is related to itself. -/
theorem Prog.Sim.refl (p : Prog ty α) : Prog.Sim (fun _ => False) m0 (fun _ => True) p p := by
  induction p with
  | ret a => exact .ret a trivial
  | rd a i k ih => exact .rd a i _ _ fun v _ => ih v
  | wr a i v k ih => exact .wr a i v _ _ id ih
  | rmw a i f k ih => exact .rmw a i f _ _ id ih
  | fail => exact .fail _

/-! A checked operation in front: -/

theorem sim_ck {Q : α → Prop} {v : Int} {f : Int → Prog ty α} {p : Prog ty α} (h : InInt v) (hf : Prog.Sim C m0 Q (f v) p) :
    Prog.Sim C m0 Q ((ck v : Prog ty Int) >>= f) p := by
  unfold ck; rw [if_pos h]; exact hf

theorem sim_iDiv {Q : α → Prop} {a b : Int} {f : Int → Prog ty α} {p : Prog ty α} (ha : 0 ≤ a) (hb : 0 < b) (h : InInt a)
    (hf : Prog.Sim C m0 Q (f (a / b)) p) : Prog.Sim C m0 Q ((iDiv a b : Prog ty Int) >>= f) p := by
  unfold iDiv
  rw [if_neg (by omega), Int.tdiv_eq_ediv_of_nonneg ha]
  have h1 := Int.ediv_le_self b ha
  have h2 := Int.ediv_nonneg ha (by omega : 0 ≤ b)
  exact sim_ck ⟨by omega, by have := h.2; omega⟩ hf

end

section
variable {A : Type} [DecidableEq A] [Races A] {ty : A → Type} {α β : Type} {C : A → Prop} {m0 : Mem ty}

theorem ParOk.sim {sz : A → Int} {n : Nat} {Post : (Nat → α) → Mem ty → Prop} {P : Nat → α → Prop} {ts ts' : Nat → Prog ty α}
    {m : Mem ty} (h : ParOk sz n Post ts m) (hc : ∀ a i, C a → m a i = m0 a i)
    (hs : ∀ t, t < n → Prog.Sim C m0 (P t) (ts' t) (ts t)) :
    ParOk sz n (fun r m' => Post r m' ∧ (∀ t, t < n → P t (r t)) ∧ ∀ a i, C a → m' a i = m0 a i) ts' m := by
  induction h generalizing ts' with
  | @mk ts m h1 h2 h3 h4 ih =>
    refine ParOk.mk ?_ ?_ ?_ ?_
    · intro t ht
      have g := h1 t ht
      have gs := hs t ht
      generalize ts t = p at g gs
      generalize ts' t = p' at gs
      cases gs <;> first | exact g | exact absurd trivial g
    · intro r hr
      have e : ∀ t, t < n → ts t = .ret (r t) ∧ P t (r t) := by
        intro t ht
        have gs := hs t ht
        rw [hr t ht] at gs
        have g := h1 t ht
        generalize ts t = p at g gs
        cases gs with
        | ret _ h => exact ⟨rfl, h⟩
        | fail => exact absurd trivial g
      exact ⟨h2 r fun t ht => (e t ht).1, fun t ht => (e t ht).2, hc⟩
    · intro t u a i ht hu htu hr
      have e : ∀ t, t < n → (ts' t).next = (ts t).next := by
        intro t ht
        have g := h1 t ht
        have gs := hs t ht
        generalize ts t = p at g gs
        generalize ts' t = p' at gs
        cases gs <;> first | rfl | exact absurd trivial g
      refine h3 t u a i ht hu htu ?_
      unfold Race at hr ⊢
      rwa [e t ht, e u hu] at hr
    · rintro tsn mn ⟨t, ht, p', hst, rfl⟩
      have g := h1 t ht
      have gs := hs t ht
      have key : ∃ p, Step sz (ts t) m p mn ∧ Prog.Sim C m0 (P t) p' p ∧ ∀ a i, C a → mn a i = m0 a i := by
        generalize ts t = q at g gs ⊢
        generalize ts' t = q' at gs hst
        cases hst with
        | @rd a i k v _ hv =>
          cases gs with
          | rd _ _ _ k2 h => exact ⟨k2 v, .rd hv, h v (fun hca => by rw [← hc a i hca]; exact hv), hc⟩
          | fail => exact absurd trivial g
        | @wr a i v k _ hi1 hi2 =>
          cases gs with
          | wr _ _ _ _ k2 hnc h =>
            refine ⟨k2, .wr hi1 hi2, h, fun b j hb => ?_⟩
            rw [← hc b j hb]
            rw [Mem.set_other _ _ _ _ _ (fun e : b = a => hnc (e ▸ hb))]
          | fail => exact absurd trivial g
        | @rmw a i f k v _ hv hi1 hi2 =>
          cases gs with
          | rmw _ _ _ _ k2 hnc h =>
            refine ⟨k2 v, .rmw hv hi1 hi2, h v, fun b j hb => ?_⟩
            rw [← hc b j hb]
            rw [Mem.set_other _ _ _ _ _ (fun e : b = a => hnc (e ▸ hb))]
          | fail => exact absurd trivial g
      obtain ⟨p, k1, k2, k3⟩ := key
      refine ih _ mn ⟨t, ht, p, k1, rfl⟩ k3 ?_
      intro u hu
      by_cases hut : u = t
      · subst hut; simpa using k2
      · simpa [hut] using hs u hu

/-- Two functions with the same phases whose thread codes are related. -/
inductive Script.Sim (C : A → Prop) (m0 : Mem ty) : Script ty α → Script ty α → Prop
  | done (a : α) : Script.Sim C m0 (.done a) (.done a)
  | phase {β : Type} (sz : A → Int) (n : Nat) (P : Nat → β → Prop) (ts' ts : Nat → Prog ty β) (k' k : (Nat → β) → Script ty α) :
      (∀ t, t < n → Prog.Sim C m0 (P t) (ts' t) (ts t)) → (∀ r, (∀ t, t < n → P t (r t)) → Script.Sim C m0 (k' r) (k r)) →
      Script.Sim C m0 (.phase sz n ts' k') (.phase sz n ts k)

theorem Script.Sim.seq {sz : A → Int} {P : β → Prop} {p' p : Prog ty β} {k' k : β → Script ty α} (hp : Prog.Sim C m0 P p' p)
    (hk : ∀ r, P r → Script.Sim C m0 (k' r) (k r)) : Script.Sim C m0 (Script.seq sz p' k') (Script.seq sz p k) :=
  .phase sz 1 (fun _ => P) _ _ _ _ (fun _ _ => hp) fun r hr => hk (r 0) (hr 0 (by omega))

theorem Script.Sim.bind {s' s : Script ty α} {f' f : α → Script ty β} (h : Script.Sim C m0 s' s)
    (hf : ∀ a, Script.Sim C m0 (f' a) (f a)) : Script.Sim C m0 (s'.bind f') (s.bind f) := by
  induction h with
  | done a => exact hf a
  | phase sz n P ts' ts k' k h _ ih => exact .phase sz n P _ _ _ _ h ih

/-- A theorem about the function with unbounded integers holds for the function with checked arithmetic. -/
theorem Script.Ok.sim {s' s : Script ty α} {m : Mem ty} {Q : α → Mem ty → Prop} (h : s.Ok m Q) (hs : Script.Sim C m0 s' s)
    (hc : ∀ a i, C a → m a i = m0 a i) : s'.Ok m Q := by
  induction hs generalizing m with
  | done a => exact h
  | phase sz n P ts' ts k' k hp _ ih =>
    exact ParOk.mono (ParOk.sim h hc hp) fun r m' hr => ih r hr.2.1 hr.1 hr.2.2

end

/-! ### What a program that ends has checked -/

section
variable {A : Type} {ty : A → Type} {α β σ : Type}

/-- Whatever it reads, if `p` returns, the result satisfies `Q`. -/
def Prog.Rets (Q : α → Prop) : Prog ty α → Prop
  | .ret a => Q a
  | .rd _ _ k => ∀ v, (k v).Rets Q
  | .wr _ _ _ k => k.Rets Q
  | .rmw _ _ _ k => ∀ v, (k v).Rets Q
  | .fail => True

theorem Prog.Rets.bind {P : α → Prop} {Q : β → Prop} {p : Prog ty α} {f : α → Prog ty β} (h : p.Rets P) (hf : ∀ a, P a → (f a).Rets Q) :
    (p >>= f).Rets Q := by
  show (p.bind f).Rets Q
  induction p with
  | ret a => exact hf a h
  | rd a i k ih => exact fun v => ih v (h v)
  | wr a i v k ih => exact ih h
  | rmw a i g k ih => exact fun v => ih v (h v)
  | fail => trivial

theorem Prog.Rets.ck (v : Int) : (SpMP.ck v : Prog ty Int).Rets fun x => x = v ∧ InInt v := by
  unfold SpMP.ck
  split
  · exact ⟨rfl, ‹_›⟩
  · trivial

theorem Prog.Rets.iAdd (a b : Int) : (SpMP.iAdd a b : Prog ty Int).Rets fun x => x = a + b ∧ InInt (a + b) := Prog.Rets.ck _
theorem Prog.Rets.iMul (a b : Int) : (SpMP.iMul a b : Prog ty Int).Rets fun x => x = a * b ∧ InInt (a * b) := Prog.Rets.ck _

theorem Prog.Rets.forUp {I : Int → σ → Prop} {lo hi : Int} {s : σ} {b : Int → σ → Prog ty σ} (h0 : I lo s)
    (hb : ∀ i s, lo ≤ i → i < hi → I i s → (b i s).Rets fun s' => I (i + 1) s') :
    (Prog.forUp lo hi s b).Rets fun s' => I (max lo hi) s' := by
  unfold Prog.forUp
  generalize hn : (hi - lo).toNat = n
  induction n generalizing lo s with
  | zero => rw [show max lo hi = lo by omega]; exact h0
  | succ n ih =>
    refine Prog.Rets.bind (hb lo s (by omega) (by omega) h0) fun s' hs' => ?_
    have := ih hs' (fun i s h1 h2 => hb i s (by omega) h2) (by omega)
    rwa [show max (lo + 1) hi = max lo hi by omega] at this

theorem Prog.Rets.run [DecidableEq A] {sz : A → Int} {Q : α → Prop} {p : Prog ty α} {m m' : Mem ty} {r : α} (h : p.Rets Q)
    (hr : p.run sz m = some (r, m')) : Q r := by
  induction p generalizing m with
  | ret a => simp only [Prog.run, Option.some.injEq, Prod.mk.injEq] at hr; exact hr.1 ▸ h
  | rd a i k ih =>
    simp only [Prog.run] at hr
    split at hr
    · exact ih _ (h _) hr
    · cases hr
  | wr a i v k ih =>
    simp only [Prog.run] at hr
    split at hr
    · exact ih h hr
    · cases hr
  | rmw a i g k ih =>
    simp only [Prog.run] at hr
    split at hr
    · split at hr
      · exact ih _ (h _) hr
      · cases hr
    · cases hr
  | fail => cases hr

/-- If a function that starts with the sequential code `p` runs without undefined behaviour, what `p` returns satisfies `Q`. -/
theorem Script.Ok.rets [DecidableEq A] [Races A] {sz : A → Int} {p : Prog ty β} {k : β → Script ty α} {m : Mem ty}
    {P : α → Mem ty → Prop} {Q : β → Prop} (h : (Script.seq sz p k).Ok m P) (hp : p.Rets Q) : ∃ r, Q r := by
  obtain ⟨rs, m', h1, _, _⟩ := ParOk.run h
  simp only [runTeam] at h1
  cases hr : p.run sz m with
  | none => rw [hr] at h1; cases h1
  | some x => exact ⟨x.1, hp.run hr⟩

end

/-! ### The partitions -/

section
variable {A : Type} {ty : A → Type} {α : Type} {C : A → Prop} {m0 : Mem ty}

/-- Utils.cpp:37-46 getSimpleThreadPartition with checked arithmetic: lines 42, 44, 45. -/
def simplePartC (T tid n : Int) : Prog ty (Int × Int) := do
  let s ← iAdd n T
  let s ← iSub s 1
  let per ← iDiv s T
  let x ← iMul per tid
  let b := min x n
  let y ← iAdd b per
  pure (b, min y n)

/-- Utils.cpp:48-63 getLoadBalancedPartition with checked arithmetic: lines 54, 55, 57, 58. `lower_bound` computes with `ptrdiff_t`. -/
def loadBalancedC (get : Int → Prog ty Int) (T tid n : Int) : Prog ty (Int × Int) := do
  let base ← get 0
  let last ← get n
  let total ← iSub last base
  let s ← iAdd total T
  let s ← iSub s 1
  let wpt ← iDiv s T
  let b ← (if tid = 0 then pure 0 else do
    let x ← iMul wpt tid
    let x ← iAdd x base
    lowerBound get 0 n x : Prog ty Int)
  let t1 ← iSub T 1
  let e ← (if tid = t1 then pure n else do
    let t ← iAdd tid 1
    let x ← iMul wpt t
    let x ← iAdd x base
    lowerBound get 0 n x : Prog ty Int)
  Prog.assert (b ≤ e)
  Prog.assert (0 ≤ b ∧ b ≤ n)
  Prog.assert (0 ≤ e ∧ e ≤ n)
  pure (b, e)

theorem ck_bind {v : Int} {f : Int → Prog ty α} (h : InInt v) : ((ck v : Prog ty Int) >>= f) = f v := by
  unfold ck; rw [if_pos h]; rfl

theorem iDiv_bind {a b : Int} {f : Int → Prog ty α} (ha : 0 ≤ a) (hb : 0 < b) (h : InInt a) :
    ((iDiv a b : Prog ty Int) >>= f) = f (a / b) := by
  unfold iDiv
  rw [if_neg (by omega), Int.tdiv_eq_ediv_of_nonneg ha]
  have h1 := Int.ediv_le_self b ha
  have h2 := Int.ediv_nonneg ha (by omega : 0 ≤ b)
  exact ck_bind ⟨by omega, by have := h.2; omega⟩

theorem iMod_bind {a b : Int} {f : Int → Prog ty α} (ha : 0 ≤ a) (hb : 0 < b) (h : InInt a) :
    ((iMod a b : Prog ty Int) >>= f) = f (a % b) := by
  unfold iMod
  rw [Int.tdiv_eq_ediv_of_nonneg ha, Int.tmod_eq_emod_of_nonneg ha]
  have h1 := Int.ediv_le_self b ha
  have h2 := Int.ediv_nonneg ha (by omega : 0 ≤ b)
  have h3 : InInt (a / b) := ⟨by omega, by have := h.2; omega⟩
  rw [if_neg (by rintro (h | h); · omega
                 · exact h h3)]
  rfl

/-- The number of items per thread times at most the number of threads. -/
theorem perThread_mul_le {T tid n : Int} (hT : 1 ≤ T) (hn : 0 ≤ n) (h0 : 0 ≤ tid) (h1 : tid ≤ T) :
    0 ≤ perThread T n * tid ∧ perThread T n * tid ≤ n + T - 1 := by
  have h2 := perThread_nonneg hT hn
  have h3 := (perThread_spec (n := n) hT).2
  have h4 := Int.mul_le_mul_of_nonneg_left h1 h2
  exact ⟨Int.mul_nonneg h2 h0, by omega⟩

theorem perThread_le {T n : Int} (hT : 1 ≤ T) (hn : 0 ≤ n) : perThread T n ≤ n + T - 1 := by
  have := (perThread_mul_le (tid := 1) hT hn (by omega) hT).2
  omega

theorem perThread_ediv {T n : Int} : (n + T - 1) / T = perThread T n := rfl

theorem simplePartC_eq {T tid n : Int} (hT : 1 ≤ T) (hn : 0 ≤ n) (h0 : 0 ≤ tid) (h1 : tid < T) (hb : n + T ≤ 2147483647) :
    (simplePartC T tid n : Prog ty (Int × Int)) = .ret (simpleBegin T tid n, simpleEnd T tid n) := by
  have g1 := perThread_nonneg hT hn
  have g2 := perThread_le hT hn
  have g3 := perThread_mul_le hT hn h0 (by omega : tid ≤ T)
  have g4 : min (perThread T n * tid) n + perThread T n ≤ n + T - 1 := by
    by_cases hc : perThread T n * tid ≤ n
    · have := (perThread_mul_le hT hn (by omega : 0 ≤ tid + 1) (by omega)).2
      rw [Int.mul_add, Int.mul_one] at this
      omega
    · have k1 := (perThread_mul_le hT hn (by omega : 0 ≤ tid + 1) (by omega)).2
      rw [Int.mul_add, Int.mul_one] at k1
      omega
  have g5 : 0 ≤ min (perThread T n * tid) n := by omega
  unfold simplePartC
  refine (ck_bind ⟨by omega, hb⟩).trans ((ck_bind ⟨by omega, by omega⟩).trans ((iDiv_bind (by omega) (by omega) ⟨by omega, by omega⟩).trans ?_))
  rw [perThread_ediv]
  exact (ck_bind ⟨by omega, by omega⟩).trans ((ck_bind ⟨by omega, by omega⟩).trans rfl)

theorem sim_lowerBoundAux {get : Int → Prog ty Int} {x : Int} (hg : ∀ i, Prog.Sim C m0 (fun _ => True) (get i) (get i)) :
    ∀ (fuel : Nat) (first : Int) (len : Nat),
      Prog.Sim C m0 (fun _ => True) (lowerBoundAux get x fuel first len) (lowerBoundAux get x fuel first len) := by
  intro fuel
  induction fuel with
  | zero =>
    intro first len
    cases len with
    | zero => exact .ret _ trivial
    | succ n => exact .fail _
  | succ fuel ih =>
    intro first len
    cases len with
    | zero => exact .ret _ trivial
    | succ n =>
      refine Prog.Sim.bind (hg _) fun v _ => Prog.Sim.ite (fun _ => ih _ _) fun _ => ih _ _

theorem sim_loadBalanced {get : Int → Prog ty Int} {T tid n lo hi : Int} (hT : 1 ≤ T) (h0 : 0 ≤ tid) (h1 : tid < T)
    (hget : ∀ i, Prog.Sim C m0 (fun v => i = 0 → v = lo) (get i) (get i)) (hget' : Prog.Sim C m0 (fun v => v = hi) (get n) (get n))
    (hlo : 0 ≤ lo) (hlo1 : lo ≤ 1) (hhi : lo ≤ hi) (hb : hi - lo + T ≤ 2147483647) :
    Prog.Sim C m0 (fun x => 0 ≤ x.1 ∧ x.1 ≤ x.2 ∧ x.2 ≤ n) (loadBalancedC get T tid n) (loadBalanced get T tid n) := by
  have gt : ∀ i, Prog.Sim C m0 (fun _ => True) (get i) (get i) := fun i => (hget i).mono fun _ _ => trivial
  have g1 := perThread_nonneg (n := hi - lo) hT (by omega)
  have g2 := perThread_le (n := hi - lo) hT (by omega)
  have g3 := fun (t : Int) (h0 : 0 ≤ t) (h1 : t ≤ T) => perThread_mul_le (n := hi - lo) (tid := t) hT (by omega) h0 h1
  unfold loadBalancedC loadBalanced
  refine Prog.Sim.bind (hget 0) fun b hb0 => ?_
  refine Prog.Sim.bind hget' fun l hl => ?_
  obtain rfl := hb0 rfl
  subst hl
  refine sim_ck ⟨by omega, by omega⟩ (sim_ck ⟨by omega, by omega⟩ (sim_ck ⟨by omega, by omega⟩
    (sim_iDiv (by omega) (by omega) ⟨by omega, by omega⟩ ?_)))
  rw [perThread_ediv]
  refine Prog.Sim.bind (Q := fun _ => True) (Prog.Sim.ite (fun _ => .ret _ trivial) fun ht => ?_) fun x _ => ?_
  · have k := g3 tid h0 (by omega)
    exact sim_ck ⟨by omega, by omega⟩ (sim_ck ⟨by omega, by omega⟩ (sim_lowerBoundAux gt _ _ _))
  · refine sim_ck ⟨by omega, by omega⟩ (Prog.Sim.bind (Q := fun _ => True) (Prog.Sim.ite (fun _ => .ret _ trivial) fun ht => ?_) fun y _ => ?_)
    · have k := g3 (tid + 1) (by omega) (by omega)
      exact sim_ck ⟨by omega, by omega⟩ (sim_ck ⟨by omega, by omega⟩ (sim_ck ⟨by omega, by omega⟩ (sim_lowerBoundAux gt _ _ _)))
    · refine Prog.Sim.bind Prog.Sim.assert fun _ h2 => Prog.Sim.bind Prog.Sim.assert fun _ h3 => Prog.Sim.bind Prog.Sim.assert fun _ h4 => ?_
      exact .ret _ ⟨h3.1, h2, h4.2⟩

end
end SpMP
