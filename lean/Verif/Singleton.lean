import Verif.Team
/-
The shared barrier object: `Barrier::initializeInstance`, `getInstance`, `deleteInstance` (/repo/synk/barrier.cpp:45-108) and
`LoadImba::initializeInstance`, `getInstance` (/repo/synk/loadimba.cpp:59-113).

`#pragma omp barrier` is a step that is enabled when every thread of the team has arrived; `#pragma omp master` runs its
statement in thread 0.  A call of `init` is one event (C65 models what happens in it).
-/
namespace SpMP

/-- What the threads share.  `inst` is the static pointer (`none`: null), `made` the geometries (cores, threads per core) of the
objects constructed so far, object `o` being the `o`-th; `inits o t` counts the calls of `init(t)` on object `o`. -/
structure SingG where
  inst : Option Nat
  made : List (Nat × Nat)
  inits : Nat → Nat → Nat
  /-- which threads have arrived at the two `omp barrier`s -/
  arr1 : Nat → Bool
  arr2 : Nat → Bool

/-- Where a thread is in `getInstance`, in a parallel region (barrier.cpp:72-101). -/
inductive SingPc
  | test | arrive1 | wait1 | master | arrive2 | wait2 | init | load | done
  deriving DecidableEq

/-- Position in the text. -/
def SingPc.rank : SingPc → Nat
  | .test => 0 | .arrive1 => 1 | .wait1 => 2 | .master => 3 | .arrive2 => 4 | .wait2 => 5 | .init => 6 | .load => 7 | .done => 8

/-- A thread: `omp_get_thread_num()`, position, the pointer returned. -/
structure SingL where
  tid : Nat
  pc : SingPc
  ret : Option Nat

/-- `new Barrier(C, P)` (barrier.cpp:88). -/
def singNew (C P : Nat) (g : SingG) : SingG := { g with made := g.made ++ [(C, P)], inst := some g.made.length }

/-- The call of `init` on object `o` by thread `t` (barrier.cpp:90). -/
def singInit (o t : Nat) (g : SingG) : SingG :=
  { g with inits := fun o' t' => if o' = o ∧ t' = t then g.inits o' t' + 1 else g.inits o' t' }

/-- One step of `getInstance` of a team of `T` threads, that constructs a barrier of `C` cores with `P` threads
(barrier.cpp:72-101, loadimba.cpp:86-112); `initializeInstance` (barrier.cpp:47-68, loadimba.cpp:61-82) is the same without
the result. -/
def singNext (T C P : Nat) (l : SingL) (g : SingG) (l' : SingL) (g' : SingG) : Prop :=
  match l.pc with
  | .test => l' = { l with pc := if g.inst = none then .arrive1 else .load } ∧ g' = g
  | .arrive1 => l' = { l with pc := .wait1 } ∧ g' = { g with arr1 := fun t => if t = l.tid then true else g.arr1 t }
  | .wait1 => (∀ t, t < T → g.arr1 t = true) ∧ l' = { l with pc := if l.tid = 0 then .master else .arrive2 } ∧ g' = g
  | .master => l' = { l with pc := .arrive2 } ∧ g' = singNew C P g
  | .arrive2 => l' = { l with pc := .wait2 } ∧ g' = { g with arr2 := fun t => if t = l.tid then true else g.arr2 t }
  | .wait2 => (∀ t, t < T → g.arr2 t = true) ∧ l' = { l with pc := .init } ∧ g' = g
  | .init => ∃ o, g.inst = some o ∧ l' = { l with pc := .load } ∧ g' = singInit o l.tid g
  | .load => l' = { l with pc := .done, ret := g.inst } ∧ g' = g
  | .done => False

/-- The machine; calling `init` through a null pointer is undefined behaviour. -/
def singMachine (T C P : Nat) : Machine SingL SingG where
  step := singNext T C P
  bad := fun l g => l.pc = .init ∧ g.inst = none
  final := fun l => l.pc = .done

/-- Threads entering. -/
def singL0 : Nat → SingL := fun t => ⟨t, .test, none⟩

/-- The state in which a team enters: pointer `i`, objects `m`, calls `n`. -/
def singG0 (i : Option Nat) (m : List (Nat × Nat)) (n : Nat → Nat → Nat) : SingG := ⟨i, m, n, fun _ => false, fun _ => false⟩

/-- The number of threads per core `Barrier::getInstance` assumes for `n` threads (barrier.cpp:76-82); `mic` is `__MIC__`. -/
def barTpc (mic : Bool) (n : Nat) : Nat := if mic then (if n % 4 = 0 then 4 else if n % 2 = 0 then 2 else 1) else 1

/-- The same for `LoadImba::getInstance` (loadimba.cpp:88-93). -/
def limTpc (mic : Bool) (_n : Nat) : Nat := if mic then 4 else 1

/-- `deleteInstance` (barrier.cpp:104-108), after which nobody uses the object. -/
def singDelete (g : SingG) : SingG := { g with inst := none }

/-- The invariant of a team that enters with the null pointer. -/
structure SingInv (T C P : Nat) (m : List (Nat × Nat)) (n : Nat → Nat → Nat) (ls : Nat → SingL) (g : SingG) : Prop where
  tid : ∀ t, t < T → (ls t).tid = t
  a1 : ∀ t, t < T → (g.arr1 t = true ↔ 2 ≤ (ls t).pc.rank)
  a2 : ∀ t, t < T → (g.arr2 t = true ↔ 5 ≤ (ls t).pc.rank)
  b1 : ∀ t u, t < T → u < T → 3 ≤ (ls t).pc.rank → 2 ≤ (ls u).pc.rank
  b2 : ∀ t u, t < T → u < T → 6 ≤ (ls t).pc.rank → 5 ≤ (ls u).pc.rank
  only : ∀ t, t < T → (ls t).pc = .master → t = 0
  before : (ls 0).pc.rank ≤ 3 → g.inst = none ∧ g.made = m
  after : 4 ≤ (ls 0).pc.rank → g.inst = some m.length ∧ g.made = m ++ [(C, P)]
  calls : ∀ o t, g.inits o t = n o t + if o = m.length ∧ t < T ∧ 7 ≤ (ls t).pc.rank then 1 else 0
  ret : ∀ t, t < T → (ls t).pc = .done → (ls t).ret = some m.length

theorem singInv_init {T C P : Nat} (m : List (Nat × Nat)) (n : Nat → Nat → Nat) :
    SingInv T C P m n singL0 (singG0 none m n) := by
  refine ⟨fun _ _ => rfl, fun t _ => ?_, fun t _ => ?_, fun t u _ _ h => ?_, fun t u _ _ h => ?_, fun t _ h => ?_, fun _ => ⟨rfl, rfl⟩,
    fun h => ?_, fun o t => ?_, fun t _ h => ?_⟩
  · simp [singG0, singL0, SingPc.rank]
  · simp [singG0, singL0, SingPc.rank]
  · simp [singL0, SingPc.rank] at h
  · simp [singL0, SingPc.rank] at h
  · cases h
  · simp [singL0, SingPc.rank] at h
  · simp [singL0, SingPc.rank, singG0]
  · cases h

/-- The place of a thread tells what the pointer is. -/
theorem SingInv.inst_of_late {T C P : Nat} {m : List (Nat × Nat)} {n : Nat → Nat → Nat} {ls : Nat → SingL} {g : SingG}
    (h : SingInv T C P m n ls g) (hT : 0 < T) {t : Nat} (ht : t < T) (hr : 6 ≤ (ls t).pc.rank) : g.inst = some m.length :=
  (h.after (by have := h.b2 t 0 ht hT hr; omega)).1

theorem SingInv.inst_of_early {T C P : Nat} {m : List (Nat × Nat)} {n : Nat → Nat → Nat} {ls : Nat → SingL} {g : SingG}
    (h : SingInv T C P m n ls g) (hT : 0 < T) {t : Nat} (ht : t < T) (hr : (ls t).pc.rank ≤ 1) : g.inst = none := by
  refine (h.before ?_).1
  rcases Nat.lt_or_ge 3 (ls 0).pc.rank with h3 | h3
  · have := h.b1 0 t hT ht (by omega); omega
  · exact h3

theorem SingInv.move {T C P : Nat} {m : List (Nat × Nat)} {n : Nat → Nat → Nat} {ls : Nat → SingL} {g : SingG}
    (h : SingInv T C P m n ls g) {t : Nat} (ht : t < T) (l' : SingL) (g' : SingG) (htid : l'.tid = t)
    (hmono : (ls t).pc.rank ≤ l'.pc.rank)
    (ha1 : ∀ u, g'.arr1 u = if u = t ∧ 2 ≤ l'.pc.rank then true else g.arr1 u)
    (ha2 : ∀ u, g'.arr2 u = if u = t ∧ 5 ≤ l'.pc.rank then true else g.arr2 u)
    (hb1 : 3 ≤ l'.pc.rank → ∀ u, u < T → u ≠ t → 2 ≤ (ls u).pc.rank)
    (hb2 : 6 ≤ l'.pc.rank → ∀ u, u < T → u ≠ t → 5 ≤ (ls u).pc.rank)
    (honly : l'.pc = .master → t = 0)
    (hbef : (if t = 0 then l'.pc.rank else (ls 0).pc.rank) ≤ 3 → g'.inst = none ∧ g'.made = m)
    (haft : 4 ≤ (if t = 0 then l'.pc.rank else (ls 0).pc.rank) → g'.inst = some m.length ∧ g'.made = m ++ [(C, P)])
    (hcalls : ∀ o u, g'.inits o u = g.inits o u +
      if o = m.length ∧ u = t ∧ (ls t).pc.rank < 7 ∧ 7 ≤ l'.pc.rank then 1 else 0)
    (hret : l'.pc = .done → l'.ret = some m.length) : SingInv T C P m n (updT ls t l') g' := by
  have e0 : (updT ls t l' 0).pc.rank = if t = 0 then l'.pc.rank else (ls 0).pc.rank := by
    by_cases e : t = 0
    · subst e; simp
    · rw [updT_other _ _ (fun h => e h.symm), if_neg e]
  refine ⟨fun u hu => ?_, fun u hu => ?_, fun u hu => ?_, fun u v hu hv hr => ?_, fun u v hu hv hr => ?_, fun u hu hm => ?_,
    fun hr => hbef (by rw [← e0]; exact hr), fun hr => haft (by rw [← e0]; exact hr), fun o u => ?_, fun u hu hd => ?_⟩
  · by_cases e : u = t
    · subst e; rw [updT_same]; exact htid
    · rw [updT_other _ _ e]; exact h.tid u hu
  · rw [ha1]
    by_cases e : u = t
    · subst e
      rw [updT_same]
      by_cases hr : 2 ≤ l'.pc.rank
      · simp [hr]
      · have := h.a1 u hu
        rw [if_neg (fun hh => hr hh.2), this]
        omega
    · rw [updT_other _ _ e, if_neg (fun hh => e hh.1)]; exact h.a1 u hu
  · rw [ha2]
    by_cases e : u = t
    · subst e
      rw [updT_same]
      by_cases hr : 5 ≤ l'.pc.rank
      · simp [hr]
      · have := h.a2 u hu
        rw [if_neg (fun hh => hr hh.2), this]
        omega
    · rw [updT_other _ _ e, if_neg (fun hh => e hh.1)]; exact h.a2 u hu
  · by_cases ev : v = t
    · subst ev
      rw [updT_same]
      by_cases eu : u = v
      · subst eu; rw [updT_same] at hr; omega
      · rw [updT_other _ _ eu] at hr
        have := h.b1 u v hu hv hr; omega
    · rw [updT_other _ _ ev]
      by_cases eu : u = t
      · subst eu; rw [updT_same] at hr; exact hb1 hr v hv ev
      · rw [updT_other _ _ eu] at hr; exact h.b1 u v hu hv hr
  · by_cases ev : v = t
    · subst ev
      rw [updT_same]
      by_cases eu : u = v
      · subst eu; rw [updT_same] at hr; omega
      · rw [updT_other _ _ eu] at hr
        have := h.b2 u v hu hv hr; omega
    · rw [updT_other _ _ ev]
      by_cases eu : u = t
      · subst eu; rw [updT_same] at hr; exact hb2 hr v hv ev
      · rw [updT_other _ _ eu] at hr; exact h.b2 u v hu hv hr
  · by_cases e : u = t
    · subst e; rw [updT_same] at hm; exact honly hm
    · rw [updT_other _ _ e] at hm; exact h.only u hu hm
  · rw [hcalls, h.calls]
    by_cases e : u = t
    · subst e
      rw [updT_same]
      by_cases ho : o = m.length
      · by_cases h7 : 7 ≤ (ls u).pc.rank
        · have : 7 ≤ l'.pc.rank := by omega
          have h7' : ¬ (ls u).pc.rank < 7 := by omega
          simp [ho, ht, h7, this, h7']
        · have h7' : (ls u).pc.rank < 7 := by omega
          simp [ho, ht, h7, h7']
      · simp [ho]
    · rw [updT_other _ _ e]; simp [e]
  · by_cases e : u = t
    · subst e; rw [updT_same] at hd ⊢; exact hret hd
    · rw [updT_other _ _ e] at hd ⊢; exact h.ret u hu hd

theorem SingInv.step {T C P : Nat} {m : List (Nat × Nat)} {n : Nat → Nat → Nat} {ls : Nat → SingL} {g : SingG}
    (h : SingInv T C P m n ls g) (hT : 0 < T) {t : Nat} (ht : t < T) {l' : SingL} {g' : SingG}
    (hs : singNext T C P (ls t) g l' g') : SingInv T C P m n (updT ls t l') g' := by
  have htid := h.tid t ht
  have h0 : ∀ r, (t = 0 → (ls t).pc.rank = r) → (if t = 0 then r else (ls 0).pc.rank) = (ls 0).pc.rank := by
    intro r hr
    by_cases e : t = 0
    · rw [if_pos e, ← hr e, e]
    · rw [if_neg e]
  have a1 := h.a1 t ht
  have a2 := h.a2 t ht
  unfold singNext at hs
  cases hpc : (ls t).pc with
  | test =>
    simp only [hpc] at hs a1 a2
    obtain ⟨rfl, rfl⟩ := hs
    have hn := h.inst_of_early hT ht (by rw [hpc]; simp [SingPc.rank])
    rw [if_pos hn]
    refine h.move ht _ _ htid (by rw [hpc]; simp [SingPc.rank]) (fun u => by simp [SingPc.rank]) (fun u => by simp [SingPc.rank])
      (fun hr => absurd hr (by simp [SingPc.rank])) (fun hr => absurd hr (by simp [SingPc.rank])) (fun hh => (by cases hh)) (fun hr => ?_) (fun hr => ?_)
      (fun o u => by simp [SingPc.rank]) (fun hh => (by cases hh))
    · refine h.before ?_
      by_cases e : t = 0
      · rw [← e, hpc]; simp [SingPc.rank]
      · rw [if_neg e] at hr; exact hr
    · refine h.after ?_
      by_cases e : t = 0
      · rw [if_pos e] at hr; exact absurd hr (by simp [SingPc.rank])
      · rw [if_neg e] at hr; exact hr
  | arrive1 =>
    simp only [hpc] at hs a1 a2
    obtain ⟨rfl, rfl⟩ := hs
    refine h.move ht _ _ htid (by rw [hpc]; simp [SingPc.rank]) (fun u => by simp [SingPc.rank, htid]) (fun u => by simp [SingPc.rank])
      (fun hr => absurd hr (by simp [SingPc.rank])) (fun hr => absurd hr (by simp [SingPc.rank])) (fun hh => (by cases hh)) (fun hr => ?_) (fun hr => ?_)
      (fun o u => by simp [SingPc.rank]) (fun hh => (by cases hh))
    · refine h.before ?_
      by_cases e : t = 0
      · rw [← e, hpc]; simp [SingPc.rank]
      · rw [if_neg e] at hr; exact hr
    · refine h.after ?_
      by_cases e : t = 0
      · rw [if_pos e] at hr; exact absurd hr (by simp [SingPc.rank])
      · rw [if_neg e] at hr; exact hr
  | wait1 =>
    simp only [hpc] at hs a1 a2
    obtain ⟨hall, rfl, rfl⟩ := hs
    have g1 : g'.arr1 t = true := hall t ht
    by_cases e : t = 0
    · rw [if_pos (by rw [htid]; exact e)]
      refine h.move ht _ _ htid (by rw [hpc]; simp [SingPc.rank])
        (fun u => by
          by_cases eu : u = t
          · subst eu; simp [g1]
          · simp [eu]) (fun u => by simp [SingPc.rank])
        (fun _ u hu _ => (h.a1 u hu).1 (hall u hu)) (fun hr => absurd hr (by simp [SingPc.rank])) (fun _ => e) (fun hr => ?_) (fun hr => ?_)
        (fun o u => by simp [SingPc.rank]) (fun hh => (by cases hh))
      · exact h.before (by rw [← e, hpc]; simp [SingPc.rank])
      · rw [if_pos e] at hr; exact absurd hr (by simp [SingPc.rank])
    · rw [if_neg (by rw [htid]; exact e)]
      refine h.move ht _ _ htid (by rw [hpc]; simp [SingPc.rank])
        (fun u => by
          by_cases eu : u = t
          · subst eu; simp [g1]
          · simp [eu]) (fun u => by simp [SingPc.rank])
        (fun _ u hu _ => (h.a1 u hu).1 (hall u hu)) (fun hr => absurd hr (by simp [SingPc.rank])) (fun hh => (by cases hh))
        (fun hr => ?_) (fun hr => ?_) (fun o u => by simp [SingPc.rank]) (fun hh => (by cases hh))
      · rw [if_neg e] at hr; exact h.before hr
      · rw [if_neg e] at hr; exact h.after hr
  | master =>
    simp only [hpc] at hs a1 a2
    obtain ⟨rfl, rfl⟩ := hs
    have e := h.only t ht hpc
    have g1 : g.arr1 t = true := a1.2 (by simp [SingPc.rank])
    obtain ⟨_, hm⟩ := h.before (by rw [← e, hpc]; simp [SingPc.rank])
    refine h.move ht _ _ htid (by rw [hpc]; simp [SingPc.rank])
      (fun u => by
        by_cases eu : u = t
        · subst eu; simp [g1, singNew]
        · simp [eu, singNew]) (fun u => by simp [SingPc.rank, singNew])
      (fun _ u hu _ => h.b1 t u ht hu (by rw [hpc]; simp [SingPc.rank])) (fun hr => absurd hr (by simp [SingPc.rank])) (fun hh => (by cases hh))
      (fun hr => ?_) (fun hr => ?_) (fun o u => by simp [SingPc.rank, singNew]) (fun hh => (by cases hh))
    · rw [if_pos e] at hr; exact absurd hr (by simp [SingPc.rank])
    · exact ⟨by simp [singNew, hm], by simp [singNew, hm]⟩
  | arrive2 =>
    simp only [hpc] at hs a1 a2
    obtain ⟨rfl, rfl⟩ := hs
    have g1 : g.arr1 t = true := a1.2 (by simp [SingPc.rank])
    refine h.move ht _ _ htid (by rw [hpc]; simp [SingPc.rank])
      (fun u => by
        by_cases eu : u = t
        · subst eu; simp [g1]
        · simp [eu]) (fun u => by simp [SingPc.rank, htid])
      (fun _ u hu _ => h.b1 t u ht hu (by rw [hpc]; simp [SingPc.rank])) (fun hr => absurd hr (by simp [SingPc.rank])) (fun hh => (by cases hh))
      (fun hr => ?_) (fun hr => ?_) (fun o u => by simp [SingPc.rank]) (fun hh => (by cases hh))
    · by_cases e : t = 0
      · rw [if_pos e] at hr; exact absurd hr (by simp [SingPc.rank])
      · rw [if_neg e] at hr; exact h.before hr
    · by_cases e : t = 0
      · exact h.after (by rw [← e, hpc]; simp [SingPc.rank])
      · rw [if_neg e] at hr; exact h.after hr
  | wait2 =>
    simp only [hpc] at hs a1 a2
    obtain ⟨hall, rfl, rfl⟩ := hs
    have g1 : g'.arr1 t = true := a1.2 (by simp [SingPc.rank])
    have g2 : g'.arr2 t = true := hall t ht
    have haf := h.after (by have := (h.a2 0 hT).1 (hall 0 hT); omega)
    refine h.move ht _ _ htid (by rw [hpc]; simp [SingPc.rank])
      (fun u => by
        by_cases eu : u = t
        · subst eu; simp [g1]
        · simp [eu])
      (fun u => by
        by_cases eu : u = t
        · subst eu; simp [g2]
        · simp [eu])
      (fun _ u hu _ => h.b1 t u ht hu (by rw [hpc]; simp [SingPc.rank])) (fun _ u hu _ => (h.a2 u hu).1 (hall u hu)) (fun hh => (by cases hh))
      (fun hr => ?_) (fun _ => haf) (fun o u => by simp [SingPc.rank]) (fun hh => (by cases hh))
    · by_cases e : t = 0
      · rw [if_pos e] at hr; exact absurd hr (by simp [SingPc.rank])
      · rw [if_neg e] at hr; exact h.before hr
  | init =>
    simp only [hpc] at hs a1 a2
    obtain ⟨o, ho, rfl, rfl⟩ := hs
    have hl := h.inst_of_late hT ht (by rw [hpc]; simp [SingPc.rank])
    rw [hl] at ho
    cases ho
    have g1 : g.arr1 t = true := a1.2 (by simp [SingPc.rank])
    have g2 : g.arr2 t = true := a2.2 (by simp [SingPc.rank])
    have haf := h.after (by have := h.b2 t 0 ht hT (by rw [hpc]; simp [SingPc.rank]); omega)
    refine h.move ht _ _ htid (by rw [hpc]; simp [SingPc.rank])
      (fun u => by
        by_cases eu : u = t
        · subst eu; simp [g1, singInit]
        · simp [eu, singInit])
      (fun u => by
        by_cases eu : u = t
        · subst eu; simp [g2, singInit]
        · simp [eu, singInit])
      (fun _ u hu _ => h.b1 t u ht hu (by rw [hpc]; simp [SingPc.rank])) (fun _ u hu _ => h.b2 t u ht hu (by rw [hpc]; simp [SingPc.rank])) (fun hh => (by cases hh))
      (fun hr => ?_) (fun _ => haf) (fun o u => ?_) (fun hh => (by cases hh))
    · by_cases e : t = 0
      · rw [if_pos e] at hr; exact absurd hr (by simp [SingPc.rank])
      · rw [if_neg e] at hr; exact h.before hr
    · rw [hpc, htid]
      by_cases hx : o = m.length ∧ u = t
      · simp [singInit, hx, SingPc.rank]
      · have hy : ¬ (o = m.length ∧ u = t ∧ SingPc.init.rank < 7 ∧ 7 ≤ SingPc.load.rank) := fun hh => hx ⟨hh.1, hh.2.1⟩
        simp only [singInit, if_neg hx, if_neg hy, Nat.add_zero]
  | load =>
    simp only [hpc] at hs a1 a2
    obtain ⟨rfl, rfl⟩ := hs
    have hl := h.inst_of_late hT ht (by rw [hpc]; simp [SingPc.rank])
    have g1 : g'.arr1 t = true := a1.2 (by simp [SingPc.rank])
    have g2 : g'.arr2 t = true := a2.2 (by simp [SingPc.rank])
    have haf := h.after (by have := h.b2 t 0 ht hT (by rw [hpc]; simp [SingPc.rank]); omega)
    refine h.move ht _ _ htid (by rw [hpc]; simp [SingPc.rank])
      (fun u => by
        by_cases eu : u = t
        · subst eu; simp [g1]
        · simp [eu])
      (fun u => by
        by_cases eu : u = t
        · subst eu; simp [g2]
        · simp [eu])
      (fun _ u hu _ => h.b1 t u ht hu (by rw [hpc]; simp [SingPc.rank])) (fun _ u hu _ => h.b2 t u ht hu (by rw [hpc]; simp [SingPc.rank])) (fun hh => (by cases hh))
      (fun hr => ?_) (fun _ => haf) (fun o u => by simp [hpc, SingPc.rank]) (fun _ => hl)
    · by_cases e : t = 0
      · rw [if_pos e] at hr; exact absurd hr (by simp [SingPc.rank])
      · rw [if_neg e] at hr; exact h.before hr
  | done => simp only [hpc] at hs

theorem singNext_rank {T C P : Nat} {l l' : SingL} {g g' : SingG} (hs : singNext T C P l g l' g') :
    l.pc.rank < l'.pc.rank ∧ l'.pc.rank ≤ 8 := by
  unfold singNext at hs
  cases hpc : l.pc with
  | test => simp only [hpc] at hs; obtain ⟨rfl, _⟩ := hs; dsimp only; split <;> simp [SingPc.rank]
  | arrive1 => simp only [hpc] at hs; obtain ⟨rfl, _⟩ := hs; exact ⟨by simp [SingPc.rank], by simp [SingPc.rank]⟩
  | wait1 => simp only [hpc] at hs; obtain ⟨_, rfl, _⟩ := hs; dsimp only; split <;> simp [SingPc.rank]
  | master => simp only [hpc] at hs; obtain ⟨rfl, _⟩ := hs; exact ⟨by simp [SingPc.rank], by simp [SingPc.rank]⟩
  | arrive2 => simp only [hpc] at hs; obtain ⟨rfl, _⟩ := hs; exact ⟨by simp [SingPc.rank], by simp [SingPc.rank]⟩
  | wait2 => simp only [hpc] at hs; obtain ⟨_, rfl, _⟩ := hs; exact ⟨by simp [SingPc.rank], by simp [SingPc.rank]⟩
  | init => simp only [hpc] at hs; obtain ⟨_, _, rfl, _⟩ := hs; exact ⟨by simp [SingPc.rank], by simp [SingPc.rank]⟩
  | load => simp only [hpc] at hs; obtain ⟨rfl, _⟩ := hs; exact ⟨by simp [SingPc.rank], by simp [SingPc.rank]⟩
  | done => simp only [hpc] at hs

theorem sing_acc (T C P : Nat) (l : SingL) : Acc (fun l' l => ∃ g g', (singMachine T C P).step l g l' g') l := by
  have : ∀ k (l : SingL), 9 - l.pc.rank ≤ k → Acc (fun l' l => ∃ g g', (singMachine T C P).step l g l' g') l := by
    intro k
    induction k with
    | zero => intro l hl; have : l.pc.rank ≤ 8 := by cases l.pc <;> simp [SingPc.rank]
              omega
    | succ k ih =>
      intro l hl
      constructor
      rintro l' ⟨g, g', hs⟩
      have := singNext_rank hs
      exact ih l' (by omega)
  exact this 9 l (by omega)

theorem SingInv.prog {T C P : Nat} {m : List (Nat × Nat)} {n : Nat → Nat → Nat} {ls : Nat → SingL} {g : SingG}
    (h : SingInv T C P m n ls g) (hT : 0 < T) (hx : ∃ t, t < T ∧ (ls t).pc ≠ .done) :
    ∃ t l' g', t < T ∧ singNext T C P (ls t) g l' g' := by
  have fin : ∀ t, t < T → (∃ l' g', singNext T C P (ls t) g l' g') → ∃ t l' g', t < T ∧ singNext T C P (ls t) g l' g' :=
    fun t ht ⟨l', g', h⟩ => ⟨t, l', g', ht, h⟩
  by_cases hmov : ∃ t, t < T ∧ (ls t).pc ≠ .wait1 ∧ (ls t).pc ≠ .wait2 ∧ (ls t).pc ≠ .done
  · obtain ⟨t, ht, h1, h2, h3⟩ := hmov
    cases hpc : (ls t).pc with
    | wait1 => exact absurd hpc h1
    | wait2 => exact absurd hpc h2
    | done => exact absurd hpc h3
    | init =>
      refine fin t ht ?_
      unfold singNext
      rw [hpc]
      exact ⟨_, _, _, h.inst_of_late hT ht (by rw [hpc]; simp [SingPc.rank]), rfl, rfl⟩
    | test => exact fin t ht (by unfold singNext; rw [hpc]; exact ⟨_, _, rfl, rfl⟩)
    | arrive1 => exact fin t ht (by unfold singNext; rw [hpc]; exact ⟨_, _, rfl, rfl⟩)
    | master => exact fin t ht (by unfold singNext; rw [hpc]; exact ⟨_, _, rfl, rfl⟩)
    | arrive2 => exact fin t ht (by unfold singNext; rw [hpc]; exact ⟨_, _, rfl, rfl⟩)
    | load => exact fin t ht (by unfold singNext; rw [hpc]; exact ⟨_, _, rfl, rfl⟩)
  · have hst : ∀ t, t < T → (ls t).pc = .wait1 ∨ (ls t).pc = .wait2 ∨ (ls t).pc = .done := by
      intro t ht
      apply Classical.byContradiction
      intro hc
      exact hmov ⟨t, ht, fun e => hc (.inl e), fun e => hc (.inr (.inl e)), fun e => hc (.inr (.inr e))⟩
    by_cases hw : ∃ t, t < T ∧ (ls t).pc = .wait1
    · obtain ⟨t, ht, hpc⟩ := hw
      refine fin t ht ?_
      unfold singNext
      rw [hpc]
      refine ⟨_, _, fun u hu => (h.a1 u hu).2 ?_, rfl, rfl⟩
      rcases hst u hu with e | e | e <;> rw [e] <;> simp [SingPc.rank]
    · obtain ⟨t, ht, hd⟩ := hx
      have hpc : (ls t).pc = .wait2 := by
        rcases hst t ht with e | e | e
        · exact absurd ⟨t, ht, e⟩ hw
        · exact e
        · exact absurd e hd
      refine fin t ht ?_
      unfold singNext
      rw [hpc]
      refine ⟨_, _, fun u hu => (h.a2 u hu).2 ?_, rfl, rfl⟩
      rcases hst u hu with e | e | e
      · exact absurd ⟨u, hu, e⟩ hw
      · rw [e]; simp [SingPc.rank]
      · rw [e]; simp [SingPc.rank]

end SpMP
