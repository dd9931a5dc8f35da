import Verif.Spec.Blocks
import Mathlib.Data.List.Pairwise
import Mathlib.Data.List.Range
import Mathlib.Data.List.Nodup

/-
The memory of the barriers: constructors, the allocations of `init` and destructors of `Barrier`
(/repo/synk/barrier.cpp:111-157, 279-298), `ReduceBarrier` (/repo/synk/reduce.hpp:104-174, 364-393) and `LoadImba`
(/repo/synk/loadimba.cpp:121-154, 267-278).

Not modelled here: the sizes of the blocks (C65 has the accesses), the contents other than the pointers, failure of the
allocations of `init`, whose result the code does not test.
-/
namespace SpMP
open Spec

/-- The blocks of a core: `CoreBarrier` (barrier.hpp:45-53), `ReduceCoreBarrier` and its `PseudoCore` (reduce.hpp:52-82).
`self` is the structure, `pseudo` that of the pseudo core. -/
inductive CoreFld where
  | self | threadSenses | myFlags (j : Nat) | partnerFlags (j : Nat)
  | threadRvals | myRvals | partnerRvals
  | pseudo | psMyFlags (j : Nat) | psPartnerFlags (j : Nat) | psMyRvals | psPartnerRvals
  deriving DecidableEq

/-- The blocks of a thread: `ThreadLoadImba` (loadimba.hpp:43-45). -/
inductive LimFld where
  | self | min | max | tot | cnt | bar
  deriving DecidableEq

/-- The arrays of a barrier (barrier.hpp:77-79, reduce.hpp:96-98). -/
inductive TopFld where
  | cores | threadCores | coreTids
  deriving DecidableEq

/-- A pointer the code keeps: of a `Barrier`, of a `ReduceBarrier` (`redObj` the object itself), of a `LoadImba`. -/
inductive BlkId where
  | barTop (f : TopFld)
  | barCore (c : Nat) (f : CoreFld)
  | redObj
  | redTop (f : TopFld)
  | redCore (c : Nat) (f : CoreFld)
  | limTop
  | lim (t : Nat) (f : LimFld)
  deriving DecidableEq

/-- The heap and the pointers, `none` if not initialised. -/
structure BlkStore where
  live : InUse
  slot : BlkId → Option Nat

/-- A pointer gets the address `a` of a new block. -/
def BlkStore.put (s : BlkStore) (i : BlkId) (a : Nat) : BlkStore :=
  ⟨fun x => if x = a then true else s.live x, fun j => if j = i then some a else s.slot j⟩

/-- The blocks that are read to get at a pointer, for instance `cores` and `cores[c]` for `cores[c]->threadSenses`. -/
def blkPath : BlkId → List BlkId
  | .barTop _ => []
  | .barCore _ .self => [.barTop .cores]
  | .barCore c _ => [.barTop .cores, .barCore c .self]
  | .redObj => []
  | .redTop _ => [.redObj]
  | .redCore _ .self => [.redObj, .redTop .cores]
  | .redCore c (.psMyFlags _) => [.redObj, .redTop .cores, .redCore c .self, .redCore c .pseudo]
  | .redCore c (.psPartnerFlags _) => [.redObj, .redTop .cores, .redCore c .self, .redCore c .pseudo]
  | .redCore c .psMyRvals => [.redObj, .redTop .cores, .redCore c .self, .redCore c .pseudo]
  | .redCore c .psPartnerRvals => [.redObj, .redTop .cores, .redCore c .self, .redCore c .pseudo]
  | .redCore c _ => [.redObj, .redTop .cores, .redCore c .self]
  | .limTop => []
  | .lim _ .self => [.limTop]
  | .lim t _ => [.limTop, .lim t .self]

/-- The pointer leads to a block in use. -/
def BlkStore.held (s : BlkStore) (i : BlkId) : Bool :=
  match s.slot i with
  | some a => s.live a
  | none => false

/-- `_mm_free` of a pointer; `none` is undefined behaviour: a block read on the way is not in use, or the pointer is not
initialised or not that of a block in use. -/
def blkFree (i : BlkId) (s : BlkStore) : Option BlkStore :=
  if (blkPath i).all s.held ∧ s.held i then
    some ⟨fun x => if some x = s.slot i then false else s.live x, s.slot⟩
  else none

/-- The pointers of a list freed in this order. -/
def blkFrees : List BlkId → BlkStore → Option BlkStore
  | [], s => some s
  | i :: l, s => (blkFree i s).bind (blkFrees l)

/-- The constructor of `Barrier`, in the order of its allocations (barrier.cpp:114-122). -/
def barCtor : List BlkId := [.barTop .cores, .barTop .threadCores, .barTop .coreTids]

/-- The allocations of thread `tid` in `Barrier::init` (barrier.cpp:133-157). -/
def barInit (P tid : Nat) : List BlkId :=
  let cid := tid / P
  if tid % P = 0 then
    [.barCore cid .self, .barCore cid .threadSenses] ++
      (List.range 2).flatMap fun i => [.barCore cid (.myFlags i), .barCore cid (.partnerFlags i)]
  else []

/-- What the destructor of `Barrier` frees, in its order (barrier.cpp:279-298). -/
def barDtor (C : Nat) (initState : Nat) : List BlkId :=
  (if initState ≠ 0 then
    (List.range C).flatMap fun i => [.barCore i .threadSenses] ++
      ((List.range 2).flatMap fun j => [.barCore i (.myFlags j), .barCore i (.partnerFlags j)]) ++ [.barCore i .self]
  else []) ++ [.barTop .coreTids, .barTop .threadCores, .barTop .cores]

/-- `new ReduceBarrier` (reduce.hpp:104-114). -/
def redCtor : List BlkId := [.redObj, .redTop .cores, .redTop .threadCores, .redTop .coreTids]

/-- The allocations of thread `tid` in `ReduceBarrier::init` (reduce.hpp:126-174); `n2` is `nearestPow2Cores`. -/
def redInit (C P n2 tid : Nat) : List BlkId :=
  let cid := tid / P
  if tid % P = 0 then
    [.redCore cid .self, .redCore cid .threadSenses] ++
      ((List.range 2).flatMap fun i => [.redCore cid (.myFlags i), .redCore cid (.partnerFlags i)]) ++
      [.redCore cid .threadRvals, .redCore cid .myRvals, .redCore cid .partnerRvals] ++
      if cid + C < n2 then
        [.redCore cid .pseudo] ++
          ((List.range 2).flatMap fun i => [.redCore cid (.psMyFlags i), .redCore cid (.psPartnerFlags i)]) ++
          [.redCore cid .psMyRvals, .redCore cid .psPartnerRvals]
      else []
  else []

/-- What `delete` of a `ReduceBarrier` frees, in its order (reduce.hpp:364-393, then the object).  `s` is the state before;
`cores[i]->pseudoCore` is null exactly if `init` has not allocated it (reduce.hpp:150, 170). -/
def redDelete (s : BlkStore) (C : Nat) (initState : Nat) : List BlkId :=
  (if initState ≠ 0 then
    (List.range C).flatMap fun i =>
      (if (s.slot (.redCore i .pseudo)).isSome then
        [.redCore i .psPartnerRvals, .redCore i .psMyRvals] ++
          ((List.range 2).flatMap fun j => [.redCore i (.psPartnerFlags j), .redCore i (.psMyFlags j)]) ++
          [.redCore i .pseudo]
      else []) ++
      [.redCore i .partnerRvals, .redCore i .myRvals, .redCore i .threadRvals, .redCore i .threadSenses] ++
      ((List.range 2).flatMap fun j => [.redCore i (.partnerFlags j), .redCore i (.myFlags j)]) ++ [.redCore i .self]
  else []) ++ [.redTop .coreTids, .redTop .threadCores, .redTop .cores] ++ [.redObj]

/-- The constructor of `LoadImba` (loadimba.cpp:121-128). -/
def limCtor : List BlkId := barCtor ++ redCtor ++ [.limTop]

/-- The allocations of thread `tid` in `LoadImba::init` (loadimba.cpp:137-154). -/
def limInit (C P n2 tid : Nat) : List BlkId :=
  barInit P tid ++ redInit C P n2 tid ++
    [.lim tid .self, .lim tid .min, .lim tid .max, .lim tid .tot, .lim tid .cnt, .lim tid .bar]

/-- What the destructor of `LoadImba` frees, in its order (loadimba.cpp:267-278), then that of `Barrier`.  The arrays of the
threads are freed whether or not `init` has been called. -/
def limDtor (s : BlkStore) (C P : Nat) (initState redState : Nat) : List BlkId :=
  redDelete s C redState ++
    ((List.range (C * P)).flatMap fun i => [.lim i .min, .lim i .max, .lim i .tot, .lim i .cnt, .lim i .bar]) ++
    [.limTop] ++ barDtor C initState

/-- A thread obtains the blocks of a list one after the other, nobody else allocates. -/
inductive Obtains : List BlkId → BlkStore → BlkStore → Prop
  | nil {s : BlkStore} : Obtains [] s s
  | cons {i : BlkId} {l : List BlkId} {s s' : BlkStore} {a : Nat} : s.live.Fresh a → Obtains l (s.put i a) s' →
      Obtains (i :: l) s s'

/-- The `T` threads of a team allocate, thread `t` the blocks `prog t` in this order, in any interleaving; `todo` is what is
left. -/
inductive TeamObtains (T : Nat) (prog : Nat → List BlkId) (s : BlkStore) : (Nat → List BlkId) → BlkStore → Prop
  | start : TeamObtains T prog s prog s
  | step {todo : Nat → List BlkId} {s' : BlkStore} {t a : Nat} {i : BlkId} {l : List BlkId} :
      TeamObtains T prog s todo s' → t < T → todo t = i :: l → s'.live.Fresh a →
      TeamObtains T prog s (fun u => if u = t then l else todo u) (s'.put i a)

/-- A constructor that may run out of memory (barrier.cpp:114-122): `ans` are the answers of `_mm_malloc`, 0 is null; `false`
means that `bad_alloc` is thrown, in which case the destructor does not run. -/
def ctorRun (ans : BlkId → Nat) : List BlkId → BlkStore → Bool × BlkStore
  | [], s => (true, s)
  | i :: l, s => if ans i = 0 then (false, s) else ctorRun ans l (s.put i (ans i))

/-! ### Proofs -/

/-- The heap is that of before and the blocks with pointers in `D`. -/
structure BlkInv (live0 : InUse) (D : BlkId → Prop) (s : BlkStore) : Prop where
  dom : ∀ i, (s.slot i).isSome = true ↔ D i
  new : ∀ i a, s.slot i = some a → live0 a = false
  inj : ∀ i j a, s.slot i = some a → s.slot j = some a → i = j
  live : ∀ a, s.live a = true ↔ live0 a = true ∨ ∃ i, s.slot i = some a

theorem BlkInv.put {live0 : InUse} {D : BlkId → Prop} {s : BlkStore} (h : BlkInv live0 D s) {i : BlkId} (hi : ¬ D i) {a : Nat}
    (ha : s.live.Fresh a) : BlkInv live0 (fun j => j = i ∨ D j) (s.put i a) := by
  have hn : s.slot i = none := by
    cases e : s.slot i with
    | none => rfl
    | some b => exact absurd ((h.dom i).1 (by rw [e]; rfl)) hi
  have hold : ∀ j, s.slot j ≠ some a := fun j e => by
    have := (h.live a).2 (.inr ⟨j, e⟩)
    rw [ha.2] at this
    exact absurd this (by simp)
  have h0 : live0 a = false := by
    cases e : live0 a with
    | false => rfl
    | true =>
      have := (h.live a).2 (.inl e)
      rw [ha.2] at this
      exact absurd this (by simp)
  refine ⟨fun j => ?_, fun j b e => ?_, fun j k b e f => ?_, fun b => ?_⟩
  · show (if j = i then some a else s.slot j).isSome = true ↔ _
    by_cases hj : j = i
    · simp [hj]
    · simp [hj, h.dom j]
  · have e' : (if j = i then some a else s.slot j) = some b := e
    by_cases hj : j = i
    · rw [if_pos hj] at e'; cases e'; exact h0
    · rw [if_neg hj] at e'; exact h.new j b e'
  · have e' : (if j = i then some a else s.slot j) = some b := e
    have f' : (if k = i then some a else s.slot k) = some b := f
    by_cases hj : j = i <;> by_cases hk : k = i
    · rw [hj, hk]
    · rw [if_pos hj] at e'; rw [if_neg hk] at f'; cases e'; exact absurd f' (hold k)
    · rw [if_neg hj] at e'; rw [if_pos hk] at f'; cases f'; exact absurd e' (hold j)
    · rw [if_neg hj] at e'; rw [if_neg hk] at f'; exact h.inj j k b e' f'
  · show (if b = a then true else s.live b) = true ↔ _ ∨ ∃ j, (if j = i then some a else s.slot j) = some b
    by_cases hb : b = a
    · subst hb
      simp only [if_true, true_iff]
      exact .inr ⟨i, if_pos rfl⟩
    · rw [if_neg hb, h.live b]
      refine or_congr Iff.rfl ⟨fun ⟨j, e⟩ => ⟨j, ?_⟩, fun ⟨j, e⟩ => ⟨j, ?_⟩⟩
      · rw [if_neg]
        · exact e
        · rintro rfl
          rw [hn] at e
          cases e
      · by_cases hj : j = i
        · rw [if_pos hj] at e; cases e; exact absurd rfl hb
        · rw [if_neg hj] at e; exact e

theorem BlkInv.congr {live0 : InUse} {D D' : BlkId → Prop} {s : BlkStore} (h : BlkInv live0 D s) (e : ∀ i, D i ↔ D' i) :
    BlkInv live0 D' s := ⟨fun i => (h.dom i).trans (e i), h.new, h.inj, h.live⟩

theorem Obtains.inv {live0 : InUse} {l : List BlkId} {s s' : BlkStore} (h : Obtains l s s') :
    ∀ {D : BlkId → Prop}, BlkInv live0 D s → l.Nodup → (∀ i ∈ l, ¬ D i) → BlkInv live0 (fun j => D j ∨ j ∈ l) s' := by
  induction h with
  | nil => intro D hi _ _; exact hi.congr (by simp)
  | @cons i l s s' a ha _ ih =>
    intro D hi hnd hD
    rw [List.nodup_cons] at hnd
    refine (ih (hi.put (hD i (by simp)) ha) hnd.2 ?_).congr ?_
    · rintro j hj (rfl | h)
      · exact hnd.1 hj
      · exact hD j (by simp [hj]) h
    · intro j
      simp only [List.mem_cons]
      tauto

/-- The programs of a team: no block is allocated twice. -/
structure ProgOk (T : Nat) (prog : Nat → List BlkId) (D : BlkId → Prop) : Prop where
  nodup : ∀ t, t < T → (prog t).Nodup
  apart : ∀ t u i, t < T → u < T → i ∈ prog t → i ∈ prog u → t = u
  new : ∀ t i, t < T → i ∈ prog t → ¬ D i

theorem TeamObtains.inv {live0 : InUse} {T : Nat} {prog todo : Nat → List BlkId} {s s' : BlkStore} {D : BlkId → Prop}
    (h : TeamObtains T prog s todo s') (hp : ProgOk T prog D) (hi : BlkInv live0 D s) :
    BlkInv live0 (fun j => D j ∨ ∃ t, t < T ∧ j ∈ prog t ∧ j ∉ todo t) s' ∧ ∀ t, t < T → todo t <:+ prog t := by
  induction h with
  | start => exact ⟨hi.congr fun i => ⟨.inl, fun h => h.elim id fun ⟨t, _, a, b⟩ => absurd a b⟩, fun t _ => List.suffix_refl _⟩
  | @step todo s' t a i l _ ht e ha ih =>
    obtain ⟨h1, h2⟩ := ih
    have hs := h2 t ht
    have hmem : i ∈ prog t := hs.subset (by rw [e]; simp)
    have hnd : (i :: l).Nodup := by rw [← e]; exact (hp.nodup t ht).sublist hs.sublist
    rw [List.nodup_cons] at hnd
    refine ⟨(h1.put ?_ ha).congr ?_, fun u hu => ?_⟩
    · rintro (h | ⟨u, hu, h, h'⟩)
      · exact hp.new t i ht hmem h
      · rw [hp.apart u t i hu ht h hmem, e] at h'
        simp at h'
    · intro j
      dsimp only
      constructor
      · rintro (rfl | h | ⟨u, hu, h, h'⟩)
        · exact .inr ⟨t, ht, hmem, by rw [if_pos rfl]; exact hnd.1⟩
        · exact .inl h
        · refine .inr ⟨u, hu, h, ?_⟩
          by_cases hut : u = t
          · rw [if_pos hut]
            rw [hut, e] at h'
            exact fun hh => h' (by simp [hh])
          · rw [if_neg hut]; exact h'
      · rintro (h | ⟨u, hu, h, h'⟩)
        · exact .inr (.inl h)
        · by_cases hut : u = t
          · rw [if_pos hut] at h'
            by_cases hj : j = i
            · exact .inl hj
            · refine .inr (.inr ⟨u, hu, h, ?_⟩)
              rw [hut, e]
              simp [hj, h']
          · rw [if_neg hut] at h'
            exact .inr (.inr ⟨u, hu, h, h'⟩)
    · dsimp only
      by_cases hut : u = t
      · rw [if_pos hut, hut]
        exact (List.suffix_cons i l).trans (by rw [← e]; exact hs)
      · rw [if_neg hut]; exact h2 u hu

/-- A list that can be freed in its order: nothing twice, and nothing before what is reached through it. -/
def FreeOrder (l : List BlkId) : Prop := l.Pairwise fun x y => x ≠ y ∧ x ∉ blkPath y

theorem BlkInv.frees_aux {live0 : InUse} {D : BlkId → Prop} {s0 : BlkStore} (h : BlkInv live0 D s0) :
    ∀ (l : List BlkId) (s : BlkStore) (gone : List BlkId), s.slot = s0.slot →
      (∀ a, s.live a = true ↔ s0.live a = true ∧ ∀ i ∈ gone, s0.slot i ≠ some a) →
      FreeOrder (gone ++ l) → (∀ i ∈ l, D i ∧ ∀ j ∈ blkPath i, D j) →
      ∃ s', blkFrees l s = some s' ∧ ∀ a, s'.live a = true ↔ s0.live a = true ∧ ∀ i ∈ gone ++ l, s0.slot i ≠ some a := by
  intro l
  induction l with
  | nil => intro s gone _ hl _ _; exact ⟨s, rfl, by simpa using hl⟩
  | cons i l ih =>
    intro s gone hslot hl ho hD
    have hheld : ∀ j, D j → j ∉ gone → s.held j = true := by
      intro j hj hg
      unfold BlkStore.held
      have := (h.dom j).2 hj
      rw [hslot]
      cases e : s0.slot j with
      | none => rw [e] at this; cases this
      | some a =>
        exact (hl a).2 ⟨(h.live a).2 (.inr ⟨j, e⟩), fun k hk ek => hg (by rw [h.inj j k a e ek]; exact hk)⟩
    have hord : ∀ x ∈ gone, x ≠ i ∧ x ∉ blkPath i := by
      intro x hx
      exact (List.pairwise_append.1 ho).2.2 x hx i (by simp)
    have hi := hD i (by simp)
    have hc : (blkPath i).all s.held ∧ s.held i := by
      refine ⟨List.all_eq_true.2 fun j hj => hheld j (hi.2 j hj) fun hg => (hord j hg).2 hj, ?_⟩
      exact hheld i hi.1 fun hg => (hord i hg).1 rfl
    have hfree : blkFree i s = some ⟨fun x => if some x = s.slot i then false else s.live x, s.slot⟩ := by
      unfold blkFree
      rw [if_pos hc]
    obtain ⟨s', e1, e2⟩ := ih ⟨fun x => if some x = s.slot i then false else s.live x, s.slot⟩ (gone ++ [i]) hslot (by
      intro a
      show (if some a = s.slot i then false else s.live a) = true ↔ _
      rw [hslot]
      by_cases ea : some a = s0.slot i
      · rw [if_pos ea]
        exact ⟨fun h => (by cases h), fun h => absurd ea.symm (h.2 i (by simp))⟩
      · rw [if_neg ea, hl a]
        refine and_congr Iff.rfl ⟨fun h j hj => ?_, fun h j hj => h j (by simp [hj])⟩
        rw [List.mem_append, List.mem_singleton] at hj
        rcases hj with hj | rfl
        · exact h j hj
        · exact fun e => ea e.symm) (by rw [List.append_assoc]; exact ho) (fun j hj => hD j (by simp [hj]))
    refine ⟨s', ?_, ?_⟩
    · show (blkFree i s).bind (blkFrees l) = some s'
      rw [hfree]
      exact e1
    · intro a
      rw [e2 a, List.append_assoc]
      rfl

/-- Freeing the list `l` leaves the blocks not in `l`. -/
theorem BlkInv.frees {live0 : InUse} {D : BlkId → Prop} {s : BlkStore} (h : BlkInv live0 D s) {l : List BlkId}
    (ho : FreeOrder l) (hD : ∀ i ∈ l, D i) (hP : ∀ i ∈ l, ∀ j ∈ blkPath i, D j) :
    ∃ s', blkFrees l s = some s' ∧ ∀ a, s'.live a = true ↔ live0 a = true ∨ ∃ i, i ∉ l ∧ s.slot i = some a := by
  obtain ⟨s', e1, e2⟩ := h.frees_aux l s [] rfl (by simp) (by simpa using ho) (fun i hi => ⟨hD i hi, hP i hi⟩)
  refine ⟨s', e1, fun a => ?_⟩
  rw [e2 a, h.live a, List.nil_append]
  constructor
  · rintro ⟨h1 | ⟨i, hi⟩, h2⟩
    · exact .inl h1
    · exact .inr ⟨i, fun hm => h2 i hm hi, hi⟩
  · rintro (h1 | ⟨i, hn, hi⟩)
    · refine ⟨.inl h1, fun j _ hj => ?_⟩
      rw [h.new j a hj] at h1
      cases h1
    · exact ⟨.inr ⟨i, hi⟩, fun j hj e => hn (by rw [h.inj i j a hi e]; exact hj)⟩

end SpMP
