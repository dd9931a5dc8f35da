import Verif.SlotRule
/-
Teams that append to shared buckets, continued: the invariant and the two kinds of steps (only counting; counting and storing).
`items t` is what thread `t` appends, as (bucket, value) pairs in its program order. Bucket `c` has its counter in cell `c + off` of
`itmp jc`, starting at `D c`; slot number `s` of bucket `c` is cell `Sl c + s` of `itmp js`.
-/

namespace SpMP
open Spec

variable {R : Type}

/-- Ghost state: (thread, item) in order of the atomic increments; the index of a thread's item not yet stored. -/
structure Bk where
  al : List (Nat × (Nat × Nat))
  pend : Nat → Option Nat

/-- The items thread `t` has appended. -/
def Bk.of (g : Bk) (t : Nat) : List (Nat × Nat) := (g.al.filter (fun x => decide (x.1 = t))).map (·.2)

/-- Is it an item of bucket `c`? -/
def inBk (c : Nat) (x : Nat × (Nat × Nat)) : Bool := decide (x.2.1 = c)

/-- Number of items of bucket `c` over all threads. -/
def bkN (T : Nat) (items : Nat → List (Nat × Nat)) (c : Nat) : Nat :=
  ((List.range T).flatMap items).countP (fun x => decide (x.1 = c))

structure BkInv (T jc off js M : Nat) (slots : Bool) (D Sl : Nat → Nat) (items : Nat → List (Nat × Nat)) (m0 : Mem (CTy R))
    (g : Bk) (m : Mem (CTy R)) : Prop where
  pre : ∀ t, t < T → g.of t <+: items t
  thr : ∀ x ∈ g.al, x.1 < T
  pnd : ∀ t p, g.pend t = some p → t < T
  ctr : ∀ c : Nat, c < M → m (.itmp jc) ((c : Int) + off) = some ((D c : Int) + (g.al.countP (inBk c) : Nat))
  done : slots = true → ∀ (p : Nat) (hp : p < g.al.length), (∃ t, g.pend t = some p) ∨
    m (.itmp js) ((Sl g.al[p].2.1 : Int) + (D g.al[p].2.1 : Nat) + ((g.al.take p).countP (inBk g.al[p].2.1) : Nat)) = some (g.al[p].2.2 : Int)
  frame : ∀ a i, ¬ (a = .itmp jc ∧ ∃ c : Nat, c < M ∧ i = (c : Int) + off) →
    ¬ (slots = true ∧ a = .itmp js ∧ ∃ c s : Nat, c < M ∧ s < bkN T items c ∧ i = (Sl c : Int) + (D c : Nat) + s) → m a i = m0 a i

/-- What the other threads may do to thread `t`. -/
def BkRely (t : Nat) (g g' : Bk) : Prop := g'.of t = g.of t ∧ g'.pend t = g.pend t ∧ g.al <+: g'.al

/-- What thread `t` does. -/
def BkGuar (t : Nat) (g g' : Bk) : Prop := (∀ u, u ≠ t → g'.of u = g.of u ∧ g'.pend u = g.pend u) ∧ g.al <+: g'.al

theorem BkRely.refl (t : Nat) (g : Bk) : BkRely t g g := ⟨rfl, rfl, List.prefix_refl _⟩

theorem BkRely.trans {t : Nat} {g1 g2 g3 : Bk} (h1 : BkRely t g1 g2) (h2 : BkRely t g2 g3) : BkRely t g1 g3 :=
  ⟨h2.1.trans h1.1, h2.2.1.trans h1.2.1, h1.2.2.trans h2.2.2⟩

theorem BkGuar.refl (t : Nat) (g : Bk) : BkGuar t g g := ⟨fun _ _ => ⟨rfl, rfl⟩, List.prefix_refl _⟩

section
variable {sz : CArr → Int} {T jc off js M : Nat} {slots : Bool} {D Sl : Nat → Nat} {items : Nat → List (Nat × Nat)} {m0 : Mem (CTy R)}
  {g : Bk} {m : Mem (CTy R)}

theorem prefix_countP {α : Type} {l l' : List α} (h : l <+: l') (P : α → Bool) : l.countP P ≤ l'.countP P :=
  h.sublist.countP_le

theorem countP_flatMap_le {α β : Type} (P : β → Bool) (f f' : α → List β) (l : List α) (h : ∀ t ∈ l, (f t).countP P ≤ (f' t).countP P) :
    (l.flatMap f).countP P ≤ (l.flatMap f').countP P := by
  induction l with
  | nil => simp
  | cons a l ih =>
    rw [List.flatMap_cons, List.flatMap_cons, List.countP_append, List.countP_append]
    have := h a (by simp)
    have := ih (fun t ht => h t (by simp [ht]))
    omega

theorem countP_flatMap_lt {α β : Type} (P : β → Bool) (f f' : α → List β) (l : List α) (h : ∀ t ∈ l, (f t).countP P ≤ (f' t).countP P)
    {t : α} (ht : t ∈ l) (hlt : (f t).countP P < (f' t).countP P) :
    (l.flatMap f).countP P < (l.flatMap f').countP P := by
  induction l with
  | nil => simp at ht
  | cons a l ih =>
    rw [List.flatMap_cons, List.flatMap_cons, List.countP_append, List.countP_append]
    have h1 := h a (by simp)
    have h2 := countP_flatMap_le P f f' l (fun t ht => h t (by simp [ht]))
    rcases List.mem_cons.1 ht with rfl | ht
    · omega
    · have := ih (fun t ht => h t (by simp [ht])) ht
      omega

theorem BkInv.count_eq (hthr : ∀ x ∈ g.al, x.1 < T) (c : Nat) :
    g.al.countP (inBk c) = ((List.range T).flatMap g.of).countP (fun x => decide (x.1 = c)) := by
  rw [show g.al.countP (inBk c) = (g.al.map (·.2)).countP (fun x => decide (x.1 = c)) by rw [List.countP_map]; rfl]
  exact (perm_threads g.al hthr).countP_eq _

/-- There is room for the next item. -/
theorem BkInv.room (hI : BkInv T jc off js M slots D Sl items m0 g m) {t : Nat} (ht : t < T) {c x : Nat}
    (hpre : g.of t ++ [(c, x)] <+: items t) : g.al.countP (inBk c) < bkN T items c := by
  rw [BkInv.count_eq hI.thr]
  refine countP_flatMap_lt _ _ _ _ ?_ (List.mem_range.2 ht) ?_
  · intro u hu; exact prefix_countP (hI.pre u (List.mem_range.1 hu)) _
  · have := prefix_countP hpre (fun x => decide (x.1 = c))
    rw [List.countP_append] at this
    simp at this
    omega

theorem BkInv.room_of (hI : BkInv T jc off js M slots D Sl items m0 g m) {p : Nat} (hp : p < g.al.length) :
    (g.al.take p).countP (inBk g.al[p].2.1) < bkN T items g.al[p].2.1 := by
  have h1 : g.al.countP (inBk g.al[p].2.1) ≤ bkN T items g.al[p].2.1 := by
    rw [BkInv.count_eq hI.thr]
    refine countP_flatMap_le _ _ _ _ ?_
    intro u hu; exact prefix_countP (hI.pre u (List.mem_range.1 hu)) _
  have h2 := countP_take_lt (inBk g.al[p].2.1) (l := g.al) (p := p) (q := g.al.length) hp hp (by simp [inBk])
  rw [List.take_length] at h2
  omega

theorem BkInv.init (h : ∀ c : Nat, c < M → m0 (.itmp jc) ((c : Int) + off) = some (D c : Int)) :
    BkInv T jc off js M slots D Sl items m0 ⟨[], fun _ => none⟩ m0 where
  pre := by intro t _; simp [Bk.of]
  thr := by intro x hx; simp at hx
  pnd := by intro t p h; cases h
  ctr := by intro c hc; rw [h c hc]; simp
  done := by intro _ p hp; simp at hp
  frame := fun _ _ _ _ => rfl

/-- The ghost state after thread `t` has reserved a slot. -/
def Bk.push (g : Bk) (t : Nat) (it : Nat × Nat) (slots : Bool) : Bk :=
  ⟨g.al ++ [(t, it)], fun u => if u = t ∧ slots = true then some g.al.length else g.pend u⟩

theorem Bk.push_of (g : Bk) (t u : Nat) (it : Nat × Nat) (slots : Bool) :
    (g.push t it slots).of u = g.of u ++ (if u = t then [it] else []) := by
  unfold Bk.of Bk.push
  simp only [List.filter_append, List.map_append]
  by_cases h : t = u
  · subst h; simp
  · rw [if_neg (Ne.symm h)]; simp [h]

/-- The increment of the counter. -/
theorem BkInv.reserve (hI : BkInv T jc off js M slots D Sl items m0 g m) (hne : slots = true → jc ≠ js) {t : Nat} (ht : t < T) {c x : Nat} (hc : c < M)
    (hpre : g.of t ++ [(c, x)] <+: items t) (hpd : g.pend t = none) :
    BkInv T jc off js M slots D Sl items m0 (g.push t (c, x) slots)
      (m.set (.itmp jc) ((c : Int) + off) (((D c : Int) + (g.al.countP (inBk c) : Nat) : Int) + 1)) where
  pre := by
    intro u hu
    rw [Bk.push_of]
    by_cases h : u = t
    · subst h; rw [if_pos rfl]; exact hpre
    · rw [if_neg h, List.append_nil]; exact hI.pre u hu
  thr := by
    intro y hy
    rcases List.mem_append.1 hy with hy | hy
    · exact hI.thr y hy
    · rw [List.mem_singleton] at hy; subst hy; exact ht
  pnd := by
    intro u p h
    unfold Bk.push at h
    dsimp only at h
    split at h
    · next h1 => rw [h1.1]; exact ht
    · exact hI.pnd u p h
  ctr := by
    intro c' hc'
    have e : (g.push t (c, x) slots).al.countP (inBk c') = g.al.countP (inBk c') + (if c = c' then 1 else 0) := by
      unfold Bk.push
      rw [List.countP_append, List.countP_singleton]
      by_cases h : c = c' <;> simp [inBk, h]
    rw [e]
    by_cases h : c = c'
    · subst h
      rw [Mem.get_same, if_pos rfl]
      exact congrArg some (show ((D c : Int) + (g.al.countP (inBk c) : Nat)) + 1 = _ by push_cast; omega)
    · rw [Mem.get_ne _ _ _ _ _ (by omega), if_neg h, Nat.add_zero]
      exact hI.ctr c' hc'
  done := by
    intro hs p hp
    have hp2 : p < g.al.length + 1 := by
      have := hp
      unfold Bk.push at this
      rwa [List.length_append, List.length_singleton] at this
    by_cases hpl : p = g.al.length
    · left
      refine ⟨t, ?_⟩
      unfold Bk.push
      dsimp only
      rw [if_pos ⟨rfl, hs⟩, hpl]
    · have hp' : p < g.al.length := by omega
      have e1 : (g.push t (c, x) slots).al[p]'(by unfold Bk.push; rw [List.length_append]; omega) = g.al[p] := by
        unfold Bk.push; exact List.getElem_append_left hp'
      have e2 : (g.push t (c, x) slots).al.take p = g.al.take p := by
        unfold Bk.push; exact List.take_append_of_le_length (by omega)
      rw [e1, e2, Mem.set_other _ _ _ _ _ (by intro h; exact hne hs (by injection h with h; exact h.symm))]
      rcases hI.done hs p hp' with ⟨u, hu⟩ | h
      · left
        refine ⟨u, ?_⟩
        unfold Bk.push
        dsimp only
        rw [if_neg, hu]
        rintro ⟨rfl, _⟩
        rw [hpd] at hu; cases hu
      · exact Or.inr h
  frame := by
    intro a i h1 h2
    by_cases ha : a = .itmp jc
    · subst ha
      rw [Mem.get_ne _ _ _ _ _ (by rintro rfl; exact h1 ⟨rfl, c, hc, rfl⟩)]
      exact hI.frame _ _ h1 h2
    · rw [Mem.set_other _ _ _ _ _ ha]; exact hI.frame _ _ h1 h2

theorem Bk.push_guar (g : Bk) (t : Nat) (it : Nat × Nat) (slots : Bool) : BkGuar t g (g.push t it slots) := by
  refine ⟨?_, ?_⟩
  · intro u hu
    rw [Bk.push_of, if_neg hu, List.append_nil]
    refine ⟨rfl, ?_⟩
    unfold Bk.push
    dsimp only
    rw [if_neg (fun h => hu h.1)]
  · exact List.prefix_append _ _

/-- Slots of different buckets are different cells. -/
def SlotsDisj (M : Nat) (Sl D N : Nat → Nat) : Prop :=
  ∀ c c' s s', c < M → c' < M → s < N c → s' < N c' → Sl c + D c + s = Sl c' + D c' + s' → c = c'

/-- Storing the reserved item. -/
theorem BkInv.store (hI : BkInv T jc off js M true D Sl items m0 g m) (hne : jc ≠ js) (hdis : SlotsDisj M Sl D (bkN T items))
    (hM : ∀ t, t < T → ∀ x ∈ items t, x.1 < M)
    {t p c x : Nat} (hp : p < g.al.length) (hpd : g.pend t = some p) (hg : g.al[p] = (t, (c, x))) :
    BkInv T jc off js M true D Sl items m0 ⟨g.al, fun u => if u = t then none else g.pend u⟩
      (m.set (.itmp js) ((Sl c : Int) + (D c : Nat) + ((g.al.take p).countP (inBk c) : Nat)) (x : Int)) := by
  have hroom := fun (q : Nat) (hq : q < g.al.length) => hI.room_of hq
  have hMal : ∀ q (hq : q < g.al.length), g.al[q].2.1 < M := by
    intro q hq
    have h1 : g.al[q].2 ∈ g.of g.al[q].1 := by
      unfold Bk.of
      refine List.mem_map.2 ⟨g.al[q], List.mem_filter.2 ⟨List.getElem_mem hq, by simp⟩, rfl⟩
    have h2 := hI.thr _ (List.getElem_mem hq)
    exact hM _ h2 _ ((hI.pre _ h2).subset h1)
  have hcM : c < M := by have := hMal p hp; rw [hg] at this; exact this
  refine ⟨hI.pre, hI.thr, ?_, ?_, ?_, ?_⟩
  · intro u q h
    dsimp only at h
    split at h
    · cases h
    · exact hI.pnd u q h
  · intro c' hc'
    rw [Mem.set_other _ _ _ _ _ (by intro h; exact hne (by injection h))]
    exact hI.ctr c' hc'
  · intro _ q hq
    by_cases hqp : q = p
    · subst hqp
      right
      dsimp only
      rw [hg]
      exact Mem.get_same _ _ _ _
    · rcases hI.done rfl q hq with ⟨u, hu⟩ | h
      · left
        refine ⟨u, ?_⟩
        dsimp only
        rw [if_neg, hu]
        rintro rfl
        rw [hpd] at hu; cases hu; exact hqp rfl
      · right
        dsimp only
        rw [Mem.get_ne _ _ _ _ _ ?_]
        · exact h
        · intro he
          have h1 := hroom q hq
          have h2 : (g.al.take p).countP (inBk c) < bkN T items c := by have := hroom p hp; rw [hg] at this; exact this
          have hcc : g.al[q].2.1 = c := hdis _ _ _ _ (hMal q hq) hcM h1 h2 (by omega)
          rw [hcc] at he
          rcases Nat.lt_trichotomy q p with hlt | heq | hgt
          · have := countP_take_lt (inBk c) (l := g.al) hlt hq (by simp [inBk, hcc])
            omega
          · exact hqp heq
          · have := countP_take_lt (inBk c) (l := g.al) hgt hp (by simp [inBk, hg])
            omega
  · intro a i h1 h2
    by_cases ha : a = .itmp js
    · subst ha
      rw [Mem.get_ne _ _ _ _ _ ?_]
      · exact hI.frame _ _ h1 h2
      · rintro rfl
        have h3 := hroom p hp
        rw [hg] at h3
        exact h2 ⟨rfl, rfl, c, _, hcM, h3, rfl⟩
    · rw [Mem.set_other _ _ _ _ _ ha]; exact hI.frame _ _ h1 h2

/-- What holds at the end. -/
structure BkDone (T jc off js M : Nat) (slots : Bool) (D Sl : Nat → Nat) (items : Nat → List (Nat × Nat)) (m0 m : Mem (CTy R)) : Prop where
  ctr : ∀ c : Nat, c < M → m (.itmp jc) ((c : Int) + off) = some ((D c : Int) + (bkN T items c : Nat))
  slot : slots = true → ∀ c : Nat, c < M → ∃ L : List Nat,
    L.Perm ((((List.range T).flatMap items).filter (fun x => decide (x.1 = c))).map (·.2)) ∧
    ∀ s (h : s < L.length), m (.itmp js) ((Sl c : Int) + (D c : Nat) + s) = some (L[s] : Int)
  frame : ∀ a i, ¬ (a = .itmp jc ∧ ∃ c : Nat, c < M ∧ i = (c : Int) + off) →
    ¬ (slots = true ∧ a = .itmp js ∧ ∃ c s : Nat, c < M ∧ s < bkN T items c ∧ i = (Sl c : Int) + (D c : Nat) + s) → m a i = m0 a i

theorem BkInv.final (hI : BkInv T jc off js M slots D Sl items m0 g m) (h1 : ∀ t, t < T → g.of t = items t)
    (h2 : ∀ t, t < T → g.pend t = none) : BkDone T jc off js M slots D Sl items m0 m where
  ctr := by
    intro c hc
    rw [hI.ctr c hc, BkInv.count_eq hI.thr]
    have : (List.range T).flatMap g.of = (List.range T).flatMap items := by
      refine List.flatMap_congr ?_
      intro t ht; exact h1 t (List.mem_range.1 ht)
    rw [this]; rfl
  slot := by
    intro hs c hc
    refine ⟨(g.al.filter (inBk c)).map (·.2.2), ?_, ?_⟩
    · have e : (g.al.filter (inBk c)).map (·.2.2) = ((g.al.map (·.2)).filter (fun x => decide (x.1 = c))).map (·.2) := by
        rw [List.filter_map, List.map_map]; rfl
      rw [e]
      refine ((perm_threads g.al hI.thr).trans ?_).filter _ |>.map _
      have : (List.range T).flatMap g.of = (List.range T).flatMap items := by
        refine List.flatMap_congr ?_
        intro t ht; exact h1 t (List.mem_range.1 ht)
      exact List.Perm.of_eq this
    · intro s hs'
      obtain ⟨p, hp, g1, g2⟩ := filter_get (inBk c) g.al s (by simpa using hs')
      have hcp : g.al[p].2.1 = c := by
        have : g.al[p] ∈ g.al.filter (inBk c) := g2 ▸ List.getElem_mem _
        have := (List.mem_filter.1 this).2
        simpa [inBk] using this
      rcases hI.done hs p hp with ⟨t, ht⟩ | h
      · have := h2 t (hI.pnd t p ht)
        rw [this] at ht; cases ht
      · rw [hcp, g1] at h
        rw [h, List.getElem_map, g2]
  frame := hI.frame

end

end SpMP
