import Verif.Fused
import Verif.TaskGraphProof
/-
Proofs about the parent lists of the fused Gauss-Seidel + SpMV schedule (/repo/LevelSchedule.cpp:1137-1257).
-/

namespace SpMP
open SpMP.Spec

variable {R : Type}

/-- What the lists hold after the tasks below `n` have been processed. -/
structure FuseInv (S : Schedule) (done : Nat → Nat → Prop) (n : Nat) (tp : Nat → List Nat) : Prop where
  covers : ∀ c a, done c a → ∃ p ∈ tp c, threadOf S p = threadOf S a ∧ p ≤ a
  sound : ∀ c, ∀ p ∈ tp c, p < n ∧ done c p

theorem fuseAdd_inv {S : Schedule} {done : Nat → Nat → Prop} {n task child : Nat} {tp : Nat → List Nat} (h : FuseInv S done n tp) (hn : n = task + 1) :
    FuseInv S (fun c a => done c a ∨ (c = child ∧ a = task)) n (fuseAdd S tp task child) := by
  have hsub : ∀ c, ∀ p ∈ tp c, p ∈ fuseAdd S tp task child c := by
    intro c p hp
    unfold fuseAdd
    split
    · next he =>
      subst he
      cases hl : (tp c).getLast? with
      | none => rw [List.getLast?_eq_none_iff] at hl; rw [hl] at hp; cases hp
      | some x =>
        dsimp only
        split
        · exact List.mem_append_left _ hp
        · exact hp
    · exact hp
  refine ⟨?_, ?_⟩
  · rintro c a (hd | ⟨rfl, rfl⟩)
    · obtain ⟨p, hp, h1⟩ := h.covers c a hd
      exact ⟨p, hsub c p hp, h1⟩
    · unfold fuseAdd
      rw [if_pos rfl]
      cases hl : (tp c).getLast? with
      | none => exact ⟨a, by simp, rfl, Nat.le_refl _⟩
      | some x =>
        have hx : x ∈ tp c := List.mem_of_getLast? hl
        dsimp only
        split
        · exact ⟨a, by simp, rfl, Nat.le_refl _⟩
        · next he =>
          have := (h.sound c x hx).1
          exact ⟨x, hx, by have := not_not.1 he; exact this.symm, by omega⟩
  · intro c p hp
    unfold fuseAdd at hp
    split at hp
    · next he =>
      subst he
      cases hl : (tp c).getLast? with
      | none =>
        rw [hl] at hp
        have : p = task := by simpa using hp
        exact ⟨by omega, Or.inr ⟨rfl, this⟩⟩
      | some x =>
        rw [hl] at hp
        dsimp only at hp
        split at hp
        · rcases List.mem_append.1 hp with hp | hp
          · exact ⟨(h.sound c p hp).1, Or.inl (h.sound c p hp).2⟩
          · have : p = task := by simpa using hp
            exact ⟨by omega, Or.inr ⟨rfl, this⟩⟩
        · exact ⟨(h.sound c p hp).1, Or.inl (h.sound c p hp).2⟩
    · exact ⟨(h.sound c p hp).1, Or.inl (h.sound c p hp).2⟩

theorem FuseInv.congr {S : Schedule} {d d' : Nat → Nat → Prop} {n n' : Nat} {tp : Nat → List Nat} (h : FuseInv S d n tp)
    (hd : ∀ c a, d c a ↔ d' c a) (hn : n ≤ n') : FuseInv S d' n' tp :=
  ⟨fun c a x => h.covers c a ((hd c a).2 x), fun c p hp => ⟨Nat.lt_of_lt_of_le (h.sound c p hp).1 hn, (hd c p).1 (h.sound c p hp).2⟩⟩

theorem fuseChildren_inv {S : Schedule} {n task : Nat} (hn : n = task + 1) : ∀ (l : List Nat) {done : Nat → Nat → Prop} {tp : Nat → List Nat},
    FuseInv S done n tp →
    FuseInv S (fun c a => done c a ∨ (c ∈ l ∧ a = task)) n (l.foldl (fun tp child => fuseAdd S tp task child) tp)
  | [], done, tp, h => h.congr (by intro c a; simp) (Nat.le_refl _)
  | x :: l, done, tp, h => by
    rw [List.foldl_cons]
    refine (fuseChildren_inv hn l (fuseAdd_inv (child := x) h hn)).congr ?_ (Nat.le_refl _)
    intro c a
    simp only [List.mem_cons]
    tauto

theorem fuseInter_inv (S : Schedule) (adj : Nat → List Nat) : FuseInv S (fun c a => a < S.ntasks ∧ c ∈ adj a) S.ntasks (fuseInter S adj) := by
  have : ∀ n, FuseInv S (fun c a => a < n ∧ c ∈ adj a) n
      ((List.range n).foldl (fun tp task => (adj task).foldl (fun tp child => fuseAdd S tp task child) tp) (fun _ => [])) := by
    intro n
    induction n with
    | zero => exact ⟨by intro c a h; omega, by intro c p h; simp at h⟩
    | succ n ih =>
      rw [List.range_succ, List.foldl_append, List.foldl_cons, List.foldl_nil]
      refine (fuseChildren_inv (n := n + 1) (task := n) rfl (adj n) (ih.congr (fun _ _ => Iff.rfl) (by omega))).congr ?_ (Nat.le_refl _)
      intro c a
      constructor
      · rintro (⟨h1, h2⟩ | ⟨h1, rfl⟩)
        · exact ⟨by omega, h2⟩
        · exact ⟨by omega, h1⟩
      · rintro ⟨h1, h2⟩
        by_cases he : a = n
        · subst he; exact Or.inr ⟨h2, rfl⟩
        · exact Or.inl ⟨by omega, h2⟩
  exact this S.ntasks

/-- The result of a loop that keeps the smallest admissible value. -/
theorem foldl_least {α : Type} (f : Nat → α → Nat) (ok : Nat → Prop) (v : α → Nat → Prop) (hf : ∀ acc x, f acc x ≤ acc)
    (hok : ∀ acc x, ok acc → ok (f acc x)) (hv : ∀ acc x y, v x y → f acc x ≤ y) (l : List α) (a : Nat) (ha : ok a) :
    l.foldl f a ≤ a ∧ ok (l.foldl f a) ∧ ∀ x ∈ l, ∀ y, v x y → l.foldl f a ≤ y := by
  induction l generalizing a with
  | nil => exact ⟨Nat.le_refl _, ha, by simp⟩
  | cons x l ih =>
    rw [List.foldl_cons]
    obtain ⟨h1, h2, h3⟩ := ih (f a x) (hok a x ha)
    refine ⟨Nat.le_trans h1 (hf a x), h2, ?_⟩
    intro z hz y hy
    rcases List.mem_cons.1 hz with rfl | hz
    · exact Nat.le_trans h1 (hv a z y hy)
    · exact h3 z hz y hy

theorem fuseMinParent_spec (S : Schedule) (A : Csr R) (dp : Nat → Nat) (task : Nat) :
    fuseMinParent S A dp task ≤ task ∧
    (fuseMinParent S A dp task = task ∨
      (S.threadB (threadOf S task) ≤ fuseMinParent S A dp task ∧ fuseMinParent S A dp task < S.threadB (threadOf S task + 1))) ∧
    ∀ i j, S.taskB task ≤ i → i < S.taskB (task + 1) → A.ptr (S.perm i) ≤ j → j < dp (S.perm i) →
      S.threadB (threadOf S task) ≤ origTask S (A.col j) → origTask S (A.col j) < S.threadB (threadOf S task + 1) →
      fuseMinParent S A dp task ≤ origTask S (A.col j) := by
  let ok : Nat → Prop := fun p => p = task ∨ (S.threadB (threadOf S task) ≤ p ∧ p < S.threadB (threadOf S task + 1))
  let v : Nat → Nat → Prop := fun j y => y = origTask S (A.col j) ∧ S.threadB (threadOf S task) ≤ y ∧ y < S.threadB (threadOf S task + 1)
  let f : Nat → Nat → Nat := fun acc j =>
      let p := origTask S (A.col j)
      if S.threadB (threadOf S task) ≤ p ∧ p < S.threadB (threadOf S task + 1) ∧ p < acc then p else acc
  have f1 : ∀ acc x, f acc x ≤ acc := by
    intro acc x
    show (if _ then _ else _) ≤ _
    split <;> omega
  have f2 : ∀ acc x, ok acc → ok (f acc x) := by
    intro acc x h
    show ok (if _ then _ else _)
    split
    · next hc => exact Or.inr ⟨hc.1, hc.2.1⟩
    · exact h
  have f3 : ∀ acc x y, v x y → f acc x ≤ y := by
    rintro acc x y ⟨rfl, h1, h2⟩
    show (if _ then _ else _) ≤ _
    split
    · exact Nat.le_refl _
    · next hc =>
      by_contra hlt
      exact hc ⟨h1, h2, by omega⟩
  let g : Nat → Nat → Nat := fun acc i => (List.range' (A.ptr (S.perm i)) (dp (S.perm i) - A.ptr (S.perm i))).foldl f acc
  have inner := fun (i acc : Nat) (ha : ok acc) =>
    foldl_least f ok v f1 f2 f3 (List.range' (A.ptr (S.perm i)) (dp (S.perm i) - A.ptr (S.perm i))) acc ha
  have hok0 : ok task := Or.inl rfl
  -- the outer loop
  have outer : ∀ (l : List Nat) (a : Nat), ok a → l.foldl g a ≤ a ∧ ok (l.foldl g a) ∧
      ∀ i ∈ l, ∀ j ∈ List.range' (A.ptr (S.perm i)) (dp (S.perm i) - A.ptr (S.perm i)), ∀ y, v j y → l.foldl g a ≤ y := by
    intro l
    induction l with
    | nil => intro a ha; exact ⟨Nat.le_refl _, ha, by simp⟩
    | cons x l ih =>
      intro a ha
      rw [List.foldl_cons]
      obtain ⟨g1, g2, g3⟩ := inner x a ha
      obtain ⟨h1, h2, h3⟩ := ih (g a x) g2
      refine ⟨Nat.le_trans h1 g1, h2, ?_⟩
      intro z hz j hj y hy
      rcases List.mem_cons.1 hz with rfl | hz
      · exact Nat.le_trans h1 (g3 j hj y hy)
      · exact h3 z hz j hj y hy
  obtain ⟨h1, h2, h3⟩ := outer (List.range' (S.taskB task) (S.taskB (task + 1) - S.taskB task)) task hok0
  refine ⟨h1, h2, ?_⟩
  intro i j hi hi' hj hj' hl hr
  exact h3 i (by rw [List.mem_range'_1]; omega) j (by rw [List.mem_range'_1]; omega) _ ⟨rfl, hl, hr⟩

/-- Dropping redundant parents: every dropped one is before a parent that is kept. `Bw a b`: in a backward run, `a` is finished before `b` starts. -/
theorem fuseReduce_covers {S : Schedule} (hS : S.Tiling) {adj : Nat → List Nat} {lvl : Nat → Nat} {Bw : Nat → Nat → Prop} {tp : List Nat}
    (hth : ∀ a b, S.SameThread a b → b < a → Bw a b) (hadj : ∀ p q, p < S.ntasks → q ∈ adj p → Bw q p ∧ lvl p < lvl q)
    (htr : ∀ a b c, Bw a b → Bw b c → Bw a c) (hl : ∀ a b, S.SameThread a b → a < b → lvl a < lvl b)
    (htp : ∀ p ∈ tp, p < S.ntasks) : ∀ n v, lvl v ≤ n → v ∈ tp → ∃ p ∈ fuseReduce S adj tp, v = p ∨ Bw v p := by
  intro n
  induction n using Nat.strong_induction_on with
  | _ n ih =>
  intro v hn hv
  by_cases hk : v ∈ fuseReduce S adj tp
  · exact ⟨v, hk, Or.inl rfl⟩
  unfold fuseReduce at hk
  rw [List.mem_filter, not_and] at hk
  have hr := hk ((List.perm_insertionSort _ _).mem_iff.2 hv)
  simp only [Bool.not_eq_true', Bool.not_eq_false, List.any_eq_true, Bool.and_eq_true, decide_eq_true_eq] at hr
  obtain ⟨p, hp, q, hq, h1, h2⟩ := hr
  obtain ⟨hb, hlt⟩ := hadj p q (htp p hp) hq
  have hvn := htp v hv
  obtain ⟨_, htv⟩ := exists_thread hS hvn
  have hsame : S.SameThread v q := ⟨threadOf S v, by omega, by omega, by omega, h1, by omega⟩
  have hvq : v = q ∨ Bw v q := by
    rcases Nat.lt_or_ge q v with g | g
    · exact Or.inr (hth v q hsame g)
    · exact Or.inl (by omega)
  have hlv : lvl q ≤ lvl v := by
    rcases Nat.lt_or_ge q v with g | g
    · obtain ⟨t, ht, a1, a2, a3, a4⟩ := hsame
      exact Nat.le_of_lt (hl q v ⟨t, ht, a3, a4, a1, a2⟩ g)
    · have : v = q := by omega
      rw [this]
  have hvp : Bw v p := by
    rcases hvq with rfl | h
    · exact hb
    · exact htr _ _ _ h hb
  obtain ⟨p', hp', h3⟩ := ih (lvl p) (by omega) p (Nat.le_refl _) hp
  refine ⟨p', hp', Or.inr ?_⟩
  rcases h3 with rfl | h3
  · exact hvp
  · exact htr _ _ _ hvp h3

end SpMP
