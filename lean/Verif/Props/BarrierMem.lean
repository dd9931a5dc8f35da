import Verif.BarrierMem
import Verif.ReduceBarrier

/-
C77: the memory of the barriers is given back.
-/
namespace SpMP.Props
open SpMP Spec

/-- No pointer is initialised. -/
def blkFresh (live : InUse) : BlkStore := ⟨live, fun _ => none⟩

theorem blkFresh_inv (live : InUse) : BlkInv live (fun _ => False) (blkFresh live) :=
  ⟨fun i => by simp [blkFresh], fun i a e => (by cases e), fun i j a e => (by cases e), fun a => by simp [blkFresh]⟩

theorem mem_barInit {P t : Nat} {i : BlkId} : i ∈ barInit P t ↔ t % P = 0 ∧ i ∈ ([.barCore (t / P) .self,
    .barCore (t / P) .threadSenses, .barCore (t / P) (.myFlags 0), .barCore (t / P) (.partnerFlags 0),
    .barCore (t / P) (.myFlags 1), .barCore (t / P) (.partnerFlags 1)] : List BlkId) := by
  unfold barInit
  by_cases h : t % P = 0
  · simp [h, List.range_succ]
  · simp [h]

theorem div_eq_of_mod {P t u : Nat} (ht : t % P = 0) (hu : u % P = 0) (h : t / P = u / P) : t = u := by
  rw [← Nat.div_add_mod t P, ← Nat.div_add_mod u P, ht, hu, h]

theorem barInit_ok {C P : Nat} : ProgOk (C * P) (barInit P) (fun j => False ∨ j ∈ barCtor) := by
  refine ⟨fun t _ => ?_, fun t u i _ _ a b => ?_, fun t i _ a => ?_⟩
  · unfold barInit
    split
    · simp [List.range_succ]
    · exact List.nodup_nil
  · rw [mem_barInit] at a b
    refine div_eq_of_mod a.1 b.1 ?_
    have a2 := a.2
    have b2 := b.2
    simp only [List.mem_cons, List.not_mem_nil, or_false] at a2 b2
    rcases a2 with rfl | rfl | rfl | rfl | rfl | rfl <;> simpa using b2
  · rw [mem_barInit] at a
    have a2 := a.2
    simp only [List.mem_cons, List.not_mem_nil, or_false] at a2
    rcases a2 with rfl | rfl | rfl | rfl | rfl | rfl <;> simp [barCtor]

theorem mem_barDtor {C k : Nat} (hk : k ≠ 0) {i : BlkId} : i ∈ barDtor C k ↔ (∃ c, c < C ∧ i ∈ ([.barCore c .self,
    .barCore c .threadSenses, .barCore c (.myFlags 0), .barCore c (.partnerFlags 0),
    .barCore c (.myFlags 1), .barCore c (.partnerFlags 1)] : List BlkId)) ∨ i ∈ barCtor := by
  unfold barDtor barCtor
  simp only [hk, ne_eq, not_false_eq_true, if_true, List.range_succ, List.range_zero, List.nil_append, List.mem_append,
    List.mem_flatMap, List.mem_range, List.mem_cons, List.not_mem_nil, or_false, List.flatMap_append, List.flatMap_cons,
    List.flatMap_nil, List.append_nil]
  constructor
  · rintro (⟨c, hc, h⟩ | h)
    · exact .inl ⟨c, hc, by tauto⟩
    · exact .inr (by tauto)
  · rintro (⟨c, hc, h⟩ | h)
    · exact .inl ⟨c, hc, by tauto⟩
    · exact .inr (by tauto)

theorem barDtor_order (C k : Nat) : FreeOrder (barDtor C k) := by
  unfold FreeOrder barDtor
  rw [List.pairwise_append]
  refine ⟨?_, by simp [blkPath], ?_⟩
  · split
    · rw [List.pairwise_flatMap]
      refine ⟨fun c _ => by simp [blkPath, List.range_succ], ?_⟩
      refine List.Pairwise.imp ?_ List.pairwise_lt_range
      intro c d hcd x hx y hy
      have hne : c ≠ d := by omega
      simp only [List.range_succ, List.range_zero, List.nil_append, List.mem_append, List.mem_cons, List.not_mem_nil,
        or_false, List.flatMap_append, List.flatMap_cons, List.flatMap_nil, List.append_nil] at hx hy
      rcases hx with (rfl | (rfl | rfl) | rfl | rfl) | rfl <;> rcases hy with (rfl | (rfl | rfl) | rfl | rfl) | rfl <;>
        simp [blkPath, hne]
    · exact List.Pairwise.nil
  · intro x hx y hy
    split at hx
    · simp only [List.mem_flatMap, List.range_succ, List.range_zero, List.nil_append, List.mem_append, List.mem_cons,
        List.not_mem_nil, or_false, List.flatMap_append, List.flatMap_cons, List.flatMap_nil, List.append_nil] at hx hy
      obtain ⟨c, _, hx⟩ := hx
      rcases hx with (rfl | (rfl | rfl) | rfl | rfl) | rfl <;> rcases hy with rfl | rfl | rfl <;> simp [blkPath]
    · cases hx

theorem barDtor_path {C k : Nat} : ∀ i ∈ barDtor C k, ∀ j ∈ blkPath i, j ∈ barDtor C k := by
  intro i hi j hj
  unfold barDtor at hi ⊢
  rw [List.mem_append] at hi ⊢
  rcases hi with hi | hi
  · split at hi
    · rename_i hk
      rw [if_pos hk]
      simp only [List.mem_flatMap, List.range_succ, List.range_zero, List.nil_append, List.mem_append, List.mem_cons,
        List.not_mem_nil, or_false, List.flatMap_append, List.flatMap_cons, List.flatMap_nil, List.append_nil,
        List.mem_range] at hi ⊢
      obtain ⟨c, hc, hi⟩ := hi
      rcases hi with (rfl | (rfl | rfl) | rfl | rfl) | rfl <;> simp [blkPath] at hj
      all_goals first
        | (rcases hj with rfl | rfl
           · simp
           · exact .inl ⟨c, hc, by simp⟩)
        | (subst hj; simp)
    · cases hi
  · simp at hi
    rcases hi with rfl | rfl | rfl <;> cases hj

/-- What the team of a `Barrier` has allocated is what the destructor frees. -/
theorem bar_dom {C P k : Nat} (hP : 0 < P) (hk : k ≠ 0) (i : BlkId) :
    (i ∈ barCtor ∨ ∃ t, t < C * P ∧ i ∈ barInit P t) ↔ i ∈ barDtor C k := by
  rw [mem_barDtor hk]
  constructor
  · rintro (h | ⟨t, ht, h⟩)
    · exact .inr h
    · rw [mem_barInit] at h
      exact .inl ⟨t / P, Nat.div_lt_of_lt_mul (by rw [Nat.mul_comm]; exact ht), h.2⟩
  · rintro (⟨c, hc, h⟩ | h)
    · refine .inr ⟨c * P, Nat.mul_lt_mul_of_pos_right hc hP, ?_⟩
      rw [mem_barInit, Nat.mul_mod_left, Nat.mul_div_cancel _ hP]
      exact ⟨rfl, h⟩
    · exact .inl h

/-- **C77, barrier.**  A barrier is constructed, its threads initialise it, in any interleaving and whatever addresses
`_mm_malloc` returns, and it is destroyed: no block is freed twice or used after that, and exactly the blocks in use before
are in use after. -/
theorem C77_barrier_partial {C P : Nat} (hP : 0 < P) {live0 : InUse} {s1 s2 : BlkStore} {todo : Nat → List BlkId}
    (hc : Obtains barCtor (blkFresh live0) s1) (hi : TeamObtains (C * P) (barInit P) s1 todo s2)
    (hd : ∀ t, t < C * P → todo t = []) :
    ∃ s3, blkFrees (barDtor C 2) s2 = some s3 ∧ s3.live = live0 := by
  have h1 := hc.inv (blkFresh_inv live0) (by simp [barCtor]) (fun _ _ h => h)
  have h2 := (hi.inv barInit_ok h1).1
  have hdom : BlkInv live0 (fun i => i ∈ barDtor C 2) s2 := h2.congr fun i => by
    rw [← bar_dom (C := C) (P := P) hP (by omega : (2 : Nat) ≠ 0)]
    refine or_congr (by simp) ⟨fun ⟨t, ht, a, _⟩ => ⟨t, ht, a⟩, fun ⟨t, ht, a⟩ => ⟨t, ht, a, by rw [hd t ht]; simp⟩⟩
  obtain ⟨s3, e, hl⟩ := hdom.frees (barDtor_order C 2) (fun _ h => h) barDtor_path
  refine ⟨s3, e, funext fun a => ?_⟩
  have : s3.live a = true ↔ live0 a = true := by
    rw [hl a]
    refine or_iff_left ?_
    rintro ⟨i, hn, hs⟩
    exact hn ((hdom.dom i).1 (by rw [hs]; rfl))
  exact Bool.eq_iff_iff.2 this

/-- **C77, barrier without threads.**  The same if the barrier is destroyed without having been initialised. -/
theorem C77_barrier_unused {C : Nat} {live0 : InUse} {s1 : BlkStore} (hc : Obtains barCtor (blkFresh live0) s1) :
    ∃ s3, blkFrees (barDtor C 0) s1 = some s3 ∧ s3.live = live0 := by
  have h1 := hc.inv (blkFresh_inv live0) (by simp [barCtor]) (fun _ _ h => h)
  have hdom : BlkInv live0 (fun i => i ∈ barDtor C 0) s1 := h1.congr fun i => by
    simp only [barDtor, barCtor, List.mem_append, List.mem_cons, List.not_mem_nil, or_false, false_or]
    simp
    tauto
  obtain ⟨s3, e, hl⟩ := hdom.frees (barDtor_order C 0) (fun _ h => h) barDtor_path
  refine ⟨s3, e, funext fun a => ?_⟩
  have : s3.live a = true ↔ live0 a = true := by
    rw [hl a]
    refine or_iff_left ?_
    rintro ⟨i, hn, hs⟩
    exact hn ((hdom.dom i).1 (by rw [hs]; rfl))
  exact Bool.eq_iff_iff.2 this

/-- The blocks of a core of a `ReduceBarrier`. -/
def redFlds : List CoreFld := [.self, .threadSenses, .myFlags 0, .partnerFlags 0, .myFlags 1, .partnerFlags 1, .threadRvals,
  .myRvals, .partnerRvals]

/-- The blocks of its pseudo core. -/
def psFlds : List CoreFld := [.pseudo, .psMyFlags 0, .psPartnerFlags 0, .psMyFlags 1, .psPartnerFlags 1, .psMyRvals,
  .psPartnerRvals]

theorem mem_redInit {C P n2 t : Nat} {i : BlkId} : i ∈ redInit C P n2 t ↔ t % P = 0 ∧
    ∃ f, i = .redCore (t / P) f ∧ (f ∈ redFlds ∨ t / P + C < n2 ∧ f ∈ psFlds) := by
  unfold redInit
  by_cases h : t % P = 0
  · simp only [h, if_true, true_and, List.mem_append]
    constructor
    · rintro (((h | h) | h) | h)
      · simp only [List.mem_cons, List.not_mem_nil, or_false] at h
        rcases h with rfl | rfl <;> exact ⟨_, rfl, .inl (by decide)⟩
      · simp only [List.range_succ, List.range_zero, List.nil_append, List.flatMap_append, List.flatMap_cons,
          List.flatMap_nil, List.append_nil, List.mem_append, List.mem_cons, List.not_mem_nil, or_false] at h
        rcases h with (rfl | rfl) | rfl | rfl <;> exact ⟨_, rfl, .inl (by decide)⟩
      · simp only [List.mem_cons, List.not_mem_nil, or_false] at h
        rcases h with rfl | rfl | rfl <;> exact ⟨_, rfl, .inl (by decide)⟩
      · split at h
        · rename_i hn
          simp only [List.range_succ, List.range_zero, List.nil_append, List.flatMap_append, List.flatMap_cons,
            List.flatMap_nil, List.append_nil, List.mem_append, List.mem_cons, List.not_mem_nil, or_false] at h
          rcases h with (rfl | (rfl | rfl) | rfl | rfl) | rfl | rfl <;> exact ⟨_, rfl, .inr ⟨hn, by decide⟩⟩
        · cases h
    · rintro ⟨f, rfl, h | ⟨hn, h⟩⟩
      · refine .inl ?_
        simp only [redFlds, List.mem_cons, List.not_mem_nil, or_false] at h
        rcases h with rfl | rfl | rfl | rfl | rfl | rfl | rfl | rfl | rfl <;> simp [List.range_succ]
      · refine .inr ?_
        rw [if_pos hn]
        simp only [psFlds, List.mem_cons, List.not_mem_nil, or_false] at h
        rcases h with rfl | rfl | rfl | rfl | rfl | rfl | rfl <;> simp [List.range_succ]
  · simp [h]

theorem redInit_nodup (C P n2 t : Nat) : (redInit C P n2 t).Nodup := by
  unfold redInit
  split
  · dsimp only
    split <;> simp [List.range_succ]
  · exact List.nodup_nil

/-- The part of `redDelete` for a core. -/
def redCoreFrees (s : BlkStore) (i : Nat) : List BlkId :=
  (if (s.slot (.redCore i .pseudo)).isSome then
    [.redCore i .psPartnerRvals, .redCore i .psMyRvals] ++
      ((List.range 2).flatMap fun j => [.redCore i (.psPartnerFlags j), .redCore i (.psMyFlags j)]) ++
      [.redCore i .pseudo]
  else []) ++
  [.redCore i .partnerRvals, .redCore i .myRvals, .redCore i .threadRvals, .redCore i .threadSenses] ++
  ((List.range 2).flatMap fun j => [.redCore i (.partnerFlags j), .redCore i (.myFlags j)]) ++ [.redCore i .self]

theorem redDelete_eq (s : BlkStore) (C k : Nat) : redDelete s C k =
    (if k ≠ 0 then (List.range C).flatMap (redCoreFrees s) else []) ++
      [.redTop .coreTids, .redTop .threadCores, .redTop .cores, .redObj] := by
  unfold redDelete redCoreFrees
  rw [List.append_assoc]
  rfl

theorem mem_redCoreFrees {s : BlkStore} {c : Nat} {i : BlkId} : i ∈ redCoreFrees s c ↔
    ∃ f, i = .redCore c f ∧ (f ∈ redFlds ∨ (s.slot (.redCore c .pseudo)).isSome = true ∧ f ∈ psFlds) := by
  unfold redCoreFrees
  simp only [List.mem_append]
  constructor
  · rintro (((h | h) | h) | h)
    · split at h
      · rename_i hn
        simp only [List.range_succ, List.range_zero, List.nil_append, List.flatMap_append, List.flatMap_cons,
          List.flatMap_nil, List.append_nil, List.mem_append, List.mem_cons, List.not_mem_nil, or_false] at h
        rcases h with ((rfl | rfl) | (rfl | rfl) | rfl | rfl) | rfl <;> exact ⟨_, rfl, .inr ⟨hn, by decide⟩⟩
      · cases h
    · simp only [List.mem_cons, List.not_mem_nil, or_false] at h
      rcases h with rfl | rfl | rfl | rfl <;> exact ⟨_, rfl, .inl (by decide)⟩
    · simp only [List.range_succ, List.range_zero, List.nil_append, List.flatMap_append, List.flatMap_cons,
        List.flatMap_nil, List.append_nil, List.mem_append, List.mem_cons, List.not_mem_nil, or_false] at h
      rcases h with (rfl | rfl) | rfl | rfl <;> exact ⟨_, rfl, .inl (by decide)⟩
    · simp only [List.mem_cons, List.not_mem_nil, or_false] at h
      subst h
      exact ⟨_, rfl, .inl (by decide)⟩
  · rintro ⟨f, rfl, h | ⟨hn, h⟩⟩
    · simp only [redFlds, List.mem_cons, List.not_mem_nil, or_false] at h
      rcases h with rfl | rfl | rfl | rfl | rfl | rfl | rfl | rfl | rfl <;> simp [List.range_succ]
    · refine .inl (.inl (.inl ?_))
      rw [if_pos hn]
      simp only [psFlds, List.mem_cons, List.not_mem_nil, or_false] at h
      rcases h with rfl | rfl | rfl | rfl | rfl | rfl | rfl <;> simp [List.range_succ]

theorem mem_redDelete {s : BlkStore} {C k : Nat} (hk : k ≠ 0) {i : BlkId} : i ∈ redDelete s C k ↔
    (∃ c, c < C ∧ ∃ f, i = .redCore c f ∧ (f ∈ redFlds ∨ (s.slot (.redCore c .pseudo)).isSome = true ∧ f ∈ psFlds)) ∨
    i ∈ redCtor := by
  rw [redDelete_eq, if_pos hk, List.mem_append, List.mem_flatMap]
  refine or_congr ?_ ?_
  · constructor
    · rintro ⟨c, hc, h⟩; exact ⟨c, List.mem_range.1 hc, mem_redCoreFrees.1 h⟩
    · rintro ⟨c, hc, h⟩; exact ⟨c, List.mem_range.2 hc, mem_redCoreFrees.2 h⟩
  · simp only [redCtor, List.mem_cons, List.not_mem_nil, or_false]
    tauto

/-- Paths of the blocks of a core stay in the core. -/
theorem redPath {c : Nat} {f : CoreFld} {x : BlkId} (h : x ∈ blkPath (.redCore c f)) :
    x = .redObj ∨ x = .redTop .cores ∨ x = .redCore c .self ∨ (x = .redCore c .pseudo ∧ f ∉ redFlds) := by
  cases f <;> simp [blkPath] at h <;> rcases h with rfl | rfl | rfl | rfl <;> simp [redFlds]

theorem redDelete_order (s : BlkStore) (C k : Nat) : FreeOrder (redDelete s C k) := by
  unfold FreeOrder
  rw [redDelete_eq, List.pairwise_append]
  refine ⟨?_, by simp [blkPath], ?_⟩
  · split
    · rw [List.pairwise_flatMap]
      refine ⟨fun c _ => ?_, ?_⟩
      · unfold redCoreFrees
        split <;> simp [blkPath, List.range_succ]
      · refine List.Pairwise.imp ?_ List.pairwise_lt_range
        intro c d hcd x hx y hy
        obtain ⟨f, rfl, _⟩ := mem_redCoreFrees.1 hx
        obtain ⟨g, rfl, _⟩ := mem_redCoreFrees.1 hy
        have hne : c ≠ d := by omega
        refine ⟨by simp [hne], fun h => ?_⟩
        rcases redPath h with h | h | h | ⟨h, _⟩ <;> simp [hne] at h
    · exact List.Pairwise.nil
  · intro x hx y hy
    split at hx
    · rw [List.mem_flatMap] at hx
      obtain ⟨c, _, hx⟩ := hx
      obtain ⟨f, rfl, _⟩ := mem_redCoreFrees.1 hx
      simp only [List.mem_cons, List.not_mem_nil, or_false] at hy
      rcases hy with rfl | rfl | rfl | rfl <;> simp [blkPath]
    · cases hx

theorem redDelete_path {s : BlkStore} {C k : Nat} : ∀ i ∈ redDelete s C k, ∀ j ∈ blkPath i, j ∈ redDelete s C k := by
  intro i hi j hj
  rw [redDelete_eq, List.mem_append] at hi ⊢
  rcases hi with hi | hi
  · split at hi
    · rename_i hk
      rw [if_pos hk]
      rw [List.mem_flatMap] at hi
      obtain ⟨c, hc, hi⟩ := hi
      obtain ⟨f, rfl, hf⟩ := mem_redCoreFrees.1 hi
      rcases redPath hj with rfl | rfl | rfl | ⟨rfl, hnf⟩
      · simp
      · simp
      · exact .inl (List.mem_flatMap.2 ⟨c, hc, mem_redCoreFrees.2 ⟨_, rfl, .inl (by decide)⟩⟩)
      · refine .inl (List.mem_flatMap.2 ⟨c, hc, mem_redCoreFrees.2 ⟨_, rfl, .inr ⟨?_, by decide⟩⟩⟩)
        rcases hf with hf | hf
        · exact absurd hf hnf
        · exact hf.1
    · cases hi
  · simp at hi
    rcases hi with rfl | rfl | rfl | rfl <;> simp [blkPath] at hj
    all_goals (subst hj; simp)

/-- What the team of a `ReduceBarrier` allocates. -/
def RedDom (C P n2 : Nat) (i : BlkId) : Prop := i ∈ redCtor ∨ ∃ t, t < C * P ∧ i ∈ redInit C P n2 t

theorem redDom_iff {C P n2 : Nat} (hP : 0 < P) (i : BlkId) : RedDom C P n2 i ↔
    (∃ c, c < C ∧ ∃ f, i = .redCore c f ∧ (f ∈ redFlds ∨ c + C < n2 ∧ f ∈ psFlds)) ∨ i ∈ redCtor := by
  unfold RedDom
  constructor
  · rintro (h | ⟨t, ht, h⟩)
    · exact .inr h
    · rw [mem_redInit] at h
      exact .inl ⟨t / P, Nat.div_lt_of_lt_mul (by rw [Nat.mul_comm]; exact ht), h.2⟩
  · rintro (⟨c, hc, h⟩ | h)
    · refine .inr ⟨c * P, Nat.mul_lt_mul_of_pos_right hc hP, ?_⟩
      rw [mem_redInit, Nat.mul_mod_left, Nat.mul_div_cancel _ hP]
      exact ⟨rfl, h⟩
    · exact .inl h

theorem redDelete_dom {C P n2 k : Nat} (hP : 0 < P) (hk : k ≠ 0) {s : BlkStore}
    (hs : ∀ c, (s.slot (.redCore c .pseudo)).isSome = true ↔ RedDom C P n2 (.redCore c .pseudo)) (i : BlkId) :
    i ∈ redDelete s C k ↔ RedDom C P n2 i := by
  have hps : ∀ c, c < C → ((s.slot (.redCore c .pseudo)).isSome = true ↔ c + C < n2) := by
    intro c hc
    rw [hs, redDom_iff hP]
    constructor
    · rintro (⟨d, _, f, e, h⟩ | h)
      · cases e
        rcases h with h | h
        · exact absurd h (by decide)
        · exact h.1
      · simp [redCtor] at h
    · exact fun h => .inl ⟨c, hc, _, rfl, .inr ⟨h, by decide⟩⟩
  rw [mem_redDelete hk, redDom_iff hP]
  refine or_congr ⟨?_, ?_⟩ Iff.rfl
  · rintro ⟨c, hc, f, e, h⟩; exact ⟨c, hc, f, e, by rw [← hps c hc]; exact h⟩
  · rintro ⟨c, hc, f, e, h⟩; exact ⟨c, hc, f, e, by rw [hps c hc]; exact h⟩

theorem redInit_ok {C P n2 : Nat} : ProgOk (C * P) (redInit C P n2) (fun j => False ∨ j ∈ redCtor) := by
  refine ⟨fun t _ => redInit_nodup C P n2 t, fun t u i _ _ a b => ?_, fun t i _ a => ?_⟩
  · rw [mem_redInit] at a b
    refine div_eq_of_mod a.1 b.1 ?_
    obtain ⟨_, f, rfl, _⟩ := a
    obtain ⟨_, g, e, _⟩ := b
    injection e
  · rw [mem_redInit] at a
    obtain ⟨_, f, rfl, _⟩ := a
    simp [redCtor]

/-- **C77, reducing barrier.**  The same for `new`, initialisation and `delete` of a reducing barrier, of any number of
cores, and so with any number of pseudo cores. -/
theorem C77_reduce_partial {C P : Nat} (hP : 0 < P) {live0 : InUse} {s1 s2 : BlkStore} {todo : Nat → List BlkId}
    (hc : Obtains redCtor (blkFresh live0) s1)
    (hi : TeamObtains (C * P) (redInit C P (nearestPow2 C)) s1 todo s2) (hd : ∀ t, t < C * P → todo t = []) :
    ∃ s3, blkFrees (redDelete s2 C 2) s2 = some s3 ∧ s3.live = live0 := by
  generalize nearestPow2 C = n2 at hi
  have h1 := hc.inv (blkFresh_inv live0) (by simp [redCtor]) (fun _ _ h => h)
  have h2 := (hi.inv redInit_ok h1).1
  have hdom : BlkInv live0 (RedDom C P n2) s2 := h2.congr fun i => by
    refine or_congr (by simp) ⟨fun ⟨t, ht, a, _⟩ => ⟨t, ht, a⟩, fun ⟨t, ht, a⟩ => ⟨t, ht, a, by rw [hd t ht]; simp⟩⟩
  have hmem := redDelete_dom (C := C) (P := P) (n2 := n2) hP (by omega : (2 : Nat) ≠ 0) (s := s2) fun c => hdom.dom _
  obtain ⟨s3, e, hl⟩ := hdom.frees (redDelete_order s2 C 2) (fun i h => (hmem i).1 h)
    (fun i h j hj => (hmem j).1 (redDelete_path i h j hj))
  refine ⟨s3, e, funext fun a => ?_⟩
  have : s3.live a = true ↔ live0 a = true := by
    rw [hl a]
    refine or_iff_left ?_
    rintro ⟨i, hn, hs⟩
    exact hn ((hmem i).2 ((hdom.dom i).1 (by rw [hs]; rfl)))
  exact Bool.eq_iff_iff.2 this

/-- Which object a pointer belongs to. -/
def blkKind : BlkId → Nat
  | .barTop _ => 0
  | .barCore _ _ => 0
  | .redObj => 1
  | .redTop _ => 1
  | .redCore _ _ => 1
  | .limTop => 2
  | .lim _ _ => 2

theorem blkPath_kind {x y : BlkId} (h : x ∈ blkPath y) : blkKind x = blkKind y := by
  cases y with
  | barTop f => cases h
  | barCore c f => cases f <;> simp [blkPath] at h <;> rcases h with rfl | rfl <;> rfl
  | redObj => cases h
  | redTop f => simp [blkPath] at h; subst h; rfl
  | redCore c f => rcases redPath h with rfl | rfl | rfl | ⟨rfl, _⟩ <;> rfl
  | limTop => cases h
  | lim t f => cases f <;> simp [blkPath] at h <;> rcases h with rfl | rfl <;> rfl

theorem kind_barDtor {C k : Nat} {i : BlkId} (h : i ∈ barDtor C k) : blkKind i = 0 := by
  unfold barDtor at h
  rw [List.mem_append] at h
  rcases h with h | h
  · split at h
    · simp only [List.mem_flatMap, List.range_succ, List.range_zero, List.nil_append, List.mem_append, List.mem_cons,
        List.not_mem_nil, or_false, List.flatMap_append, List.flatMap_cons, List.flatMap_nil, List.append_nil] at h
      obtain ⟨c, _, h⟩ := h
      rcases h with (rfl | (rfl | rfl) | rfl | rfl) | rfl <;> rfl
    · cases h
  · simp at h
    rcases h with rfl | rfl | rfl <;> rfl

theorem kind_redDelete {s : BlkStore} {C k : Nat} {i : BlkId} (h : i ∈ redDelete s C k) : blkKind i = 1 := by
  rw [redDelete_eq, List.mem_append] at h
  rcases h with h | h
  · split at h
    · rw [List.mem_flatMap] at h
      obtain ⟨c, _, h⟩ := h
      obtain ⟨f, rfl, _⟩ := mem_redCoreFrees.1 h
      rfl
    · cases h
  · simp at h
    rcases h with rfl | rfl | rfl | rfl <;> rfl

/-- The part of `limDtor` for the threads. -/
def limFrees (T : Nat) : List BlkId :=
  ((List.range T).flatMap fun i => [.lim i .min, .lim i .max, .lim i .tot, .lim i .cnt, .lim i .bar]) ++ [.limTop]

theorem mem_limFrees {T : Nat} {i : BlkId} : i ∈ limFrees T ↔ (∃ t f, t < T ∧ f ≠ .self ∧ i = .lim t f) ∨ i = .limTop := by
  unfold limFrees
  simp only [List.mem_append, List.mem_flatMap, List.mem_range, List.mem_cons, List.not_mem_nil, or_false]
  refine or_congr ⟨?_, ?_⟩ Iff.rfl
  · rintro ⟨t, ht, h⟩
    rcases h with rfl | rfl | rfl | rfl | rfl <;> exact ⟨t, _, ht, by simp, rfl⟩
  · rintro ⟨t, f, ht, hf, rfl⟩
    refine ⟨t, ht, ?_⟩
    cases f <;> simp at hf ⊢

theorem limDtor_eq (s : BlkStore) (C P k r : Nat) :
    limDtor s C P k r = redDelete s C r ++ (limFrees (C * P) ++ barDtor C k) := by
  unfold limDtor limFrees
  simp only [List.append_assoc]

theorem limFrees_order (T : Nat) : FreeOrder (limFrees T) := by
  unfold FreeOrder limFrees
  rw [List.pairwise_append, List.pairwise_flatMap]
  refine ⟨⟨fun t _ => by simp [blkPath], ?_⟩, by simp, ?_⟩
  · refine List.Pairwise.imp ?_ List.pairwise_lt_range
    intro c d hcd x hx y hy
    have hne : c ≠ d := by omega
    simp only [List.mem_cons, List.not_mem_nil, or_false] at hx hy
    rcases hx with rfl | rfl | rfl | rfl | rfl <;> rcases hy with rfl | rfl | rfl | rfl | rfl <;> simp [blkPath, hne]
  · intro x hx y hy
    simp only [List.mem_flatMap, List.mem_cons, List.not_mem_nil, or_false] at hx hy
    subst hy
    obtain ⟨t, _, hx⟩ := hx
    rcases hx with rfl | rfl | rfl | rfl | rfl <;> simp [blkPath]

theorem limDtor_order (s : BlkStore) (C P k r : Nat) : FreeOrder (limDtor s C P k r) := by
  rw [limDtor_eq]
  have cross : ∀ x y, blkKind x ≠ blkKind y → x ≠ y ∧ x ∉ blkPath y := fun x y h =>
    ⟨fun e => h (by rw [e]), fun e => h (blkPath_kind e)⟩
  have hk : ∀ i ∈ limFrees (C * P), blkKind i = 2 := by
    intro i hi
    rcases mem_limFrees.1 hi with ⟨t, f, _, _, rfl⟩ | rfl <;> rfl
  refine List.pairwise_append.2 ⟨redDelete_order s C r, List.pairwise_append.2 ⟨limFrees_order _, barDtor_order C k, ?_⟩, ?_⟩
  · intro x hx y hy
    exact cross x y (by rw [hk x hx, kind_barDtor hy]; omega)
  · intro x hx y hy
    refine cross x y ?_
    rw [kind_redDelete hx]
    rcases List.mem_append.1 hy with hy | hy
    · rw [hk y hy]; omega
    · rw [kind_barDtor hy]; omega

theorem mem_limInit {C P n2 t : Nat} {i : BlkId} : i ∈ limInit C P n2 t ↔
    i ∈ barInit P t ∨ i ∈ redInit C P n2 t ∨ ∃ f, i = .lim t f := by
  unfold limInit
  rw [List.mem_append, List.mem_append, or_assoc]
  refine or_congr Iff.rfl (or_congr Iff.rfl ⟨fun h => ?_, ?_⟩)
  · simp only [List.mem_cons, List.not_mem_nil, or_false] at h
    rcases h with rfl | rfl | rfl | rfl | rfl | rfl <;> exact ⟨_, rfl⟩
  · rintro ⟨f, rfl⟩
    cases f <;> simp

theorem kind_barInit {P t : Nat} {i : BlkId} (h : i ∈ barInit P t) : blkKind i = 0 := by
  rw [mem_barInit] at h
  have a2 := h.2
  simp only [List.mem_cons, List.not_mem_nil, or_false] at a2
  rcases a2 with rfl | rfl | rfl | rfl | rfl | rfl <;> rfl

theorem kind_redInit {C P n2 t : Nat} {i : BlkId} (h : i ∈ redInit C P n2 t) : blkKind i = 1 := by
  rw [mem_redInit] at h
  obtain ⟨_, f, rfl, _⟩ := h
  rfl

theorem kind_barCtor {i : BlkId} (h : i ∈ barCtor) : blkKind i = 0 := by
  simp [barCtor] at h; rcases h with rfl | rfl | rfl <;> rfl

theorem kind_redCtor {i : BlkId} (h : i ∈ redCtor) : blkKind i = 1 := by
  simp [redCtor] at h; rcases h with rfl | rfl | rfl | rfl <;> rfl

theorem mem_limCtor {i : BlkId} : i ∈ limCtor ↔ i ∈ barCtor ∨ i ∈ redCtor ∨ i = .limTop := by
  unfold limCtor
  rw [List.mem_append, List.mem_append, or_assoc, List.mem_singleton]

theorem limInit_ok {C P n2 : Nat} : ProgOk (C * P) (limInit C P n2) (fun j => False ∨ j ∈ limCtor) := by
  have hb := barInit_ok (C := C) (P := P)
  have hr := redInit_ok (C := C) (P := P) (n2 := n2)
  refine ⟨fun t ht => ?_, fun t u i ht hu a b => ?_, fun t i ht a => ?_⟩
  · unfold limInit
    refine List.nodup_append.2 ⟨List.nodup_append.2 ⟨hb.nodup t ht, hr.nodup t ht, fun a ha b hb' => ?_⟩, by simp,
      fun a ha b hb' => ?_⟩
    · rintro rfl
      have h1 := kind_barInit ha
      rw [kind_redInit hb'] at h1
      omega
    · rintro rfl
      have h2 : blkKind a = 2 := by
        simp only [List.mem_cons, List.not_mem_nil, or_false] at hb'
        rcases hb' with rfl | rfl | rfl | rfl | rfl | rfl <;> rfl
      rcases List.mem_append.1 ha with h | h
      · rw [kind_barInit h] at h2; omega
      · rw [kind_redInit h] at h2; omega
  · rw [mem_limInit] at a b
    rcases a with a | a | ⟨f, rfl⟩ <;> rcases b with b | b | ⟨g, e⟩
    · exact hb.apart t u i ht hu a b
    · have := kind_barInit a; rw [kind_redInit b] at this; omega
    · subst e; have := kind_barInit a; cases this
    · have := kind_redInit a; rw [kind_barInit b] at this; omega
    · exact hr.apart t u i ht hu a b
    · subst e; have := kind_redInit a; cases this
    · have := kind_barInit b; cases this
    · have := kind_redInit b; cases this
    · cases e; rfl
  · rw [mem_limInit] at a
    rintro (h | h)
    · exact h
    rw [mem_limCtor] at h
    rcases a with a | a | ⟨f, rfl⟩
    · rcases h with h | h | rfl
      · exact hb.new t i ht a (.inr h)
      · have := kind_barInit a; rw [kind_redCtor h] at this; omega
      · have := kind_barInit a; cases this
    · rcases h with h | h | rfl
      · have := kind_redInit a; rw [kind_barCtor h] at this; omega
      · exact hr.new t i ht a (.inr h)
      · have := kind_redInit a; cases this
    · rcases h with h | h | h
      · have := kind_barCtor h; cases this
      · have := kind_redCtor h; cases this
      · cases h

/-- **C77, load imbalance barrier.**  Construction, initialisation and destruction of a `LoadImba` free no block twice and
use none after that, but afterwards the blocks in use are those of before and one block of every thread, its
`ThreadLoadImba`. -/
theorem C77_loadimba_partial {C P : Nat} (hP : 0 < P) {live0 : InUse} {s1 s2 : BlkStore} {todo : Nat → List BlkId}
    (hc : Obtains limCtor (blkFresh live0) s1)
    (hi : TeamObtains (C * P) (limInit C P (nearestPow2 C)) s1 todo s2) (hd : ∀ t, t < C * P → todo t = []) :
    ∃ s3, blkFrees (limDtor s2 C P 2 2) s2 = some s3 ∧ ∀ a, s3.live a = true ↔
      live0 a = true ∨ ∃ t, t < C * P ∧ s2.slot (.lim t .self) = some a := by
  generalize nearestPow2 C = n2 at hi
  have h1 := hc.inv (blkFresh_inv live0) (by decide) (fun _ _ h => h)
  have h2 := (hi.inv limInit_ok h1).1
  have hdom : BlkInv live0 (fun i => i ∈ barDtor C 2 ∨ RedDom C P n2 i ∨ i = .limTop ∨ ∃ t f, t < C * P ∧ i = .lim t f) s2 :=
    h2.congr fun i => by
      rw [← bar_dom (C := C) (P := P) hP (by omega : (2 : Nat) ≠ 0)]
      unfold RedDom
      constructor
      · rintro ((h | h) | ⟨t, ht, a, _⟩)
        · exact h.elim
        · rcases mem_limCtor.1 h with h | h | h
          · exact .inl (.inl h)
          · exact .inr (.inl (.inl h))
          · exact .inr (.inr (.inl h))
        · rcases mem_limInit.1 a with h | h | ⟨f, h⟩
          · exact .inl (.inr ⟨t, ht, h⟩)
          · exact .inr (.inl (.inr ⟨t, ht, h⟩))
          · exact .inr (.inr (.inr ⟨t, f, ht, h⟩))
      · have fin : ∀ t, t < C * P → i ∈ limInit C P n2 t →
            (False ∨ i ∈ limCtor) ∨ ∃ t, t < C * P ∧ i ∈ limInit C P n2 t ∧ i ∉ todo t :=
          fun t ht h => .inr ⟨t, ht, h, by rw [hd t ht]; simp⟩
        rintro ((h | ⟨t, ht, h⟩) | (h | ⟨t, ht, h⟩) | h | ⟨t, f, ht, h⟩)
        · exact .inl (.inr (mem_limCtor.2 (.inl h)))
        · exact fin t ht (mem_limInit.2 (.inl h))
        · exact .inl (.inr (mem_limCtor.2 (.inr (.inl h))))
        · exact fin t ht (mem_limInit.2 (.inr (.inl h)))
        · exact .inl (.inr (mem_limCtor.2 (.inr (.inr h))))
        · exact fin t ht (mem_limInit.2 (.inr (.inr ⟨f, h⟩)))
  have hmem := redDelete_dom (C := C) (P := P) (n2 := n2) hP (by omega : (2 : Nat) ≠ 0) (s := s2) fun c => by
    refine (hdom.dom _).trans ⟨?_, fun h => .inr (.inl h)⟩
    rintro (h | h | h | ⟨t, f, _, h⟩)
    · have := kind_barDtor h; cases this
    · exact h
    · cases h
    · cases h
  have hall : ∀ i, i ∈ limDtor s2 C P 2 2 ↔ i ∈ barDtor C 2 ∨ RedDom C P n2 i ∨ i = .limTop ∨
      ∃ t f, t < C * P ∧ f ≠ .self ∧ i = .lim t f := by
    intro i
    rw [limDtor_eq, List.mem_append, List.mem_append, hmem, mem_limFrees]
    constructor
    · rintro (h | (h | h) | h)
      · exact .inr (.inl h)
      · exact .inr (.inr (.inr h))
      · exact .inr (.inr (.inl h))
      · exact .inl h
    · rintro (h | h | h | h)
      · exact .inr (.inr h)
      · exact .inl h
      · exact .inr (.inl (.inr h))
      · exact .inr (.inl (.inl h))
  obtain ⟨s3, e, hl⟩ := hdom.frees (limDtor_order s2 C P 2 2) (fun i h => by
      rcases (hall i).1 h with h | h | h | ⟨t, f, a, _, b⟩
      · exact .inl h
      · exact .inr (.inl h)
      · exact .inr (.inr (.inl h))
      · exact .inr (.inr (.inr ⟨t, f, a, b⟩)))
    (fun i h j hj => by
      rcases (hall i).1 h with h | h | h | ⟨t, f, a, hf, b⟩
      · exact .inl (barDtor_path i h j hj)
      · exact .inr (.inl ((hmem j).1 (redDelete_path i ((hmem i).2 h) j hj)))
      · subst h; cases hj
      · subst b
        have : j = .limTop ∨ j = .lim t .self := by
          cases f <;> simp [blkPath] at hj hf ⊢ <;> exact hj
        rcases this with rfl | rfl
        · exact .inr (.inr (.inl rfl))
        · exact .inr (.inr (.inr ⟨t, _, a, rfl⟩)))
  refine ⟨s3, e, fun a => ?_⟩
  rw [hl a]
  refine or_congr Iff.rfl ⟨?_, ?_⟩
  · rintro ⟨i, hn, hs⟩
    rcases (hdom.dom i).1 (by rw [hs]; rfl) with h | h | h | ⟨t, f, ht, rfl⟩
    · exact absurd ((hall i).2 (.inl h)) hn
    · exact absurd ((hall i).2 (.inr (.inl h))) hn
    · exact absurd ((hall i).2 (.inr (.inr (.inl h)))) hn
    · by_cases hf : f = .self
      · subst hf; exact ⟨t, ht, hs⟩
      · exact absurd ((hall _).2 (.inr (.inr (.inr ⟨t, f, ht, hf, rfl⟩)))) hn
  · rintro ⟨t, ht, hs⟩
    refine ⟨_, fun h => ?_, hs⟩
    rcases (hall _).1 h with h | h | h | ⟨u, f, _, hf, e⟩
    · have := kind_barDtor h; cases this
    · rcases h with h | ⟨u, _, h⟩
      · have := kind_redCtor h; cases this
      · have := kind_redInit h; cases this
    · cases h
    · cases e; exact hf rfl

/-- So a `LoadImba` that has been used by at least one thread is never given back completely. -/
theorem C77_loadimba_leak_false {C P : Nat} (hC : 0 < C) (hP : 0 < P) {live0 : InUse} {s1 s2 : BlkStore}
    {todo : Nat → List BlkId} (hc : Obtains limCtor (blkFresh live0) s1)
    (hi : TeamObtains (C * P) (limInit C P (nearestPow2 C)) s1 todo s2) (hd : ∀ t, t < C * P → todo t = []) :
    ∃ s3, blkFrees (limDtor s2 C P 2 2) s2 = some s3 ∧ ∃ a, live0 a = false ∧ s3.live a = true := by
  obtain ⟨s3, e, hl⟩ := C77_loadimba_partial hP hc hi hd
  have hT : 0 < C * P := Nat.mul_pos hC hP
  have inv := ((hi.inv limInit_ok (hc.inv (blkFresh_inv _) (by decide) (fun _ _ h => h)))).1
  have hd := (inv.dom (.lim 0 .self)).2 (.inr ⟨0, hT, mem_limInit.2 (.inr (.inr ⟨_, rfl⟩)), by rw [hd 0 hT]; simp⟩)
  cases hs : s2.slot (.lim 0 .self) with
  | none => rw [hs] at hd; cases hd
  | some a => exact ⟨s3, e, a, inv.new _ a hs, (hl a).2 (.inr ⟨0, hT, hs⟩)⟩

/-- A `LoadImba` that is destroyed without having been initialised: the destructor follows pointers that were never set. -/
theorem C77_loadimba_unused_false {C P : Nat} (hC : 0 < C) (hP : 0 < P) {live0 : InUse} {s1 : BlkStore}
    (hc : Obtains limCtor (blkFresh live0) s1) : blkFrees (limDtor s1 C P 0 0) s1 = none := by
  have h1 := hc.inv (blkFresh_inv live0) (by decide) (fun _ _ h => h)
  have hmono : ∀ (l : List BlkId) (s s' : BlkStore), blkFrees l s = some s' → s.slot = s'.slot ∧ ∀ i ∈ l, (s.slot i).isSome = true := by
    intro l
    induction l with
    | nil => intro s s' e; cases e; exact ⟨rfl, by simp⟩
    | cons i l ih =>
      intro s s' e
      have e' : (blkFree i s).bind (blkFrees l) = some s' := e
      unfold blkFree at e'
      split at e'
      · rename_i hh
        obtain ⟨a, b⟩ := ih _ _ e'
        refine ⟨a, fun j hj => ?_⟩
        rcases List.mem_cons.1 hj with rfl | hj
        · have h3 := hh.2
          unfold BlkStore.held at h3
          cases e3 : s.slot j with
          | none => rw [e3] at h3; cases h3
          | some x => rfl
        · exact b j hj
      · cases e'
  cases e : blkFrees (limDtor s1 C P 0 0) s1 with
  | none => rfl
  | some s' =>
    have h2 := (hmono _ _ _ e).2 (.lim 0 .min) (by
      rw [limDtor_eq, List.mem_append, List.mem_append]
      exact .inr (.inl (mem_limFrees.2 (.inl ⟨0, _, Nat.mul_pos hC hP, by simp, rfl⟩))))
    rcases (h1.dom _).1 h2 with h | h
    · exact h.elim
    · exact absurd h (by decide)

/-- A constructor that runs out of memory at its second array throws and leaves its first array in use. -/
theorem C77_bad_alloc_false : let r := ctorRun (fun i => if i = .barTop .cores then 64 else 0) barCtor (blkFresh fun _ => false)
    r.1 = false ∧ r.2.live 64 = true := by decide

/-! ### The hypotheses can be met -/

/-- Finitely many blocks are in use. -/
def Bounded (h : InUse) : Prop := ∃ n, ∀ a, h a = true → a < n

theorem Bounded.fresh {h : InUse} (hb : Bounded h) : ∃ a, h.Fresh a := by
  obtain ⟨n, hn⟩ := hb
  refine ⟨n + 1, by omega, ?_⟩
  cases e : h (n + 1) with
  | false => rfl
  | true => have := hn _ e; omega

theorem Bounded.put {s : BlkStore} (hb : Bounded s.live) (i : BlkId) (a : Nat) : Bounded (s.put i a).live := by
  obtain ⟨n, hn⟩ := hb
  refine ⟨n + a + 1, fun b hb => ?_⟩
  have hb' : (if b = a then true else s.live b) = true := hb
  by_cases e : b = a
  · omega
  · rw [if_neg e] at hb'; have := hn b hb'; omega

theorem obtains_exists : ∀ (l : List BlkId) (s : BlkStore), Bounded s.live → ∃ s', Obtains l s s' ∧ Bounded s'.live := by
  intro l
  induction l with
  | nil => intro s h; exact ⟨s, .nil, h⟩
  | cons i l ih =>
    intro s h
    obtain ⟨a, ha⟩ := h.fresh
    obtain ⟨s', h1, h2⟩ := ih _ (h.put i a)
    exact ⟨s', .cons ha h1, h2⟩

theorem teamObtains_exists (T : Nat) (prog : Nat → List BlkId) (s : BlkStore) (hb : Bounded s.live) :
    ∃ todo s', TeamObtains T prog s todo s' ∧ ∀ t, t < T → todo t = [] := by
  have one : ∀ (l : List BlkId) (t : Nat) (todo : Nat → List BlkId) (s' : BlkStore), t < T → TeamObtains T prog s todo s' →
      Bounded s'.live → todo t = l → ∃ todo' s'', TeamObtains T prog s todo' s'' ∧ Bounded s''.live ∧ todo' t = [] ∧
        ∀ u, u ≠ t → todo' u = todo u := by
    intro l
    induction l with
    | nil => intro t todo s' _ h hb e; exact ⟨todo, s', h, hb, e, fun _ _ => rfl⟩
    | cons i l ih =>
      intro t todo s' ht h hb e
      obtain ⟨a, ha⟩ := hb.fresh
      obtain ⟨todo', s'', h1, h2, h3, h4⟩ := ih t _ _ ht (.step h ht e ha) (hb.put i a) (if_pos rfl)
      exact ⟨todo', s'', h1, h2, h3, fun u hu => (h4 u hu).trans (if_neg hu)⟩
  have all : ∀ k, k ≤ T → ∃ todo s', TeamObtains T prog s todo s' ∧ Bounded s'.live ∧ ∀ t, t < k → todo t = [] := by
    intro k
    induction k with
    | zero => intro _; exact ⟨prog, s, .start, hb, fun t ht => by omega⟩
    | succ k ih =>
      intro hk
      obtain ⟨todo, s', h1, h2, h3⟩ := ih (by omega)
      obtain ⟨todo', s'', g1, g2, g3, g4⟩ := one _ k todo s' (by omega) h1 h2 rfl
      refine ⟨todo', s'', g1, g2, fun t ht => ?_⟩
      by_cases e : t = k
      · rw [e]; exact g3
      · rw [g4 t e]; exact h3 t (by omega)
  obtain ⟨todo, s', h1, _, h3⟩ := all T (Nat.le_refl _)
  exact ⟨todo, s', h1, h3⟩

/-- Three cores of two threads, with a pseudo core, and a heap with a block at 4096: there are runs, and after each of them
a block of thread 0 is still in use that was not in use before. -/
example : ∃ s1 s2 todo, Obtains limCtor (blkFresh fun a => decide (a = 4096)) s1 ∧
    TeamObtains (3 * 2) (limInit 3 2 (nearestPow2 3)) s1 todo s2 ∧ (∀ t, t < 3 * 2 → todo t = []) ∧
    ∃ s3, blkFrees (limDtor s2 3 2 2 2) s2 = some s3 ∧ ∃ a, a ≠ 4096 ∧ s3.live a = true := by
  have hb : Bounded (blkFresh fun a => decide (a = 4096)).live := ⟨4097, fun a h => by
    have := of_decide_eq_true h; omega⟩
  obtain ⟨s1, h1, hb1⟩ := obtains_exists limCtor _ hb
  obtain ⟨todo, s2, h2, h3⟩ := teamObtains_exists (3 * 2) (limInit 3 2 (nearestPow2 3)) s1 hb1
  obtain ⟨s3, e, a, ha, hl⟩ := C77_loadimba_leak_false (by omega) (by omega) h1 h2 h3
  exact ⟨s1, s2, todo, h1, h2, h3, s3, e, a, of_decide_eq_false ha, hl⟩

/-- The hypotheses for barriers and reducing barriers are met, for every number of cores and threads. -/
example (C P : Nat) : ∃ s1 s2 todo, Obtains barCtor (blkFresh fun _ => false) s1 ∧
    TeamObtains (C * P) (barInit P) s1 todo s2 ∧ ∀ t, t < C * P → todo t = [] := by
  obtain ⟨s1, h1, hb1⟩ := obtains_exists barCtor (blkFresh fun _ => false) ⟨0, fun a h => by cases h⟩
  obtain ⟨todo, s2, h2, h3⟩ := teamObtains_exists (C * P) (barInit P) s1 hb1
  exact ⟨s1, s2, todo, h1, h2, h3⟩
example (C P : Nat) : ∃ s1 s2 todo, Obtains redCtor (blkFresh fun _ => false) s1 ∧
    TeamObtains (C * P) (redInit C P (nearestPow2 C)) s1 todo s2 ∧ ∀ t, t < C * P → todo t = [] := by
  obtain ⟨s1, h1, hb1⟩ := obtains_exists redCtor (blkFresh fun _ => false) ⟨0, fun a h => by cases h⟩
  obtain ⟨todo, s2, h2, h3⟩ := teamObtains_exists (C * P) (redInit C P (nearestPow2 C)) s1 hb1
  exact ⟨s1, s2, todo, h1, h2, h3⟩

end SpMP.Props
