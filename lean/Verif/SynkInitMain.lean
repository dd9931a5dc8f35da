import Verif.SynkInitProof

/-
Initialization of the barrier objects: the invariant on the tables, and the proof.
-/

namespace SpMP

variable {C P lg n2 : Nat}

/-- A side after its first `a` rounds have been linked. -/
def sideAt (C lg n2 x : Nat) (base : Int) (a : Nat) : InitSide :=
  { newSide lg x with
    partner := fun j i => if j < 2 ∧ i < a then some (linkPtr C (linkTarget n2 base i) i) else none
    rvals := fun i => decide (i < a)
    partnerRvals := fun i => if i < a then some (linkPtr C (linkTarget n2 base i) i) else none }

/-- A core after `a` rounds of its own and `b` rounds of its pseudo core have been linked. -/
def coreAt (C P lg n2 c a b : Nat) : InitCore where
  side := sideAt C lg n2 c c a
  coreSense := true
  threadSenses := fun p => if p < P then some true else none
  pseudo := if c + C < n2 then some (sideAt C lg n2 (c + C) (toI8 (c + C)) b) else none

theorem newSide_eq (lg x : Nat) (base : Int) : newSide lg x = sideAt C lg n2 x base 0 := by
  simp [newSide, sideAt]

theorem newCore_eq (c : Nat) : newCore C P lg n2 c = coreAt C P lg n2 c 0 0 := by
  unfold newCore coreAt
  rw [newSide_eq (C := C) (n2 := n2) lg c c, newSide_eq (C := C) (n2 := n2) lg (c + C) (toI8 (c + C))]

theorem linkSide_sideAt (x : Nat) (base : Int) (a : Nat) :
    linkSide C n2 base a (sideAt C lg n2 x base a) = sideAt C lg n2 x base (a + 1) := by
  unfold linkSide sideAt
  congr 1
  · funext j i
    by_cases hj : j < 2
    · by_cases hi : i = a
      · subst hi; simp [hj]
      · by_cases h : i < a
        · simp [hj, hi, h, Nat.lt_succ_of_lt h]
        · have : ¬ i < a + 1 := by omega
          simp [hj, hi, h, this]
    · simp [hj]
  · funext i
    by_cases hi : i = a
    · subst hi; simp
    · by_cases h : i < a
      · simp [hi, h, Nat.lt_succ_of_lt h]
      · have : ¬ i < a + 1 := by omega
        simp [hi, h, this]
  · funext i
    by_cases hi : i = a
    · subst hi; simp
    · by_cases h : i < a
      · simp [hi, h, Nat.lt_succ_of_lt h]
      · have : ¬ i < a + 1 := by omega
        simp [hi, h, this]

theorem linkCore_coreAt (c a b : Nat) :
    linkCore C n2 c a (coreAt C P lg n2 c a b) = coreAt C P lg n2 c (a + 1) b := by
  unfold linkCore coreAt
  rw [linkSide_sideAt]

theorem linkPseudo_coreAt (c a b : Nat) :
    linkPseudo C n2 b (coreAt C P lg n2 c a b) = coreAt C P lg n2 c a (b + 1) := by
  unfold linkPseudo coreAt
  by_cases h : c + C < n2
  · simp only [if_pos h, Option.map_some]
    rw [show (sideAt C lg n2 (c + C) (toI8 (c + C)) b).coreId = toI8 (c + C) from rfl, linkSide_sideAt]
  · simp only [if_neg h, Option.map_none]

/-- Rounds of its own the leader has linked. -/
def InitPc.sl (lg : Nat) : InitPc → Nat
  | .link i false => i
  | .link i true => i + 1
  | .start | .map1 | .map2 => 0
  | .dec k | .reset k | .raise k | .spin k => if k = 0 then 0 else lg
  | .done => lg

/-- Rounds of its pseudo core the leader has linked. -/
def InitPc.pl (lg : Nat) : InitPc → Nat
  | .link i _ => i
  | .start | .map1 | .map2 => 0
  | .dec k | .reset k | .raise k | .spin k => if k = 0 then 0 else lg
  | .done => lg

/-- Has `threadCores[tid]` been written? -/
def InitPc.m1 : InitPc → Bool
  | .start | .map1 => false
  | .map2 | .link _ _ | .done => true
  | .dec k | .reset k | .raise k | .spin k => decide (k ≠ 0)

/-- Has `coreTids[tid]` been written? -/
def InitPc.m2 : InitPc → Bool
  | .start | .map1 | .map2 => false
  | .link _ _ | .done => true
  | .dec k | .reset k | .raise k | .spin k => decide (k ≠ 0)

structure InitInv (C P lg n2 : Nat) (ls : Nat → InitL) (g : InitG) : Prop where
  tid : ∀ t, t < C * P → (ls t).tid = t
  wf : ∀ t, t < C * P → (ls t).pc.wf lg (decide (t % P = 0))
  ph : InitPh (C * P) (fun t => (ls t).pc) g.waiting g.initState
  cores : ∀ c, c < C → g.cores c = if (ls (c * P)).pc = .start then none else
    some (coreAt C P lg n2 c ((ls (c * P)).pc.sl lg) ((ls (c * P)).pc.pl lg))
  tc : ∀ t, t < C * P → g.threadCores t = if (ls t).pc.m1 then some (t / P) else none
  ct : ∀ t, t < C * P → g.coreTids t = if (ls t).pc.m2 then some (toI8 (t % P)) else none

theorem updT_pc (ls : Nat → InitL) (t : Nat) (l : InitL) :
    (fun u => (updT ls t l u).pc) = updT (fun u => (ls u).pc) t l.pc := by
  funext u
  by_cases h : u = t
  · subst h; simp
  · simp [updT_other _ _ h]

/-- A step of thread `t` that changes at most its own entries. -/
theorem InitInv.upd {ls : Nat → InitL} {g g' : InitG} (h : InitInv C P lg n2 ls g) (hP : 0 < P) {t : Nat}
    {p : InitPc} (hwf : p.wf lg (decide (t % P = 0)))
    (hph : InitPh (C * P) (updT (fun u => (ls u).pc) t p) g'.waiting g'.initState)
    (hcores : ∀ c, c < C → g'.cores c = if t = c * P then
      (if p = .start then none else some (coreAt C P lg n2 c (p.sl lg) (p.pl lg))) else g.cores c)
    (htc : ∀ u, u < C * P → g'.threadCores u = if u = t then (if p.m1 then some (t / P) else none) else g.threadCores u)
    (hct : ∀ u, u < C * P → g'.coreTids u = if u = t then (if p.m2 then some (toI8 (t % P)) else none) else g.coreTids u) :
    InitInv C P lg n2 (updT ls t ⟨t, p⟩) g' := by
  have _ := hP
  refine ⟨?_, ?_, ?_, ?_, ?_, ?_⟩
  · intro u hu
    by_cases e : u = t
    · subst e; rw [updT_same]
    · rw [updT_other _ _ e]; exact h.tid u hu
  · intro u hu
    by_cases e : u = t
    · subst e; rw [updT_same]; exact hwf
    · rw [updT_other _ _ e]; exact h.wf u hu
  · rw [updT_pc]; exact hph
  · intro c hc
    rw [hcores c hc]
    by_cases e : t = c * P
    · subst e; rw [if_pos rfl, updT_same]
    · rw [if_neg e, updT_other _ _ (fun h => e h.symm)]; exact h.cores c hc
  · intro u hu
    rw [htc u hu]
    by_cases e : u = t
    · subst e; rw [if_pos rfl, updT_same]
    · rw [if_neg e, updT_other _ _ e]; exact h.tc u hu
  · intro u hu
    rw [hct u hu]
    by_cases e : u = t
    · subst e; rw [if_pos rfl, updT_same]
    · rw [if_neg e, updT_other _ _ e]; exact h.ct u hu

/-- The tables are unchanged and complete to the same extent. -/
theorem InitInv.same {ls : Nat → InitL} {g g' : InitG} (h : InitInv C P lg n2 ls g) (hP : 0 < P) {t : Nat}
    (ht : t < C * P) {p : InitPc} (hwf : p.wf lg (decide (t % P = 0)))
    (hph : InitPh (C * P) (updT (fun u => (ls u).pc) t p) g'.waiting g'.initState)
    (hg : g'.cores = g.cores ∧ g'.threadCores = g.threadCores ∧ g'.coreTids = g.coreTids)
    (hs : t % P = 0 → (p = .start ↔ (ls t).pc = .start) ∧ p.sl lg = (ls t).pc.sl lg ∧ p.pl lg = (ls t).pc.pl lg)
    (h1 : p.m1 = (ls t).pc.m1) (h2 : p.m2 = (ls t).pc.m2) :
    InitInv C P lg n2 (updT ls t ⟨t, p⟩) g' := by
  refine h.upd hP hwf hph ?_ ?_ ?_
  · intro c hc
    rw [hg.1]
    split
    · next e =>
      have e0 : t % P = 0 := by rw [e, Nat.mul_mod_left]
      obtain ⟨a, b, d⟩ := hs e0
      have := h.cores c hc
      rw [← e] at this
      rw [this, b, d]
      by_cases hst : p = .start
      · rw [if_pos hst, if_pos (a.1 hst)]
      · rw [if_neg hst, if_neg (fun hh => hst (a.2 hh))]
    · rfl
  · intro u hu
    rw [hg.2.1]
    split
    · next e => subst e; rw [h.tc u hu, h1]
    · rfl
  · intro u hu
    rw [hg.2.2]
    split
    · next e => subst e; rw [h.ct u hu, h2]
    · rfl

theorem leader_core {t : Nat} (h0 : t % P = 0) : t = t / P * P := by
  have := Nat.div_add_mod t P
  rw [h0, Nat.add_zero, Nat.mul_comm] at this
  exact this.symm

theorem core_of {t : Nat} (ht : t < C * P) : t / P < C := Nat.div_lt_of_lt_mul (by rw [Nat.mul_comm]; exact ht)

theorem leader_uniq {t c : Nat} (hP : 0 < P) (e : t = c * P) : t / P = c := by
  rw [e, Nat.mul_div_cancel _ hP]

theorem InitInv.step {ls : Nat → InitL} {g : InitG} (h : InitInv C P lg n2 ls g) (hP : 0 < P) {t : Nat}
    (ht : t < C * P) {l' : InitL} {g' : InitG} (hs : initNext C P lg n2 (ls t) g = some (l', g')) :
    InitInv C P lg n2 (updT ls t l') g' := by
  have htid := h.tid t ht
  have hwf := h.wf t ht
  have hmap : ∀ c, c < C → t = c * P → t / P = c := fun c _ e => leader_uniq hP e
  cases hl : ls t with
  | mk tid pc =>
  rw [hl] at htid hwf hs
  have htid : tid = t := htid
  subst htid
  have hpc : (fun u => (ls u).pc) tid = pc := by show (ls tid).pc = pc; rw [hl]
  have hpc' : (ls tid).pc = pc := hpc
  have hcore : tid % P = 0 → g.cores (tid / P) = if pc = .start then none else
      some (coreAt C P lg n2 (tid / P) (pc.sl lg) (pc.pl lg)) := by
    intro h0
    have := h.cores (tid / P) (core_of ht)
    rw [← leader_core h0, hl] at this
    exact this
  cases pc with
  | start =>
    simp only [initNext, Option.some.injEq, Prod.mk.injEq] at hs
    obtain ⟨rfl, rfl⟩ := hs
    have hph := h.ph.neutral (p := .dec 0) ht (by rw [hpc']; rfl) rfl (by rw [hpc']; rfl)
      (by rw [hpc']; exact fun hh => by cases hh)
    by_cases h0 : tid % P = 0
    · rw [if_pos h0]
      refine h.upd hP (by show 0 < 2; omega) hph ?_ ?_ ?_
      · intro c hc
        show upd1 g.cores (tid / P) _ c = _
        unfold upd1
        by_cases e : tid = c * P
        · rw [if_pos (hmap c hc e).symm, if_pos e, hmap c hc e, newCore_eq]; rfl
        · rw [if_neg e, if_neg]
          intro hh
          exact e (by rw [hh]; exact leader_core h0)
      · intro u hu
        by_cases e : u = tid
        · subst e; rw [if_pos rfl, h.tc u hu, hpc']; rfl
        · rw [if_neg e]
      · intro u hu
        by_cases e : u = tid
        · subst e; rw [if_pos rfl, h.ct u hu, hpc']; rfl
        · rw [if_neg e]
    · rw [if_neg h0]
      exact h.same hP ht (by show 0 < 2; omega) hph ⟨rfl, rfl, rfl⟩ (fun hh => absurd hh h0)
        (by rw [hpc']; rfl) (by rw [hpc']; rfl)
  | dec k =>
    simp only [initNext, Option.some.injEq, Prod.mk.injEq] at hs
    obtain ⟨rfl, rfl⟩ := hs
    obtain ⟨hk, _, hph⟩ := h.ph.dec ht hpc
    refine h.same hP ht ?_ hph ⟨rfl, rfl, rfl⟩ ?_ ?_ ?_
    · split <;> exact hwf
    · intro _
      rw [hpc']
      split <;> exact ⟨⟨(fun hh => by cases hh), (fun hh => by cases hh)⟩, rfl, rfl⟩
    · rw [hpc']; split <;> rfl
    · rw [hpc']; split <;> rfl
  | reset k =>
    simp only [initNext, Option.some.injEq, Prod.mk.injEq] at hs
    obtain ⟨rfl, rfl⟩ := hs
    obtain ⟨hk, hph⟩ := h.ph.reset ht hpc
    refine h.same hP ht (by exact hwf) hph ⟨rfl, rfl, rfl⟩ ?_ (by rw [hpc']; rfl) (by rw [hpc']; rfl)
    intro _
    rw [hpc']
    exact ⟨⟨(fun hh => by cases hh), (fun hh => by cases hh)⟩, rfl, rfl⟩
  | raise k =>
    simp only [initNext, Option.some.injEq, Prod.mk.injEq] at hs
    obtain ⟨rfl, rfl⟩ := hs
    obtain ⟨hk, hph⟩ := h.ph.raise ht hwf hpc
    have h2 : k < 2 := hwf
    have hk2 : k = 0 ∨ k = 1 := by omega
    rw [← hk] at hph
    refine h.same hP ht ?_ hph ⟨rfl, rfl, rfl⟩ ?_ ?_ ?_
    · rcases hk2 with e | e <;> (rw [e]; exact trivial)
    · intro _
      rw [hpc']
      rcases hk2 with e | e <;> (rw [e]; exact ⟨⟨(fun hh => by cases hh), (fun hh => by cases hh)⟩, rfl, rfl⟩)
    · rw [hpc']; rcases hk2 with e | e <;> (rw [e]; rfl)
    · rw [hpc']; rcases hk2 with e | e <;> (rw [e]; rfl)
  | spin k =>
    simp only [initNext] at hs
    split at hs
    · cases hs
    · next hne =>
      simp only [Option.some.injEq, Prod.mk.injEq] at hs
      obtain ⟨rfl, rfl⟩ := hs
      have h2 : k < 2 := hwf
      have hk2 : k = 0 ∨ k = 1 := by omega
      have hph := h.ph.neutral (p := initAfter k) ht
        (by rw [hpc']; rcases hk2 with e | e <;> (rw [e]; rfl))
        (by rcases hk2 with e | e <;> (rw [e]; rfl)) (by rw [hpc']; rfl)
        (by rw [hpc']; exact fun hh => by injection hh with hh; exact hne hh.symm)
      refine h.same hP ht ?_ hph ⟨rfl, rfl, rfl⟩ ?_ ?_ ?_
      · rcases hk2 with e | e <;> (rw [e]; exact trivial)
      · intro _
        rw [hpc']
        rcases hk2 with e | e <;> (rw [e]; exact ⟨⟨(fun hh => by cases hh), (fun hh => by cases hh)⟩, rfl, rfl⟩)
      · rw [hpc']; rcases hk2 with e | e <;> (rw [e]; rfl)
      · rw [hpc']; rcases hk2 with e | e <;> (rw [e]; rfl)
  | map1 =>
    simp only [initNext, Option.some.injEq, Prod.mk.injEq] at hs
    obtain ⟨rfl, rfl⟩ := hs
    have hph := h.ph.neutral (p := .map2) ht (by rw [hpc']; rfl) rfl (by rw [hpc']; rfl)
      (by rw [hpc']; exact fun hh => by cases hh)
    refine h.upd hP trivial hph ?_ ?_ ?_
    · intro c hc
      by_cases e : tid = c * P
      · rw [if_pos e]
        have := h.cores c hc
        rw [← e, hpc'] at this
        exact this
      · rw [if_neg e]
    · intro u hu
      show upd1 g.threadCores tid _ u = _
      unfold upd1
      split <;> rfl
    · intro u hu
      by_cases e : u = tid
      · subst e; rw [if_pos rfl]; show g.coreTids u = _; rw [h.ct u hu, hpc']; rfl
      · rw [if_neg e]
  | map2 =>
    simp only [initNext, Option.some.injEq, Prod.mk.injEq] at hs
    obtain ⟨rfl, rfl⟩ := hs
    have hph := h.ph.neutral (p := if tid % P = 0 then .link 0 false else .dec 1) ht
      (by rw [hpc']; split <;> rfl) (by split <;> rfl) (by rw [hpc']; rfl)
      (by rw [hpc']; exact fun hh => by cases hh)
    refine h.upd hP ?_ hph ?_ ?_ ?_
    · split
      · next h0 => exact ⟨decide_eq_true h0, Nat.zero_le _, fun hh => by cases hh⟩
      · show 1 < 2; omega
    · intro c hc
      by_cases e : tid = c * P
      · have h0 : tid % P = 0 := by rw [e, Nat.mul_mod_left]
        rw [if_pos e, if_pos h0]
        have := h.cores c hc
        rw [← e, hpc'] at this
        exact this
      · rw [if_neg e]
    · intro u hu
      by_cases e : u = tid
      · subst e; rw [if_pos rfl]; show g.threadCores u = _; rw [h.tc u hu, hpc']; by_cases h0 : u % P = 0 <;> (simp only [h0, if_true, if_false]; rfl)
      · rw [if_neg e]
    · intro u hu
      show upd1 g.coreTids tid _ u = _
      unfold upd1
      by_cases e : u = tid
      · subst e; rw [if_pos rfl, if_pos rfl]; split <;> rfl
      · rw [if_neg e, if_neg e]
  | link i ps =>
    obtain ⟨hlead, hi, hi'⟩ := hwf
    have h0 : tid % P = 0 := of_decide_eq_true hlead
    have hc0 := hcore h0
    rw [if_neg (fun hh => by cases hh)] at hc0
    cases ps with
    | false =>
      simp only [initNext] at hs
      split at hs
      · next hlt =>
        simp only [Option.some.injEq, Prod.mk.injEq] at hs
        obtain ⟨rfl, rfl⟩ := hs
        have hph := h.ph.neutral (p := .link i true) ht (by rw [hpc']; rfl) rfl (by rw [hpc']; rfl)
          (by rw [hpc']; exact fun hh => by cases hh)
        refine h.upd hP ⟨hlead, hi, fun _ => hlt⟩ hph ?_ ?_ ?_
        · intro c hc
          show upd1 g.cores (tid / P) _ c = _
          unfold upd1
          by_cases e : tid = c * P
          · rw [if_pos (hmap c hc e).symm, if_pos e, hc0, if_neg (fun hh => by cases hh), Option.map_some]
            have := linkCore_coreAt (C := C) (P := P) (lg := lg) (n2 := n2) (tid / P) i i
            show some (linkCore C n2 (tid / P) i (coreAt C P lg n2 (tid / P) i i)) = _
            rw [this, hmap c hc e]; rfl
          · rw [if_neg e, if_neg]
            intro hh
            exact e (by rw [hh]; exact leader_core h0)
        · intro u hu
          by_cases e : u = tid
          · subst e; rw [if_pos rfl]; show g.threadCores u = _; rw [h.tc u hu, hpc']; rfl
          · rw [if_neg e]
        · intro u hu
          by_cases e : u = tid
          · subst e; rw [if_pos rfl]; show g.coreTids u = _; rw [h.ct u hu, hpc']; rfl
          · rw [if_neg e]
      · next hge =>
        simp only [Option.some.injEq, Prod.mk.injEq] at hs
        obtain ⟨rfl, rfl⟩ := hs
        have hph := h.ph.neutral (p := .dec 1) ht (by rw [hpc']; rfl) rfl (by rw [hpc']; rfl)
          (by rw [hpc']; exact fun hh => by cases hh)
        have hilg : i = lg := by omega
        refine h.same hP ht (by show 1 < 2; omega) hph ⟨rfl, rfl, rfl⟩ ?_ (by rw [hpc']; rfl) (by rw [hpc']; rfl)
        intro _
        rw [hpc', hilg]
        exact ⟨⟨(fun hh => by cases hh), (fun hh => by cases hh)⟩, rfl, rfl⟩
    | true =>
      simp only [initNext, Option.some.injEq, Prod.mk.injEq] at hs
      obtain ⟨rfl, rfl⟩ := hs
      have hph := h.ph.neutral (p := .link (i + 1) false) ht (by rw [hpc']; rfl) rfl (by rw [hpc']; rfl)
        (by rw [hpc']; exact fun hh => by cases hh)
      have hlt := hi' rfl
      refine h.upd hP ⟨hlead, hlt, fun hh => by cases hh⟩ hph ?_ ?_ ?_
      · intro c hc
        show upd1 g.cores (tid / P) _ c = _
        unfold upd1
        by_cases e : tid = c * P
        · rw [if_pos (hmap c hc e).symm, if_pos e, hc0, if_neg (fun hh => by cases hh), Option.map_some]
          have := linkPseudo_coreAt (C := C) (P := P) (lg := lg) (n2 := n2) (tid / P) (i + 1) i
          show some (linkPseudo C n2 i (coreAt C P lg n2 (tid / P) (i + 1) i)) = _
          rw [this, hmap c hc e]; rfl
        · rw [if_neg e, if_neg]
          intro hh
          exact e (by rw [hh]; exact leader_core h0)
      · intro u hu
        by_cases e : u = tid
        · subst e; rw [if_pos rfl]; show g.threadCores u = _; rw [h.tc u hu, hpc']; rfl
        · rw [if_neg e]
      · intro u hu
        by_cases e : u = tid
        · subst e; rw [if_pos rfl]; show g.coreTids u = _; rw [h.ct u hu, hpc']; rfl
        · rw [if_neg e]
  | done => simp only [initNext] at hs; cases hs

theorem initInv_init (hC : 0 < C) (hP : 0 < P) : InitInv C P lg n2 initL0 (initG0 C P) := by
  have hpos : 0 < C * P := Nat.mul_pos hC hP
  refine ⟨fun _ _ => rfl, fun _ _ => trivial, ?_, fun _ _ => rfl, fun _ _ => rfl, fun _ _ => rfl⟩
  refine .open' (fun t _ => .inl ⟨rfl, rfl⟩) ?_ hpos
  rw [initCnt_zero (fun t _ => by show 0 ≠ 0 + 1; omega)]
  rfl

/-- Rank of a program counter: it falls with every step. -/
def InitPc.rank (lg : Nat) : InitPc → Nat
  | .start => 2 * lg + 20
  | .dec k => if k = 0 then 2 * lg + 19 else 8
  | .reset k => if k = 0 then 2 * lg + 18 else 7
  | .raise k => if k = 0 then 2 * lg + 17 else 6
  | .spin k => if k = 0 then 2 * lg + 17 else 6
  | .map1 => 2 * lg + 16
  | .map2 => 2 * lg + 15
  | .link i false => 2 * (lg - i) + 10
  | .link i true => 2 * (lg - i) + 9
  | .done => 0

theorem initRank {l l' : InitL} {g g' : InitG} (hs : initNext C P lg n2 l g = some (l', g')) :
    l'.pc.rank lg < l.pc.rank lg ∨ (∃ i, l.pc = .link i true ∧ lg ≤ i) := by
  obtain ⟨tid, pc⟩ := l
  cases pc with
  | start =>
    simp only [initNext, Option.some.injEq, Prod.mk.injEq] at hs
    obtain ⟨rfl, -⟩ := hs
    left; simp [InitPc.rank]
  | dec k =>
    simp only [initNext, Option.some.injEq, Prod.mk.injEq] at hs
    obtain ⟨rfl, -⟩ := hs
    left
    by_cases h : g.waiting - 1 = 0 <;> by_cases hk : k = 0 <;> simp [h, hk, InitPc.rank]
  | reset k =>
    simp only [initNext, Option.some.injEq, Prod.mk.injEq] at hs
    obtain ⟨rfl, -⟩ := hs
    left
    by_cases hk : k = 0 <;> simp [hk, InitPc.rank]
  | raise k =>
    simp only [initNext, Option.some.injEq, Prod.mk.injEq] at hs
    obtain ⟨rfl, -⟩ := hs
    left
    by_cases hk : k = 0 <;> simp [hk, InitPc.rank, initAfter]
  | spin k =>
    simp only [initNext] at hs
    split at hs
    · cases hs
    · simp only [Option.some.injEq, Prod.mk.injEq] at hs
      obtain ⟨rfl, -⟩ := hs
      left
      by_cases hk : k = 0 <;> simp [hk, InitPc.rank, initAfter]
  | map1 =>
    simp only [initNext, Option.some.injEq, Prod.mk.injEq] at hs
    obtain ⟨rfl, -⟩ := hs
    left; simp [InitPc.rank]
  | map2 =>
    simp only [initNext, Option.some.injEq, Prod.mk.injEq] at hs
    obtain ⟨rfl, -⟩ := hs
    left
    by_cases h : tid % P = 0 <;> simp [h, InitPc.rank]
  | link i ps =>
    cases ps with
    | false =>
      simp only [initNext] at hs
      split at hs
      · simp only [Option.some.injEq, Prod.mk.injEq] at hs
        obtain ⟨rfl, -⟩ := hs
        left; simp [InitPc.rank]
      · simp only [Option.some.injEq, Prod.mk.injEq] at hs
        obtain ⟨rfl, -⟩ := hs
        left; simp [InitPc.rank]
    | true =>
      simp only [initNext, Option.some.injEq, Prod.mk.injEq] at hs
      obtain ⟨rfl, -⟩ := hs
      by_cases h : lg ≤ i
      · exact .inr ⟨i, rfl, h⟩
      · left; simp only [InitPc.rank]; omega
  | done => simp only [initNext] at hs; cases hs

theorem initAcc (l : InitL) : Acc (fun l' l => ∃ g g', (initMachine C P lg n2).step l g l' g') l := by
  -- a link round beyond the last one leads out of the loop at once
  have key : ∀ n, ∀ l : InitL, l.pc.rank lg ≤ n → (∀ i, l.pc = .link i true → i < lg) →
      Acc (fun l' l => ∃ g g', (initMachine C P lg n2).step l g l' g') l := by
    intro n
    induction n with
    | zero =>
      intro l hn hx
      constructor
      rintro l' ⟨g, g', hs⟩
      rcases initRank hs with h | ⟨i, h1, h2⟩
      · omega
      · have := hx i h1; omega
    | succ n ih =>
      intro l hn hx
      constructor
      rintro l' ⟨g, g', hs⟩
      rcases initRank hs with h | ⟨i, h1, h2⟩
      · refine ih l' (by omega) (fun i hi => ?_)
        obtain ⟨tid, pc⟩ := l
        cases pc with
        | start => simp only [initMachine, initNext, Option.some.injEq, Prod.mk.injEq] at hs; rw [← hs.1] at hi; cases hi
        | dec k =>
          simp only [initMachine, initNext, Option.some.injEq, Prod.mk.injEq] at hs
          rw [← hs.1] at hi; dsimp only at hi; split at hi <;> cases hi
        | reset k => simp only [initMachine, initNext, Option.some.injEq, Prod.mk.injEq] at hs; rw [← hs.1] at hi; cases hi
        | raise k =>
          simp only [initMachine, initNext, Option.some.injEq, Prod.mk.injEq] at hs
          rw [← hs.1] at hi; dsimp only [initAfter] at hi; split at hi <;> cases hi
        | spin k =>
          simp only [initMachine, initNext] at hs
          split at hs
          · cases hs
          · simp only [Option.some.injEq, Prod.mk.injEq] at hs
            rw [← hs.1] at hi; dsimp only [initAfter] at hi; split at hi <;> cases hi
        | map1 => simp only [initMachine, initNext, Option.some.injEq, Prod.mk.injEq] at hs; rw [← hs.1] at hi; cases hi
        | map2 =>
          simp only [initMachine, initNext, Option.some.injEq, Prod.mk.injEq] at hs
          rw [← hs.1] at hi; dsimp only at hi; split at hi <;> cases hi
        | link k ps =>
          cases ps with
          | false =>
            simp only [initMachine, initNext] at hs
            split at hs
            · next hlt =>
              simp only [Option.some.injEq, Prod.mk.injEq] at hs
              rw [← hs.1] at hi
              injection hi with hi
              omega
            · simp only [Option.some.injEq, Prod.mk.injEq] at hs
              rw [← hs.1] at hi; cases hi
          | true => simp only [initMachine, initNext, Option.some.injEq, Prod.mk.injEq] at hs; rw [← hs.1] at hi; cases hi
        | done => simp only [initMachine, initNext] at hs; cases hs
      · have := hx i h1; omega
  by_cases hx : ∀ i, l.pc = .link i true → i < lg
  · exact key _ l (Nat.le_refl _) hx
  · constructor
    rintro l' ⟨g, g', hs⟩
    refine key _ l' (Nat.le_refl _) ?_
    have : ∃ i, l.pc = .link i true := by
      apply Classical.byContradiction
      intro hc
      exact hx (fun i hi => absurd ⟨i, hi⟩ hc)
    obtain ⟨i, hi⟩ := this
    obtain ⟨tid, pc⟩ := l
    subst hi
    simp only [initMachine, initNext, Option.some.injEq, Prod.mk.injEq] at hs
    intro j hj
    rw [← hs.1] at hj
    cases hj

theorem toI8_of_lt {n : Nat} (h : n < 128) : toI8 n = n := by unfold toI8; omega

/-- The partner number of virtual core `x`. -/
theorem linkTarget_nat (x i : Nat) : linkTarget n2 (x : Int) i = ((x + 2 ^ i) % n2 : Nat) := by
  unfold linkTarget
  rw [show ((x : Int) + 2 ^ i) = ((x + 2 ^ i : Nat) : Int) from by push_cast; rfl]
  exact (Int.ofNat_tmod _ _).symm

theorem ptrOk_of {g : InitG} {x i : Nat} (hx : x < n2) (hn : n2 ≤ C + C)
    (hc : ∀ c, c < C → ∃ r, g.cores c = some r ∧ (c + C < n2 → r.pseudo.isSome = true)) :
    ptrOk C g (linkPtr C (x : Int) i) := by
  unfold linkPtr
  by_cases h : (x : Int) < C
  · rw [if_pos h]
    have h' : x < C := by omega
    obtain ⟨r, hr, _⟩ := hc x h'
    refine ⟨Int.natCast_nonneg _, h, r, ?_, fun hh => by cases hh⟩
    show g.cores (x : Int).toNat = _
    rw [Int.toNat_natCast]; exact hr
  · rw [if_neg h]
    have h' : C ≤ x := by omega
    obtain ⟨r, hr, hps⟩ := hc (x - C) (by omega)
    refine ⟨by show (0 : Int) ≤ x - C; omega, by show (x : Int) - C < C; omega, r, ?_, fun _ => hps (by omega)⟩
    show g.cores ((x : Int) - C).toNat = _
    rw [show ((x : Int) - C).toNat = x - C from by omega]; exact hr

theorem InitInv.published {ls : Nat → InitL} {g : InitG} (h : InitInv C P lg n2 ls g) {t : Nat} (ht : t < C * P)
    (hP : 0 < P) (h1 : 1 ≤ (ls t).pc.d) (h2 : (ls t).pc.plain = true) (h3 : ∀ i, (ls t).pc ≠ .spin i) :
    ∀ c, c < C → ∃ r, g.cores c = some r ∧ (c + C < n2 → r.pseudo.isSome = true) := by
  intro c hc
  have := h.ph.all_dec (j := 1) ht h1 (fun i hi => absurd hi (h3 i)) h2 (c * P) (Nat.mul_lt_mul_of_pos_right hc hP)
  have hne : (ls (c * P)).pc ≠ .start := by
    intro he
    have : 1 ≤ (ls (c * P)).pc.d := this
    rw [he] at this
    exact absurd this (by decide)
  refine ⟨_, by rw [h.cores c hc, if_neg hne], fun hps => ?_⟩
  show (if c + C < n2 then _ else _ : Option InitSide).isSome = true
  rw [if_pos hps]; rfl

theorem InitInv.not_bad {ls : Nat → InitL} {g : InitG} (h : InitInv C P lg n2 ls g) (hP : 0 < P)
    (hn0 : 0 < n2) (hn : n2 ≤ C + C) (h8 : n2 ≤ 128 ∨ n2 ≤ C) {t : Nat} (ht : t < C * P) :
    ¬ initBad C P lg n2 (ls t) g := by
  have htid := h.tid t ht
  have hwf := h.wf t ht
  cases hl : ls t with
  | mk tid pc =>
  rw [hl] at htid hwf
  have htid : tid = t := htid
  subst htid
  have hpub := h.published ht hP
  rw [hl] at hpub
  have hpc : (fun u => (ls u).pc) tid = pc := by show (ls tid).pc = pc; rw [hl]
  cases pc with
  | start => exact fun hb => hb (core_of ht)
  | dec k =>
    intro hb
    have hb : g.waiting = 0 := hb
    have := (h.ph.dec ht hpc).2.1
    omega
  | reset k => exact fun hb => hb
  | raise k => exact fun hb => hb
  | spin k => exact fun hb => hb
  | map1 =>
    intro hb
    obtain ⟨r, hr, _⟩ := hpub (Nat.le_refl _) rfl (fun i hh => by cases hh) (tid / P) (core_of ht)
    have hb : g.cores (tid / P) = none := hb
    rw [hr] at hb; cases hb
  | map2 => exact fun hb => hb
  | link i ps =>
    have hp := hpub (Nat.le_refl _) rfl (fun i hh => by cases hh)
    obtain ⟨r, hr, _⟩ := hp (tid / P) (core_of ht)
    cases ps with
    | false =>
      rintro (hb | ⟨_, hb⟩)
      · have hb : g.cores (tid / P) = none := hb
        rw [hr] at hb; cases hb
      · refine hb ?_
        rw [linkTarget_nat]
        exact ptrOk_of (Nat.mod_lt _ hn0) hn hp
    | true =>
      intro hb
      have h0 : tid % P = 0 := of_decide_eq_true hwf.1
      have hc := h.cores (tid / P) (core_of ht)
      rw [← leader_core h0, hl, if_neg (fun hh => by cases hh)] at hc
      obtain ⟨s, hs, hno⟩ := hb _ hc
      have hs : (if tid / P + C < n2 then some (sideAt C lg n2 (tid / P + C) (toI8 (tid / P + C)) i) else none) =
        some s := hs
      split at hs
      · next hlt =>
        injection hs with hs
        subst hs
        refine hno ?_
        show ptrOk C g (linkPtr C (linkTarget n2 (toI8 (tid / P + C)) i) i)
        have hq : tid / P + C < 128 := by generalize tid / P = q at hlt; omega
        rw [toI8_of_lt hq, linkTarget_nat]
        exact ptrOk_of (Nat.mod_lt _ hn0) hn hp
      · cases hs
  | done => exact fun hb => hb

theorem InitInv.progress {ls : Nat → InitL} {g : InitG} (h : InitInv C P lg n2 ls g)
    (hno : ∀ t, t < C * P → initNext C P lg n2 (ls t) g = none) : ∀ t, t < C * P → (ls t).pc = .done := by
  refine h.ph.progress (fun t ht => ?_)
  have hn := hno t ht
  have hwf := h.wf t ht
  cases hl : ls t with
  | mk tid pc =>
  rw [hl] at hn hwf
  cases pc with
  | spin k =>
    simp only [initNext] at hn
    split at hn
    · next e => subst e; exact .inr ⟨rfl, hwf⟩
    · cases hn
  | done => exact .inl rfl
  | link i ps =>
    cases ps with
    | false =>
      simp only [initNext] at hn
      split at hn <;> cases hn
    | true => simp only [initNext] at hn; cases hn
  | _ => simp only [initNext] at hn; cases hn

/-- When a thread has returned, all tables are complete. -/
theorem InitInv.complete {ls : Nat → InitL} {g : InitG} (h : InitInv C P lg n2 ls g) (hP : 0 < P) {t : Nat}
    (ht : t < C * P) (hd : (ls t).pc = .done) :
    (∀ c, c < C → g.cores c = some (coreAt C P lg n2 c lg lg)) ∧
    (∀ u, u < C * P → g.threadCores u = some (u / P) ∧ g.coreTids u = some (toI8 (u % P))) := by
  have hall := h.ph.all_dec (j := 2) ht (by show 2 ≤ (ls t).pc.d; rw [hd]; exact Nat.le_refl 2)
    (fun i hi => by
      have hi : (ls t).pc = .spin i := hi
      rw [hd] at hi; cases hi) (by show (ls t).pc.plain = true; rw [hd]; rfl)
  have key : ∀ u, u < C * P → (ls u).pc ≠ .start ∧ (ls u).pc.sl lg = lg ∧ (ls u).pc.pl lg = lg ∧
      (ls u).pc.m1 = true ∧ (ls u).pc.m2 = true := by
    intro u hu
    have h2 : 2 ≤ (ls u).pc.d := hall u hu
    have hw := h.wf u hu
    cases hpc : (ls u).pc with
    | start => rw [hpc] at h2; exact absurd h2 (by decide)
    | dec k =>
      rw [hpc] at h2 hw
      have h2 : 2 ≤ k := h2
      have hw : k < 2 := hw
      omega
    | reset k =>
      rw [hpc] at h2 hw
      have h2 : 2 ≤ k + 1 := h2
      have hw : k < 2 := hw
      have : k = 1 := by omega
      subst this
      exact ⟨(fun hh => by cases hh), rfl, rfl, rfl, rfl⟩
    | raise k =>
      rw [hpc] at h2 hw
      have h2 : 2 ≤ k + 1 := h2
      have hw : k < 2 := hw
      have : k = 1 := by omega
      subst this
      exact ⟨(fun hh => by cases hh), rfl, rfl, rfl, rfl⟩
    | spin k =>
      rw [hpc] at h2 hw
      have h2 : 2 ≤ k + 1 := h2
      have hw : k < 2 := hw
      have : k = 1 := by omega
      subst this
      exact ⟨(fun hh => by cases hh), rfl, rfl, rfl, rfl⟩
    | map1 => rw [hpc] at h2; exact absurd h2 (by decide)
    | map2 => rw [hpc] at h2; exact absurd h2 (by decide)
    | link i ps =>
      rw [hpc] at h2
      have h2 : 2 ≤ 1 := h2
      omega
    | done => exact ⟨(fun hh => by cases hh), rfl, rfl, rfl, rfl⟩
  refine ⟨fun c hc => ?_, fun u hu => ?_⟩
  · obtain ⟨a, b, d, _⟩ := key (c * P) (Nat.mul_lt_mul_of_pos_right hc hP)
    rw [h.cores c hc, if_neg a, b, d]
  · obtain ⟨_, _, _, a, b⟩ := key u hu
    rw [h.tc u hu, h.ct u hu, a, b]
    exact ⟨rfl, rfl⟩

end SpMP
