import Verif.Bucket
import Verif.CompUnion
/-
Teams whose threads write cells of their own, read cells nobody writes, and append to shared buckets (atomic counter, then a store
into the reserved slot). A thread is reasoned about with its own view of memory and the list of its appends. Models no particular
function.
-/

namespace SpMP
open Spec

variable {R : Type}

/-- A team: buckets `c < M` with counters `itmp jc` and (when `slots`) slots from cell `Sl c` of `itmp js`; `items t` is what thread
`t` appends; `Own t` are the cells of thread `t`, `Const` the cells nobody writes; `m0` is the memory at the start. -/
structure BkEnv (R : Type) where
  sz : CArr → Int
  T : Nat
  jc : Nat
  js : Nat
  M : Nat
  slots : Bool
  Sl : Nat → Nat
  items : Nat → List (Nat × Nat)
  m0 : Mem (CTy R)
  Own : Nat → CArr → Int → Prop
  Const : CArr → Int → Prop

/-- Append `x` to list `c` of a team: `l = __sync_fetch_and_add(&cnt[c], 1); assert(...); buf[ptr[c] + l] = x` with the counters in
`itmp jc`, the starts in `itmp jp` and the buffer in `itmp js`. -/
def bkAppend (jc jp js : Nat) (chk : Bool) (bnd c x : Int) : Prog (CTy R) Unit := do
  let l ← Prog.atomic (ty := CTy R) (.itmp jc) c (fun v => ((v : Int) + 1 : Int))
  let p ← Prog.read (ty := CTy R) (.itmp jp) c
  let _ ← (if chk then Prog.assert (0 ≤ (p : Int) + (l : Int) ∧ (p : Int) + (l : Int) < bnd) else pure () : Prog (CTy R) Unit)
  Prog.write (ty := CTy R) (.itmp js) ((p : Int) + (l : Int)) x

namespace BkEnv

variable (E : BkEnv R)

def Ctr (a : CArr) (i : Int) : Prop := a = .itmp E.jc ∧ ∃ c : Nat, c < E.M ∧ i = (c : Int) + (0 : Nat)

def Slot (a : CArr) (i : Int) : Prop :=
  E.slots = true ∧ a = .itmp E.js ∧ ∃ c s : Nat, c < E.M ∧ s < bkN E.T E.items c ∧ i = (E.Sl c : Int) + (0 : Nat) + s

structure Ok : Prop where
  disj : ∀ t u a i, t < E.T → u < E.T → t ≠ u → E.Own t a i → ¬ E.Own u a i
  own_ctr : ∀ t a i, t < E.T → E.Own t a i → ¬ E.Ctr a i
  own_slot : ∀ t a i, t < E.T → E.Own t a i → ¬ E.Slot a i
  con_own : ∀ t a i, t < E.T → E.Const a i → ¬ E.Own t a i
  con_ctr : ∀ a i, E.Const a i → ¬ E.Ctr a i
  con_slot : ∀ a i, E.Const a i → ¬ E.Slot a i
  ne : E.slots = true → E.jc ≠ E.js
  dis : E.slots = true → SlotsDisj E.M E.Sl (fun _ => 0) (bkN E.T E.items)
  inM : ∀ t, t < E.T → ∀ x ∈ E.items t, x.1 < E.M
  room : E.slots = true → ∀ c s : Nat, c < E.M → s < bkN E.T E.items c → (E.Sl c : Int) + s < E.sz (.itmp E.js)
  ctrsz : (E.M : Int) ≤ E.sz (.itmp E.jc)
  zero : ∀ c : Nat, c < E.M → E.m0 (.itmp E.jc) (c : Int) = some (0 : Int)

open Classical in
/-- Memory with the threads' own cells reset. -/
noncomputable def mask (m : Mem (CTy R)) : Mem (CTy R) := fun a i => if ∃ t, t < E.T ∧ E.Own t a i then E.m0 a i else m a i

def Inv (g : Bk) (m : Mem (CTy R)) : Prop := BkInv E.T E.jc 0 E.js E.M E.slots (fun _ => 0) E.Sl E.items E.m0 g (E.mask m)

def Rely (t : Nat) (g : Bk) (m : Mem (CTy R)) (g' : Bk) (m' : Mem (CTy R)) : Prop :=
  BkRely t g g' ∧ ∀ a i, E.Own t a i → m' a i = m a i

def Guar (t : Nat) (g : Bk) (m : Mem (CTy R)) (g' : Bk) (m' : Mem (CTy R)) : Prop :=
  BkGuar t g g' ∧ ∀ u, u < E.T → u ≠ t → ∀ a i, E.Own u a i → m' a i = m a i

/-- `m1` is thread `t`'s view of `m`. -/
def Agree (t : Nat) (m m1 : Mem (CTy R)) : Prop := ∀ a i, E.Own t a i ∨ E.Const a i → m a i = m1 a i

/-- Thread `t`, with view `m1` and having appended `L`. -/
def LB {α : Type} (t : Nat) (p : Prog (CTy R) α) (m1 : Mem (CTy R)) (L : List (Nat × Nat)) (Q : α → Mem (CTy R) → List (Nat × Nat) → Prop) : Prop :=
  ∀ g m, E.Inv g m → E.Agree t m m1 → g.of t = L → g.pend t = none →
    wpRG E.sz E.Inv (E.Rely t) (E.Guar t) p g m
      (fun a g' m' => ∃ m1' L', E.Agree t m' m1' ∧ g'.of t = L' ∧ g'.pend t = none ∧ Q a m1' L')

variable {E}

theorem mask_eq {m : Mem (CTy R)} {a : CArr} {i : Int} (h : ¬ ∃ t, t < E.T ∧ E.Own t a i) : E.mask m a i = m a i := by
  unfold mask; rw [if_neg h]

theorem mask_own {m : Mem (CTy R)} {a : CArr} {i : Int} {t : Nat} (ht : t < E.T) (h : E.Own t a i) : E.mask m a i = E.m0 a i := by
  unfold mask; rw [if_pos ⟨t, ht, h⟩]

theorem mask_init : E.mask E.m0 = E.m0 := by
  funext a i; unfold mask; split <;> rfl

theorem mask_set_own {m : Mem (CTy R)} {a : CArr} {i : Int} {v : CTy R a} {t : Nat} (ht : t < E.T) (h : E.Own t a i) :
    E.mask (m.set a i v) = E.mask m := by
  funext b j
  by_cases hb : ∃ t, t < E.T ∧ E.Own t b j
  · unfold mask; rw [if_pos hb, if_pos hb]
  · rw [mask_eq hb, mask_eq hb]
    by_cases hab : b = a
    · subst hab
      rw [Mem.get_ne _ _ _ _ _ (by rintro rfl; exact hb ⟨t, ht, h⟩)]
    · exact congrFun (Mem.set_other _ _ _ _ _ hab) _

theorem mask_set {m : Mem (CTy R)} {a : CArr} {i : Int} {v : CTy R a} (h : ¬ ∃ t, t < E.T ∧ E.Own t a i) :
    E.mask (m.set a i v) = (E.mask m).set a i v := by
  funext b j
  by_cases hab : b = a
  · subst hab
    by_cases hij : j = i
    · subst hij; rw [mask_eq h, Mem.get_same, Mem.get_same]
    · rw [Mem.get_ne _ _ _ _ _ hij]
      by_cases hb : ∃ t, t < E.T ∧ E.Own t b j
      · unfold mask; rw [if_pos hb, if_pos hb]
      · rw [mask_eq hb, mask_eq hb, Mem.get_ne _ _ _ _ _ hij]
  · rw [congrFun (Mem.set_other _ _ _ _ _ hab) j]
    by_cases hb : ∃ t, t < E.T ∧ E.Own t b j
    · unfold mask; rw [if_pos hb, if_pos hb]
    · rw [mask_eq hb, mask_eq hb]; exact congrFun (Mem.set_other _ _ _ _ _ hab) _

theorem Rely.refl (t : Nat) (g : Bk) (m : Mem (CTy R)) : E.Rely t g m g m := ⟨BkRely.refl t g, fun _ _ _ => rfl⟩

theorem Rely.trans {t : Nat} {g1 g2 g3 : Bk} {m1 m2 m3 : Mem (CTy R)} (h1 : E.Rely t g1 m1 g2 m2) (h2 : E.Rely t g2 m2 g3 m3) :
    E.Rely t g1 m1 g3 m3 := ⟨h1.1.trans h2.1, fun a i h => (h2.2 a i h).trans (h1.2 a i h)⟩

theorem Guar.refl (t : Nat) (g : Bk) (m : Mem (CTy R)) : E.Guar t g m g m := ⟨BkGuar.refl t g, fun _ _ _ _ _ _ => rfl⟩

variable (hE : E.Ok)
include hE

theorem Inv.const {g : Bk} {m : Mem (CTy R)} (hI : E.Inv g m) {a : CArr} {i : Int} (h : E.Const a i) : m a i = E.m0 a i := by
  rw [← hI.frame a i (hE.con_ctr a i h) (hE.con_slot a i h), mask_eq]
  rintro ⟨t, ht, ho⟩
  exact hE.con_own t a i ht h ho

theorem Agree.rely {t : Nat} {g g' : Bk} {m m' m1 : Mem (CTy R)} (hI : E.Inv g m) (hI' : E.Inv g' m') (h : E.Agree t m m1)
    (hr : E.Rely t g m g' m') : E.Agree t m' m1 := by
  intro a i hh
  rcases hh with ho | hc
  · rw [hr.2 a i ho]; exact h a i (Or.inl ho)
  · rw [← h a i (Or.inr hc), Inv.const hE hI hc, Inv.const hE hI' hc]

section
variable {α β σ : Type} {t : Nat}

omit hE in
theorem LB_mono {p : Prog (CTy R) α} {m1 : Mem (CTy R)} {L : List (Nat × Nat)} {Q Q' : α → Mem (CTy R) → List (Nat × Nat) → Prop}
    (h : E.LB t p m1 L Q) (hq : ∀ a m L, Q a m L → Q' a m L) : E.LB t p m1 L Q' := by
  intro g m h1 h2 h3 h4
  refine wpRG_mono (h g m h1 h2 h3 h4) ?_
  rintro a g' m' _ ⟨m1', L', q1, q2, q3, q4⟩
  exact ⟨m1', L', q1, q2, q3, hq _ _ _ q4⟩

omit hE in
theorem LB_bind {p : Prog (CTy R) α} {f : α → Prog (CTy R) β} {m1 : Mem (CTy R)} {L : List (Nat × Nat)}
    {Q : β → Mem (CTy R) → List (Nat × Nat) → Prop} (h : E.LB t p m1 L (fun a m1 L => E.LB t (f a) m1 L Q)) : E.LB t (p >>= f) m1 L Q := by
  intro g m h1 h2 h3 h4
  refine wpRG_bind (fun g m => Rely.refl t g m) (fun _ _ _ _ _ _ => Rely.trans) h1 ?_
  refine wpRG_mono (h g m h1 h2 h3 h4) ?_
  rintro a g' m' hI ⟨m1', L', q1, q2, q3, q4⟩
  exact q4 g' m' hI q1 q2 q3

/-- A piece of program that touches only the thread's own cells and reads constant cells. -/
theorem LB_local (ht : t < E.T) {p : Prog (CTy R) α} {L : List (Nat × Nat)} {Q : α → Mem (CTy R) → List (Nat × Nat) → Prop} :
    ∀ {m1 : Mem (CTy R)}, wp E.sz (E.Own t) (fun a i => E.Own t a i ∨ E.Const a i) p m1 (fun a m1' => Q a m1' L) → E.LB t p m1 L Q := by
  have hset : ∀ {g : Bk} {m m1 : Mem (CTy R)} {a : CArr} {i : Int} {v : CTy R a}, E.Inv g m → E.Agree t m m1 → E.Own t a i →
      E.Guar t g m g (m.set a i v) ∧ E.Inv g (m.set a i v) ∧ E.Agree t (m.set a i v) (m1.set a i v) := by
    intro g m m1 a i v hI hA ho
    refine ⟨⟨BkGuar.refl t g, ?_⟩, ?_, ?_⟩
    · intro u hu hut b j hb
      by_cases hab : b = a
      · subst hab
        rw [Mem.get_ne _ _ _ _ _ (by rintro rfl; exact hE.disj t u b j ht hu (Ne.symm hut) ho hb)]
      · exact congrFun (Mem.set_other _ _ _ _ _ hab) _
    · show BkInv _ _ _ _ _ _ _ _ _ _ _ _
      rw [mask_set_own ht ho]; exact hI
    · intro b j hb
      by_cases hab : b = a
      · subst hab
        by_cases hij : j = i
        · subst hij; rw [Mem.get_same, Mem.get_same]
        · rw [Mem.get_ne _ _ _ _ _ hij, Mem.get_ne _ _ _ _ _ hij]; exact hA b j hb
      · rw [congrFun (Mem.set_other _ _ _ _ _ hab) j, congrFun (Mem.set_other _ _ _ _ _ hab) j]; exact hA b j hb
  induction p with
  | ret a =>
    intro m1 h g m h1 h2 h3 h4 g' m' hr hI'
    rw [wp_ret] at h
    exact ⟨m1, L, Agree.rely hE h1 hI' h2 hr, hr.1.1.trans h3, hr.1.2.1.trans h4, h⟩
  | rd a i k ih =>
    intro m1 h g m h1 h2 h3 h4 g' m' hr hI'
    unfold wp at h
    obtain ⟨q1, v, q2, q3⟩ := h
    have hA := Agree.rely hE h1 hI' h2 hr
    refine ⟨v, by rw [hA a i q1]; exact q2, g', Guar.refl t g' m', hI', ?_⟩
    exact ih v q3 g' m' hI' hA (hr.1.1.trans h3) (hr.1.2.1.trans h4)
  | wr a i v k ih =>
    intro m1 h g m h1 h2 h3 h4 g' m' hr hI'
    unfold wp at h
    obtain ⟨q1, q2, q3, q4⟩ := h
    obtain ⟨s1, s2, s3⟩ := hset (v := v) hI' (Agree.rely hE h1 hI' h2 hr) q1
    exact ⟨q2, q3, g', s1, s2, ih q4 g' _ s2 s3 (hr.1.1.trans h3) (hr.1.2.1.trans h4)⟩
  | rmw a i f k ih =>
    intro m1 h g m h1 h2 h3 h4 g' m' hr hI'
    unfold wp at h
    obtain ⟨q0, q2, q3, q1, v, q4, q5⟩ := h
    have hA := Agree.rely hE h1 hI' h2 hr
    obtain ⟨s1, s2, s3⟩ := hset (v := f v) hI' hA q0
    refine ⟨q2, q3, v, by rw [hA a i (Or.inl q0)]; exact q4, g', s1, s2, ?_⟩
    exact ih v q5 g' _ s2 s3 (hr.1.1.trans h3) (hr.1.2.1.trans h4)
  | fail => intro m1 h; unfold wp at h; exact h.elim

theorem LB_pure (ht : t < E.T) {a : α} {m1 : Mem (CTy R)} {L : List (Nat × Nat)} {Q : α → Mem (CTy R) → List (Nat × Nat) → Prop}
    (h : Q a m1 L) : E.LB t (pure a) m1 L Q := LB_local hE ht (wp_pure.2 h)

/-- A local piece followed by more. -/
theorem LB_seq (ht : t < E.T) {p : Prog (CTy R) α} {f : α → Prog (CTy R) β} {m1 : Mem (CTy R)} {L : List (Nat × Nat)}
    {Q : β → Mem (CTy R) → List (Nat × Nat) → Prop}
    (h : wp E.sz (E.Own t) (fun a i => E.Own t a i ∨ E.Const a i) p m1 (fun a m1' => E.LB t (f a) m1' L Q)) :
    E.LB t (p >>= f) m1 L Q := LB_bind (LB_local hE ht h)

theorem LB_rd (ht : t < E.T) {a : CArr} {i : Int} (v : CTy R a) {f : CTy R a → Prog (CTy R) β} {m1 : Mem (CTy R)} {L : List (Nat × Nat)}
    {Q : β → Mem (CTy R) → List (Nat × Nat) → Prop} (h1 : E.Own t a i ∨ E.Const a i) (h2 : m1 a i = some v)
    (h : E.LB t (f v) m1 L Q) : E.LB t (Prog.read a i >>= f) m1 L Q :=
  LB_seq hE ht (wp_read.2 ⟨h1, v, h2, h⟩)

theorem LB_wr (ht : t < E.T) {a : CArr} {i : Int} {v : CTy R a} {f : Unit → Prog (CTy R) β} {m1 : Mem (CTy R)} {L : List (Nat × Nat)}
    {Q : β → Mem (CTy R) → List (Nat × Nat) → Prop} (h1 : E.Own t a i) (h2 : 0 ≤ i ∧ i < E.sz a)
    (h : E.LB t (f ()) (m1.set a i v) L Q) : E.LB t (Prog.write a i v >>= f) m1 L Q :=
  LB_seq hE ht (wp_write.2 ⟨h1, h2.1, h2.2, h⟩)

theorem LB_assert (ht : t < E.T) {c : Prop} [Decidable c] {f : Unit → Prog (CTy R) β} {m1 : Mem (CTy R)} {L : List (Nat × Nat)}
    {Q : β → Mem (CTy R) → List (Nat × Nat) → Prop} (h1 : c) (h : E.LB t (f ()) m1 L Q) : E.LB t (Prog.assert c >>= f) m1 L Q :=
  LB_seq hE ht (wp_assert.2 ⟨h1, h⟩)

theorem LB_loopUp (ht : t < E.T) {body : Int → σ → Prog (CTy R) σ} (I : Int → σ → Mem (CTy R) → List (Nat × Nat) → Prop) (n : Nat) :
    ∀ (lo : Int) (s : σ) (m1 : Mem (CTy R)) (L : List (Nat × Nat)) {Q : σ → Mem (CTy R) → List (Nat × Nat) → Prop}, I lo s m1 L →
      (∀ i s m1 L, lo ≤ i → i < lo + n → I i s m1 L → E.LB t (body i s) m1 L (fun s' m' L' => I (i + 1) s' m' L')) →
      (∀ s m L, I (lo + n) s m L → Q s m L) → E.LB t (Prog.loopUp body n lo s) m1 L Q := by
  induction n with
  | zero =>
    intro lo s m1 L Q h0 _ hQ
    exact LB_pure hE ht (hQ _ _ _ (by simpa using h0))
  | succ n ih =>
    intro lo s m1 L Q h0 hstep hQ
    refine LB_bind (LB_mono (hstep lo s m1 L (Int.le_refl _) (by omega) h0) ?_)
    intro s' m' L' h'
    refine ih (lo + 1) s' m' L' h' ?_ ?_
    · intro i s m L h1 h2 h; exact hstep i s m L (by omega) (by push_cast; omega) h
    · intro s m L h; refine hQ s m L ?_
      rwa [show lo + ((n + 1 : Nat) : Int) = lo + 1 + n by push_cast; omega]

theorem LB_forUp (ht : t < E.T) {lo hi : Int} {s : σ} {body : Int → σ → Prog (CTy R) σ} {m1 : Mem (CTy R)} {L : List (Nat × Nat)}
    {Q : σ → Mem (CTy R) → List (Nat × Nat) → Prop} (I : Int → σ → Mem (CTy R) → List (Nat × Nat) → Prop) (h0 : I lo s m1 L)
    (hstep : ∀ i s m1 L, lo ≤ i → i < hi → I i s m1 L → E.LB t (body i s) m1 L (fun s' m' L' => I (i + 1) s' m' L'))
    (hQ : ∀ s m L, I (max lo hi) s m L → Q s m L) : E.LB t (Prog.forUp lo hi s body) m1 L Q := by
  unfold Prog.forUp
  refine LB_loopUp hE ht I _ lo s m1 L h0 ?_ ?_
  · intro i s m L h1 h2 h; exact hstep i s m L h1 (by omega) h
  · intro s m L h; refine hQ s m L ?_
    rwa [show lo + ((hi - lo).toNat : Int) = max lo hi by omega] at h

/-- Counting an item: the atomic increment (buckets without slots). -/
theorem LB_count (ht : t < E.T) (hs : E.slots = false) {c x : Nat} {L : List (Nat × Nat)} (hpre : L ++ [(c, x)] <+: E.items t)
    {f : CTy R (.itmp E.jc) → Prog (CTy R) β} {F : CTy R (.itmp E.jc) → CTy R (.itmp E.jc)} (hF : ∀ v : Int, F v = (v + 1 : Int))
    {m1 : Mem (CTy R)} {Q : β → Mem (CTy R) → List (Nat × Nat) → Prop} (h : ∀ v, E.LB t (f v) m1 (L ++ [(c, x)]) Q) :
    E.LB t (Prog.atomic (ty := CTy R) (.itmp E.jc) (c : Int) F >>= f) m1 L Q := by
  intro g m h1 h2 h3 h4 g' m' hr hI'
  have hc : c < E.M := hE.inM t ht (c, x) (hpre.subset (by simp))
  have hctr : E.Ctr (.itmp E.jc) (c : Int) := ⟨rfl, c, hc, by simp⟩
  have hno : ¬ ∃ u, u < E.T ∧ E.Own u (.itmp E.jc) (c : Int) := by rintro ⟨u, hu, ho⟩; exact hE.own_ctr u _ _ hu ho hctr
  have hof : g'.of t = L := hr.1.1.trans h3
  have hpd : g'.pend t = none := hr.1.2.1.trans h4
  have hct := hI'.ctr c hc
  have hn := BkInv.reserve hI' hE.ne ht hc (by rw [hof]; exact hpre) hpd
  simp only [Nat.cast_zero, Int.add_zero, Int.zero_add] at hct hn
  rw [mask_eq hno] at hct
  have hsz := hE.ctrsz
  refine ⟨by omega, by omega, _, hct, g'.push t (c, x) E.slots, ⟨Bk.push_guar _ _ _ _, ?_⟩, ?_, ?_⟩
  · intro u hu hut a i ho
    by_cases ha : a = .itmp E.jc
    · subst ha
      rw [Mem.get_ne _ _ _ _ _ (by rintro rfl; exact hno ⟨u, hu, ho⟩)]
    · exact congrFun (Mem.set_other _ _ _ _ _ ha) _
  · show BkInv _ _ _ _ _ _ _ _ _ _ _ _
    rw [mask_set hno, hF]; exact hn
  · refine h _ _ _ ?_ ?_ ?_ ?_
    · show BkInv _ _ _ _ _ _ _ _ _ _ _ _
      rw [mask_set hno, hF]; exact hn
    · intro a i hh
      rw [← Agree.rely hE h1 hI' h2 hr a i hh]
      by_cases ha : a = .itmp E.jc
      · subst ha
        refine Mem.get_ne _ _ _ _ _ ?_
        rintro rfl
        rcases hh with ho | hcn
        · exact hno ⟨t, ht, ho⟩
        · exact hE.con_ctr _ _ hcn hctr
      · exact congrFun (Mem.set_other _ _ _ _ _ ha) _
    · rw [Bk.push_of, if_pos rfl, hof]
    · unfold Bk.push
      dsimp only
      rw [if_neg (by simp [hs])]; exact hpd

/-- Appending an item: reserve the slot, read the start of the bucket, store. -/
theorem LB_append (ht : t < E.T) (hs : E.slots = true) {jp c x : Nat} {L : List (Nat × Nat)} (hpre : L ++ [(c, x)] <+: E.items t)
    {chk : Bool} {bnd : Int} (hb : chk = true → bnd = E.sz (.itmp E.js)) {m1 : Mem (CTy R)}
    (hp : E.Const (.itmp jp) (c : Int)) (hpv : m1 (.itmp jp) (c : Int) = some (E.Sl c : Int))
    {Q : Unit → Mem (CTy R) → List (Nat × Nat) → Prop} (h : Q () m1 (L ++ [(c, x)])) :
    E.LB t (bkAppend E.jc jp E.js chk bnd (c : Int) (x : Int)) m1 L Q := by
  intro g m h1 h2 h3 h4 g' m' hr hI'
  have hA' := Agree.rely hE h1 hI' h2 hr
  have hc : c < E.M := hE.inM t ht (c, x) (hpre.subset (by simp))
  have hctr : E.Ctr (.itmp E.jc) (c : Int) := ⟨rfl, c, hc, by simp⟩
  have hno : ¬ ∃ u, u < E.T ∧ E.Own u (.itmp E.jc) (c : Int) := by rintro ⟨u, hu, ho⟩; exact hE.own_ctr u _ _ hu ho hctr
  have hof : g'.of t = L := hr.1.1.trans h3
  have hpd : g'.pend t = none := hr.1.2.1.trans h4
  have hct := hI'.ctr c hc
  have hpre' : g'.of t ++ [(c, x)] <+: E.items t := by rw [hof]; exact hpre
  have hn := BkInv.reserve hI' hE.ne ht hc hpre' hpd
  have hroom := BkInv.room hI' ht hpre'
  simp only [Nat.cast_zero, Int.add_zero, Int.zero_add] at hct hn
  rw [mask_eq hno] at hct
  have hsz := hE.ctrsz
  rw [hs] at hn
  refine ⟨by omega, by omega, _, hct, g'.push t (c, x) true, ⟨Bk.push_guar _ _ _ _, ?_⟩, ?_, ?_⟩
  · intro u hu hut a i ho
    by_cases ha : a = .itmp E.jc
    · subst ha
      rw [Mem.get_ne _ _ _ _ _ (by rintro rfl; exact hno ⟨u, hu, ho⟩)]
    · exact congrFun (Mem.set_other _ _ _ _ _ ha) _
  · show BkInv _ _ _ _ _ _ _ _ _ _ _ _
    rw [mask_set hno, hs]; exact hn
  have hI1 : E.Inv (g'.push t (c, x) true) (m'.set (.itmp E.jc) (c : Int) (((g'.al.countP (inBk c) : Nat) : Int) + 1 : Int)) := by
    show BkInv _ _ _ _ _ _ _ _ _ _ _ _
    rw [mask_set hno, hs]; exact hn
  have hA1 : E.Agree t (m'.set (.itmp E.jc) (c : Int) (((g'.al.countP (inBk c) : Nat) : Int) + 1 : Int)) m1 := by
    intro a i hh
    rw [← hA' a i hh]
    by_cases ha : a = .itmp E.jc
    · subst ha
      refine Mem.get_ne _ _ _ _ _ ?_
      rintro rfl
      rcases hh with ho | hcn
      · exact hno ⟨t, ht, ho⟩
      · exact hE.con_ctr _ _ hcn hctr
    · exact congrFun (Mem.set_other _ _ _ _ _ ha) _
  intro g2 m2 hR2 hI2
  have hA2 := Agree.rely hE hI1 hI2 hA1 hR2
  refine ⟨(E.Sl c : Int), by rw [hA2 _ _ (Or.inr hp)]; exact hpv, g2, Guar.refl _ _ _, hI2, ?_⟩
  have hrm := hE.room hs c _ hc hroom
  have hslot : E.Slot (.itmp E.js) ((E.Sl c : Int) + (g'.al.countP (inBk c) : Nat)) := ⟨hs, rfl, c, _, hc, hroom, by simp⟩
  have hnos : ¬ ∃ u, u < E.T ∧ E.Own u (.itmp E.js) ((E.Sl c : Int) + (g'.al.countP (inBk c) : Nat)) := by
    rintro ⟨u, hu, ho⟩; exact hE.own_slot u _ _ hu ho hslot
  have key : wpRG E.sz E.Inv (E.Rely t) (E.Guar t)
      (Prog.write (ty := CTy R) (.itmp E.js) ((E.Sl c : Int) + ((g'.al.countP (inBk c) : Nat) : Int)) (x : Int)) g2 m2
      (fun a g' m' => ∃ m1' L', E.Agree t m' m1' ∧ g'.of t = L' ∧ g'.pend t = none ∧ Q a m1' L') := by
    intro g3 m3 hR3' hI3
    have hR3 : E.Rely t (g'.push t (c, x) true) _ g3 m3 := hR2.trans hR3'
    have hA3 := Agree.rely hE hI2 hI3 hA2 hR3'
    have hpl : g'.al.length < (g'.push t (c, x) true).al.length := by unfold Bk.push; simp
    have hpl3 : g'.al.length < g3.al.length := Nat.lt_of_lt_of_le hpl hR3.1.2.2.length_le
    have hg3 : g3.al[g'.al.length] = (t, (c, x)) := by
      rw [← hR3.1.2.2.getElem hpl]
      show (g'.al ++ [(t, (c, x))])[g'.al.length]'(by simp) = _
      simp
    have htk : g3.al.take g'.al.length = g'.al := by
      obtain ⟨r, hr⟩ := hR3.1.2.2
      rw [← hr]; unfold Bk.push; simp
    have hp3 : g3.pend t = some g'.al.length := by rw [hR3.1.2.1]; unfold Bk.push; simp
    have hI3' : BkInv E.T E.jc 0 E.js E.M true (fun _ => 0) E.Sl E.items E.m0 g3 (E.mask m3) := by rw [← hs]; exact hI3
    have hst := hI3'.store (hE.ne hs) (hE.dis hs) hE.inM hpl3 hp3 hg3
    rw [htk] at hst
    simp only [Nat.cast_zero, Int.add_zero] at hst
    have hst' : E.Inv ⟨g3.al, fun u => if u = t then none else g3.pend u⟩
        (m3.set (.itmp E.js) ((E.Sl c : Int) + (g'.al.countP (inBk c) : Nat)) (x : Int)) := by
      show BkInv _ _ _ _ _ _ _ _ _ _ _ _
      rw [mask_set hnos, hs]; exact hst
    have hA4 : E.Agree t (m3.set (.itmp E.js) ((E.Sl c : Int) + (g'.al.countP (inBk c) : Nat)) (x : Int)) m1 := by
      intro a i hh
      rw [← hA3 a i hh]
      by_cases ha : a = .itmp E.js
      · subst ha
        refine Mem.get_ne _ _ _ _ _ ?_
        rintro rfl
        rcases hh with ho | hcn
        · exact hnos ⟨t, ht, ho⟩
        · exact hE.con_slot _ _ hcn hslot
      · exact congrFun (Mem.set_other _ _ _ _ _ ha) _
    refine ⟨by omega, hrm, ⟨g3.al, fun u => if u = t then none else g3.pend u⟩, ⟨⟨fun u hu => ⟨rfl, ?_⟩, List.prefix_refl _⟩, ?_⟩, hst', ?_⟩
    · dsimp only; rw [if_neg hu]
    · intro u hu hut a i ho
      by_cases ha : a = .itmp E.js
      · subst ha
        rw [Mem.get_ne _ _ _ _ _ (by rintro rfl; exact hnos ⟨u, hu, ho⟩)]
      · exact congrFun (Mem.set_other _ _ _ _ _ ha) _
    · intro g4 m4 hR4 hI4
      refine ⟨m1, L ++ [(c, x)], Agree.rely hE hst' hI4 hA4 hR4, ?_, ?_, h⟩
      · rw [hR4.1.1]
        show g3.of t = _
        rw [hR3.1.1, Bk.push_of, if_pos rfl, hof]
      · rw [hR4.1.2.1]; simp
  cases chk with
  | false => exact key
  | true =>
    have hb' := hb rfl
    have hc1 : (0 : Int) ≤ (E.Sl c : Int) + ((g'.al.countP (inBk c) : Nat) : Int) ∧
      (E.Sl c : Int) + ((g'.al.countP (inBk c) : Nat) : Int) < bnd := ⟨by omega, by omega⟩
    exact wpRG_assert (f := fun _ => _) hc1 key

/-- The team. -/
theorem team {ts : Nat → Prog (CTy R) α} {Q : Nat → α → Mem (CTy R) → Prop}
    (h : ∀ t, t < E.T → E.LB t (ts t) E.m0 [] (fun a m1 L => L = E.items t ∧ Q t a m1)) :
    ParOk E.sz E.T (fun r m => BkDone E.T E.jc 0 E.js E.M E.slots (fun _ => 0) E.Sl E.items E.m0 (E.mask m) ∧
      ∀ t, t < E.T → ∃ m1, E.Agree t m m1 ∧ Q t (r t) m1) ts E.m0 := by
  have h0 : E.Inv ⟨[], fun _ => none⟩ E.m0 := by
    show BkInv _ _ _ _ _ _ _ _ _ _ _ _
    rw [mask_init]
    refine BkInv.init ?_
    intro c hc
    simp only [Nat.cast_zero, Int.add_zero]
    exact hE.zero c hc
  refine rg_rule E.Inv E.Rely E.Guar
    (fun t a g m => ∃ m1 L, E.Agree t m m1 ∧ g.of t = L ∧ g.pend t = none ∧ L = E.items t ∧ Q t a m1) ⟨[], fun _ => none⟩ h0
    (fun t g m => Rely.refl t g m) (fun t _ _ _ _ _ _ => Rely.trans) ?_ ?_ ?_
  · intro t u g m g' m' ht hu htu _ _ hG
    exact ⟨⟨(hG.1.1 u (Ne.symm htu)).1, (hG.1.1 u (Ne.symm htu)).2, hG.1.2⟩, fun a i ho => hG.2 u hu (Ne.symm htu) a i ho⟩
  · intro t ht
    exact h t ht _ _ h0 (fun _ _ _ => rfl) (by simp [Bk.of]) rfl
  · intro r g m hI hq
    refine ⟨BkInv.final hI ?_ ?_, ?_⟩
    · intro t ht; obtain ⟨m1, L, _, q2, _, q4, _⟩ := hq t ht; rw [q2, q4]
    · intro t ht; obtain ⟨m1, L, _, _, q3, _, _⟩ := hq t ht; exact q3
    · intro t ht; obtain ⟨m1, L, q1, _, _, _, q5⟩ := hq t ht; exact ⟨m1, q1, q5⟩

end

end BkEnv

end SpMP
