import Verif.ReduceProof
/-
Every step of the reducing barrier preserves the invariant of its episode.
-/

set_option linter.unusedSectionVars false

namespace SpMP
open Finset

section
variable {V : Type} [AddCommMonoid V] {C P n2 lg k : Nat} {inp : Nat → Nat → V}

theorem RedL.st_of_ne {l : RedL V} (h : l.pc ≠ .idle) : l.st k = l.pc := by
  unfold RedL.st; rw [if_neg (fun hh => h hh.1)]

theorem redRound_cases (lg i : Nat) : (redRound lg i = .val i 0 ∧ i < lg) ∨ (redRound lg i = .adjust 0 ∧ lg ≤ i) := by
  unfold redRound; split
  · exact Or.inl ⟨rfl, by assumption⟩
  · exact Or.inr ⟨rfl, by omega⟩

theorem flag_next {k p : Nat} (hp : p < 2) (h : p ≠ k % 2) : flagVal (k + 1) p = flagVal k p := by
  unfold flagVal; rw [decide_eq_decide]; omega

theorem flag_cur (k : Nat) : flagVal (k + 1) (k % 2) = decide ((k / 2) % 2 = 0) := by
  unfold flagVal; rw [decide_eq_decide]; omega

theorem flag_old (k : Nat) : flagVal k (k % 2) ≠ decide ((k / 2) % 2 = 0) := by
  unfold flagVal; rw [Ne, decide_eq_decide]; omega

theorem redPred_uniq {i x y : Nat} (hi : 2 ^ i ≤ n2) (hx : x < n2) (hy : y < n2) (h : (y + 2 ^ i) % n2 = x) :
    y = redPred n2 i x := by
  have h2 := redPred_succ hi hx
  refine add_mod_inj (C := n2) (x := 2 ^ i) hy (Nat.mod_lt _ (by omega)) ?_
  rw [h2, h]

/-- What is known about the stepping thread, in terms of its stage `s`. -/
structure RedT (C P n2 lg k : Nat) (inp : Nat → Nat → V) (o0 : Nat → Nat → V) (ls : Nat → RedL V) (g : RedG V)
    (t : Nat) (s : RedPc) : Prop where
  st : (ls t).st k = s
  tid : (ls t).tid = t
  calls : (ls t).calls = k + (if s = .idle then 0 else 1)
  rets : (ls t).rets = k + (if (ls t).pc = .idle ∧ s = .ret then 1 else 0)
  out : ∀ j, j ≠ k → (ls t).out j = o0 t j
  ok : redOk C P n2 lg t s
  senses : g.threadSenses t = decide ((k + b01 s.fl) % 2 = 0)
  trv : s ≠ .idle → g.threadRvals t = inp t k
  red0 : s = .flip → (ls t).red = inp t k
  red1 : ∀ i, (s = .gather i ∨ s = .gread i) → (ls t).red = ∑ j ∈ range i, inp (t + j) k
  zero : s ≠ .idle → s.past = false → (ls t).zero = 0
  gath : ∀ i, s = .gather i → ∀ j, 1 ≤ j → j < i → ((ls (t + j)).st k).fl = true
  gath' : ∀ i, s = .gread i → ∀ j, 1 ≤ j → j ≤ i → ((ls (t + j)).st k).fl = true
  acc : ∀ x, x < n2 → redHd C P x = t → s.past = true →
    RedKnow C P n2 (fun u => inp u k) (fun u => ((ls u).st k).fl = true) (s.got lg (redKx C P x)) x ((ls t).acc C x)
  cs : ∀ c, c < C → c * P = t → g.coreSense c = decide ((k + b01 (decide (s = .ret))) % 2 = 0)
  pub : ∀ c, c < C → c * P = t → (s = .wake ∨ s = .ret) → g.rval c = redTot C P inp k
  all : t % P = 0 → (s = .pub ∨ s = .wake ∨ s = .ret) → ∀ u, u < C * P → ((ls u).st k).fl = true
  slave : t % P ≠ 0 → s = .ret → (ls (t / P * P)).st k = .ret
  par : ∀ x, x < n2 → redHd C P x = t → g.parity x = (k + b01 (s.adj (redKx C P x))) % 2
  sen : ∀ x, x < n2 → redHd C P x = t → g.sense x = decide (((k + b01 (s.adj (redKx C P x))) / 2) % 2 = 0)
  flag : ∀ x p i, x < n2 → p < 2 → i < lg → redHd C P x = t →
    g.flags ((x + 2 ^ i) % n2) p i = flagVal (k + b01 (s.fs (redKx C P x) i)) p
  slot : ∀ x i, x < n2 → i < lg → redHd C P x = t → s.vs (redKx C P x) i →
    RedKnow C P n2 (fun u => inp u k) (fun u => ((ls u).st k).fl = true) i x (g.rvals ((x + 2 ^ i) % n2) i)
  seen : ∀ x i, x < n2 → i < lg → redHd C P x = t → s.ws (redKx C P x) i = true →
    ((ls (redHd C P (redPred n2 i x))).st k).fs (redKx C P (redPred n2 i x)) i = true

theorem RedInv.toT {o0 : Nat → Nat → V} {ls : Nat → RedL V} {g : RedG V} (h : RedInv C P n2 lg k inp o0 ls g)
    {t : Nat} (ht : t < C * P) {s : RedPc} (hs : (ls t).st k = s) : RedT C P n2 lg k inp o0 ls g t s := by
  subst hs
  refine ⟨rfl, h.tid t ht, h.calls t ht, h.rets t ht, h.out t ht, h.ok t ht, h.senses t ht, h.trv t ht, h.red0 t ht,
    fun i => h.red1 t i ht, h.zero t ht, fun i => h.gath t i ht, fun i => h.gath' t i ht, ?_, ?_, ?_, ?_, h.slave t ht,
    ?_, ?_, ?_, ?_, ?_⟩
  · rintro x hx rfl; exact h.acc x hx
  · rintro c hc rfl; exact h.cs c hc
  · rintro c hc rfl; exact h.pub c hc
  · intro hm h1
    obtain ⟨e, hc⟩ := leader_of ht hm
    rw [e] at h1; exact h.all _ hc h1
  · rintro x hx rfl; exact h.par x hx
  · rintro x hx rfl; exact h.sen x hx
  · rintro x p i hx hp hi rfl; exact h.flag x p i hx hp hi
  · rintro x i hx hi rfl; exact h.slot x i hx hi
  · rintro x i hx hi rfl; exact h.seen x i hx hi

/-- Closes the goals of a step that are not affected by it. -/
macro "red_auto" T:term : tactic => `(tactic| first
  | exact ($T).tid
  | exact ($T).out
  | exact ($T).senses
  | exact ($T).acc
  | exact ($T).cs
  | exact ($T).par
  | exact ($T).sen
  | exact ($T).flag
  | exact ($T).slot
  | exact ($T).all
  | exact ($T).slave
  | exact fun _ => ($T).trv (by simp)
  | exact fun _ _ => ($T).zero (by simp) rfl
  | (intro _ h; simp [RedPc.past] at h; done)
  | exact fun _ _ => rfl
  | exact fun _ _ _ => rfl
  | exact fun _ _ _ => ⟨rfl, rfl⟩
  | exact fun _ _ _ _ => rfl
  | exact fun _ _ _ _ _ _ _ => rfl
  | exact fun _ _ _ _ _ => rfl
  | exact ($T).seen
  | (intro h; simp at h; done)
  | (intro _ h; simp at h; done)
  | (intro _ _ _ h; simp [RedPc.past] at h; done)
  | (intro _ _ _ _ _ h; simp [RedPc.ws] at h; done)
  | (simp [RedL.st]; done)
  | (intro x hx e; rw [($T).par x hx e]; rfl)
  | (intro x hx e; rw [($T).sen x hx e]; rfl)
  | (have := ($T).calls; simpa using this)
  | (have := ($T).rets; simpa using this))

theorem RedInv.step {o0 : Nat → Nat → V} {ls : Nat → RedL V} {g : RedG V} (h : RedInv C P n2 lg k inp o0 ls g)
    (hP : 0 < P) (hlg : 1 ≤ lg) (hn : RedSize C n2 lg) (hC : C ≤ n2) (hC2 : n2 ≤ C + C) {t : Nat} (ht : t < C * P)
    {l' : RedL V} {g' : RedG V}
    (hs : redNext C P n2 lg (· + ·) 0 inp (k + 1) (ls t) g = some (l', g')) :
    RedInv C P n2 lg k inp o0 (updT ls t l') g' := by
  have htid := h.tid t ht
  have hc0 : t / P < C := Nat.div_lt_of_lt_mul (by rw [Nat.mul_comm]; exact ht)
  have hpow : ∀ i, i < lg → 2 ^ i ≤ n2 := hn.pow_le
  have hroundOk : ∀ i, 0 < (redHs C P n2 t).length → redOk C P n2 lg t (redRound lg i) := by
    intro i hi
    rcases redRound_cases lg i with ⟨e, e1⟩ | ⟨e, e1⟩ <;> rw [e]
    · exact ⟨e1, hi⟩
    · exact hi
  unfold redNext at hs
  rw [htid] at hs
  cases hpc : (ls t).pc with
  | idle =>
    simp only [hpc] at hs
    split at hs
    next hN =>
      simp only [Option.some.injEq, Prod.mk.injEq] at hs
      obtain ⟨rfl, rfl⟩ := hs
      have hst : (ls t).st k = .idle := by
        unfold RedL.st; rw [if_neg (by omega), hpc]
      have T := h.toT ht hst
      have hk : (ls t).calls = k := by simpa using T.calls
      apply h.upd hP (t := t) (s' := .flip)
      case hle => rw [hst]; constructor <;> simp [RedPc.fl, RedPc.fs]
      case hcalls => simp [hk]
      case hrets => have := T.rets; simpa [hpc] using this
      case hok => trivial
      case htrv => intro _; simp [upd1, hk]
      case htrvo => intro u hu; simp [upd1, hu]
      case hred0 => intro _; simp [hk]
      case hslot => intro x i _ _ _ hv; exact hv.elim
      all_goals red_auto T
    next => simp at hs
  | flip =>
    simp only [hpc] at hs
    simp only [Option.some.injEq, Prod.mk.injEq] at hs
    obtain ⟨rfl, rfl⟩ := hs
    have hst : (ls t).st k = .flip := by rw [RedL.st_of_ne (by simp [hpc]), hpc]
    have T := h.toT ht hst
    have hsens : (!g.threadSenses t) = decide ((k + 1) % 2 = 0) := by
      rw [T.senses, ← decide_not, decide_eq_decide]; simp [b01, RedPc.fl]; omega
    by_cases hm : t % P = 0
    · simp only [if_pos hm]
      apply h.upd hP (t := t) (s' := .gather 1)
      case hle => rw [hst]; constructor <;> simp [RedPc.fl, RedPc.fs]
      case hok => exact ⟨hm, by omega, by omega⟩
      case hsens => show upd1 g.threadSenses t (!g.threadSenses t) t = _; unfold upd1; rw [if_pos rfl, hsens]; rfl
      case hsenso => intro u hu; simp [upd1, hu]
      case hred1 =>
        rintro i (hi | hi) <;> cases hi
        rw [sum_range_one]; exact T.red0 rfl
      case hgath => intro i hi j h1 h2; cases hi; omega
      case hslot => intro x i _ _ _ hv; exact hv.elim
      all_goals red_auto T
    · simp only [if_neg hm]
      by_cases hl : (redHs C P n2 t).length = 0
      · simp only [if_pos hl]
        have hno : ∀ x, x < n2 → redHd C P x ≠ t := by
          intro x hx e
          have := (redHd_spec (C := C) (n2 := n2) hP hx hC2).2.1
          rw [e] at this; omega
        apply h.upd hP (t := t) (s' := .spin)
        case hle => rw [hst]; constructor <;> simp [RedPc.fl, RedPc.fs]
        case hok => exact hm
        case hsens => show upd1 g.threadSenses t (!g.threadSenses t) t = _; unfold upd1; rw [if_pos rfl, hsens]; rfl
        case hsenso => intro u hu; simp [upd1, hu]
        case hacc => intro x hx e; exact absurd e (hno x hx)
        case hpar => intro x hx e; exact absurd e (hno x hx)
        case hsen => intro x hx e; exact absurd e (hno x hx)
        case hflag => intro x _ _ hx _ _ e; exact absurd e (hno x hx)
        case hslot => intro x _ hx _ e; exact absurd e (hno x hx)
        all_goals red_auto T
      · simp only [if_neg hl]
        have hr : redRound lg 0 = .val 0 0 := by unfold redRound; rw [if_pos (by omega)]
        rw [hr]
        apply h.upd hP (t := t) (s' := .val 0 0)
        case hle => rw [hst]; constructor <;> simp [RedPc.fl, RedPc.fs]
        case hok => exact ⟨by omega, by omega⟩
        case hsens => show upd1 g.threadSenses t (!g.threadSenses t) t = _; unfold upd1; rw [if_pos rfl, hsens]; rfl
        case hsenso => intro u hu; simp [upd1, hu]
        case hacc =>
          intro x hx e _
          have hxC : ¬ x < C := by
            intro hc; unfold redHd at e; rw [if_pos hc] at e
            rw [← e, Nat.mul_mod_left] at hm; exact hm rfl
          refine ⟨?_, ?_⟩
          · show RedL.acc C _ x = redCv C P _ x
            unfold RedL.acc redCv
            rw [if_neg hxC, if_neg hxC]; exact T.zero (by simp) rfl
          · exact fun hc => absurd hc hxC
        case hslot => intro x i _ _ _ hv; simp [RedPc.vs] at hv
        case hflag => intro x p i hx hp hi e; rw [T.flag x p i hx hp hi e]; simp [RedPc.fs]
        all_goals red_auto T
  | gather i =>
    simp only [hpc] at hs
    have hst : (ls t).st k = .gather i := by rw [RedL.st_of_ne (by simp [hpc]), hpc]
    have T := h.toT ht hst
    obtain ⟨hm, hi1, hiP⟩ : t % P = 0 ∧ 1 ≤ i ∧ i ≤ P := T.ok
    obtain ⟨et, -⟩ := leader_of ht hm
    split at hs
    next hi =>
      split at hs
      next => simp at hs
      next hne =>
        simp only [Option.some.injEq, Prod.mk.injEq] at hs
        obtain ⟨rfl, rfl⟩ := hs
        have hti : t + i < C * P := by have := core_lt (C := C) hc0 hi; omega
        have hfl : ((ls (t + i)).st k).fl = true := by
          rw [h.senses _ hti, T.cs (t / P) hc0 et.symm] at hne
          by_contra hf
          apply hne
          rw [Bool.not_eq_true] at hf
          rw [hf]; simp [b01]
        apply h.upd hP (t := t) (s' := .gread i)
        case hle => rw [hst]; constructor <;> simp [RedPc.fl, RedPc.fs]
        case hok => exact ⟨hm, hi1, hi⟩
        case hred1 =>
          rintro i' (hi' | hi') <;> cases hi'
          exact T.red1 i (Or.inl rfl)
        case hgath' =>
          intro i' hi' j h1 h2; cases hi'
          by_cases e : j = i
          · subst e; exact hfl
          · exact T.gath i rfl j h1 (by omega)
        case hslot => intro x i _ _ _ hv; exact hv.elim
        all_goals red_auto T
    next hi =>
      simp only [Option.some.injEq, Prod.mk.injEq] at hs
      obtain ⟨rfl, rfl⟩ := hs
      have hiP' : i = P := by omega
      subst hiP'
      have hlen : 0 < (redHs C i n2 t).length := by unfold redHs; rw [if_pos hm]; simp
      have hr : redRound lg 0 = .val 0 0 := by unfold redRound; rw [if_pos (by omega)]
      rw [hr]
      apply h.upd hP (t := t) (s' := .val 0 0)
      case hle => rw [hst]; constructor <;> simp [RedPc.fl, RedPc.fs]
      case hok => exact ⟨by omega, hlen⟩
      case hacc =>
        intro x hx e _
        by_cases hxC : x < C
        · have e1 : x * i = t := by unfold redHd at e; rw [if_pos hxC] at e; exact e
          refine ⟨?_, ?_⟩
          · show RedL.acc C _ x = redCv C i _ x
            unfold RedL.acc redCv
            rw [if_pos hxC, if_pos hxC, e1]; exact T.red1 i (Or.inl rfl)
          · intro _ j hj
            rw [e1]
            by_cases h0 : j = 0
            · subst h0; show ((ls t).st k).fl = true; rw [hst]; rfl
            · exact T.gath i rfl j (by omega) hj
        · refine ⟨?_, ?_⟩
          · show RedL.acc C _ x = redCv C i _ x
            unfold RedL.acc redCv
            rw [if_neg hxC, if_neg hxC]; exact T.zero (by simp) rfl
          · exact fun hc => absurd hc hxC
      case hslot => intro x i _ _ _ hv; simp [RedPc.vs] at hv
      case hflag => intro x p i hx hp hi e; rw [T.flag x p i hx hp hi e]; simp [RedPc.fs]
      all_goals red_auto T
  | gread i =>
    simp only [hpc] at hs
    simp only [Option.some.injEq, Prod.mk.injEq] at hs
    obtain ⟨rfl, rfl⟩ := hs
    have hst : (ls t).st k = .gread i := by rw [RedL.st_of_ne (by simp [hpc]), hpc]
    have T := h.toT ht hst
    obtain ⟨hm, hi1, hiP⟩ : t % P = 0 ∧ 1 ≤ i ∧ i < P := T.ok
    obtain ⟨et, -⟩ := leader_of ht hm
    have hti : t + i < C * P := by have := core_lt (C := C) hc0 hiP; omega
    have hfl := T.gath' i rfl i hi1 (Nat.le_refl _)
    have hv : g.threadRvals (t + i) = inp (t + i) k := by
      refine h.trv _ hti ?_
      intro e; rw [e] at hfl; simp [RedPc.fl] at hfl
    apply h.upd hP (t := t) (s' := .gather (i + 1))
    case hle => rw [hst]; constructor <;> simp [RedPc.fl, RedPc.fs]
    case hok => exact ⟨hm, by omega, by omega⟩
    case hred1 =>
      rintro i' (hi' | hi') <;> cases hi'
      show (ls t).red + g.threadRvals (t + i) = _
      rw [sum_range_succ, T.red1 i (Or.inr rfl), hv]
    case hgath =>
      intro i' hi' j h1 h2; cases hi'
      exact T.gath' i rfl j h1 (by omega)
    case hslot => intro x i _ _ _ hv; exact hv.elim
    all_goals red_auto T
  | val i j =>
    simp only [hpc] at hs
    simp only [Option.some.injEq, Prod.mk.injEq] at hs
    obtain ⟨rfl, rfl⟩ := hs
    have hst : (ls t).st k = .val i j := by rw [RedL.st_of_ne (by simp [hpc]), hpc]
    have T := h.toT ht hst
    obtain ⟨hi, hj⟩ : i < lg ∧ j < (redHs C P n2 t).length := T.ok
    obtain ⟨hx0, hd0, hk0⟩ := redH_spec (C := C) (n2 := n2) hP ht hj hC
    have huniq : ∀ x, x < n2 → redHd C P x = t → redKx C P x = j → x = redH C P n2 t j := by
      intro x hx e e1
      have := (redHd_spec (C := C) (n2 := n2) hP hx hC2).2.2
      rw [e, e1] at this; exact this.symm
    have hlt : ∀ x, x < n2 → redHd C P x = t → redKx C P x < (redHs C P n2 t).length := by
      intro x hx e
      have := (redHd_spec (C := C) (n2 := n2) hP hx hC2).2.1
      rw [e] at this; exact this
    generalize redH C P n2 t j = x0 at *
    have hrv : ∀ x i', x < n2 → i' < lg → ¬ (x = x0 ∧ i' = i) →
        upd1 g.rvals ((x0 + 2 ^ i) % n2) (upd1 (g.rvals ((x0 + 2 ^ i) % n2)) i ((ls t).acc C x0)) ((x + 2 ^ i') % n2) i' =
          g.rvals ((x + 2 ^ i') % n2) i' := by
      intro x i' hx hi' hne
      unfold upd1
      by_cases e : i' = i
      · subst e
        rw [if_neg]
        intro e1; exact hne ⟨add_mod_inj hx hx0 e1, rfl⟩
      · by_cases e1 : (x + 2 ^ i') % n2 = (x0 + 2 ^ i) % n2
        · rw [if_pos e1, if_neg e, e1]
        · rw [if_neg e1]
    have hrv0 : upd1 g.rvals ((x0 + 2 ^ i) % n2) (upd1 (g.rvals ((x0 + 2 ^ i) % n2)) i ((ls t).acc C x0))
        ((x0 + 2 ^ i) % n2) i = (ls t).acc C x0 := by
      unfold upd1; rw [if_pos rfl, if_pos rfl]
    have hx0k := T.acc x0 hx0 hd0 rfl
    have hslot : ∀ x i', x < n2 → i' < lg → redHd C P x = t → (i' < i ∨ (i' = i ∧ redKx C P x < j + 1)) →
        RedKnow C P n2 (fun u => inp u k) (fun u => ((ls u).st k).fl = true) i' x
          (upd1 g.rvals ((x0 + 2 ^ i) % n2) (upd1 (g.rvals ((x0 + 2 ^ i) % n2)) i ((ls t).acc C x0))
            ((x + 2 ^ i') % n2) i') := by
      intro x i' hx hi' e hc
      by_cases h0 : x = x0 ∧ i' = i
      · obtain ⟨rfl, rfl⟩ := h0
        rw [hrv0]; exact hx0k
      · rw [hrv x i' hx hi' h0]
        refine T.slot x i' hx hi' e ?_
        rcases hc with hc | ⟨hc, hc'⟩
        · exact Or.inl hc
        · refine Or.inr ⟨hc, ?_⟩
          rcases Nat.lt_or_eq_of_le (Nat.le_of_lt_succ hc') with hc'' | hc''
          · exact hc''
          · exact absurd ⟨huniq x hx e hc'', hc⟩ h0
    have hsloto : ∀ x i', x < n2 → i' < lg → redHd C P x ≠ t →
        upd1 g.rvals ((x0 + 2 ^ i) % n2) (upd1 (g.rvals ((x0 + 2 ^ i) % n2)) i ((ls t).acc C x0)) ((x + 2 ^ i') % n2) i' =
          g.rvals ((x + 2 ^ i') % n2) i' := by
      intro x i' hx hi' e
      refine hrv x i' hx hi' ?_
      rintro ⟨rfl, -⟩; exact e hd0
    by_cases hnext : j + 1 < (redHs C P n2 t).length
    · simp only [if_pos hnext]
      apply h.upd hP (t := t) (s' := .val i (j + 1))
      case hle => rw [hst]; constructor <;> simp [RedPc.fl, RedPc.fs]
      case hok => exact ⟨hi, hnext⟩
      case hslot => intro x i' hx hi' e hv; exact hslot x i' hx hi' e hv
      case hsloto => exact hsloto
      all_goals red_auto T
    · simp only [if_neg hnext]
      apply h.upd hP (t := t) (s' := .flag i 0)
      case hle => rw [hst]; constructor <;> simp [RedPc.fl, RedPc.fs]
      case hok => exact ⟨hi, by omega⟩
      case hslot =>
        intro x i' hx hi' e hv
        refine hslot x i' hx hi' e ?_
        have := hlt x hx e
        rcases Nat.lt_or_eq_of_le (show i' ≤ i from hv) with h1 | h1
        · exact Or.inl h1
        · exact Or.inr ⟨h1, by omega⟩
      case hsloto => exact hsloto
      case hflag => intro x p i' hx hp hi' e; rw [T.flag x p i' hx hp hi' e]; simp [RedPc.fs]
      all_goals red_auto T
  | flag i j =>
    simp only [hpc] at hs
    simp only [Option.some.injEq, Prod.mk.injEq] at hs
    obtain ⟨rfl, rfl⟩ := hs
    have hst : (ls t).st k = .flag i j := by rw [RedL.st_of_ne (by simp [hpc]), hpc]
    have T := h.toT ht hst
    obtain ⟨hi, hj⟩ : i < lg ∧ j < (redHs C P n2 t).length := T.ok
    obtain ⟨hx0, hd0, hk0⟩ := redH_spec (C := C) (n2 := n2) hP ht hj hC
    have huniq : ∀ x, x < n2 → redHd C P x = t → redKx C P x = j → x = redH C P n2 t j := by
      intro x hx e e1
      have := (redHd_spec (C := C) (n2 := n2) hP hx hC2).2.2
      rw [e, e1] at this; exact this.symm
    have hlt : ∀ x, x < n2 → redHd C P x = t → redKx C P x < (redHs C P n2 t).length := by
      intro x hx e
      have := (redHd_spec (C := C) (n2 := n2) hP hx hC2).2.1
      rw [e] at this; exact this
    generalize redH C P n2 t j = x0 at *
    have hpar : g.parity x0 = k % 2 := by rw [T.par x0 hx0 hd0]; rfl
    have hsn : g.sense x0 = decide ((k / 2) % 2 = 0) := by rw [T.sen x0 hx0 hd0]; rfl
    rw [hpar, hsn]
    have hflo : ∀ x p i', x < n2 → p < 2 → i' < lg → ¬ (x = x0 ∧ i' = i) →
        upd1 g.flags ((x0 + 2 ^ i) % n2) (upd1 (g.flags ((x0 + 2 ^ i) % n2)) (k % 2)
          (upd1 (g.flags ((x0 + 2 ^ i) % n2) (k % 2)) i (decide (k / 2 % 2 = 0)))) ((x + 2 ^ i') % n2) p i' =
          g.flags ((x + 2 ^ i') % n2) p i' := by
      intro x p i' hx hp hi' hne
      rw [upd3, if_neg]
      rintro ⟨e1, -, rfl⟩
      exact hne ⟨add_mod_inj hx hx0 e1, rfl⟩
    have hfl0 : ∀ p, p < 2 → upd1 g.flags ((x0 + 2 ^ i) % n2) (upd1 (g.flags ((x0 + 2 ^ i) % n2)) (k % 2)
          (upd1 (g.flags ((x0 + 2 ^ i) % n2) (k % 2)) i (decide (k / 2 % 2 = 0)))) ((x0 + 2 ^ i) % n2) p i =
          flagVal (k + 1) p := by
      intro p hp
      rw [upd3]
      by_cases e : p = k % 2
      · rw [if_pos ⟨rfl, e, rfl⟩, e, flag_cur]
      · rw [if_neg (fun hh => e hh.2.1), T.flag x0 p i hx0 hp hi hd0, hk0]
        simp only [RedPc.fs, lt_self_iff_false, and_false, or_self, decide_false, b01, if_false, Bool.false_eq_true,
          add_zero]
        exact (flag_next hp e).symm
    have hflag : ∀ x p i', x < n2 → p < 2 → i' < lg → redHd C P x = t →
        upd1 g.flags ((x0 + 2 ^ i) % n2) (upd1 (g.flags ((x0 + 2 ^ i) % n2)) (k % 2)
          (upd1 (g.flags ((x0 + 2 ^ i) % n2) (k % 2)) i (decide (k / 2 % 2 = 0)))) ((x + 2 ^ i') % n2) p i' =
        flagVal (k + b01 (decide (i' < i ∨ (i' = i ∧ redKx C P x < j + 1)))) p := by
      intro x p i' hx hp hi' e
      by_cases h0 : x = x0 ∧ i' = i
      · obtain ⟨rfl, rfl⟩ := h0
        rw [hfl0 p hp, hk0]
        simp [b01]
      · rw [hflo x p i' hx hp hi' h0, T.flag x p i' hx hp hi' e]
        congr 3
        show decide _ = decide _
        rw [decide_eq_decide]
        constructor
        · rintro (hc | ⟨hc, hc'⟩)
          · exact Or.inl hc
          · exact Or.inr ⟨hc, by omega⟩
        · rintro (hc | ⟨hc, hc'⟩)
          · exact Or.inl hc
          · refine Or.inr ⟨hc, ?_⟩
            rcases Nat.lt_or_eq_of_le (Nat.le_of_lt_succ hc') with hc'' | hc''
            · exact hc''
            · exact absurd ⟨huniq x hx e hc'', hc⟩ h0
    have hflago : ∀ x p i', x < n2 → p < 2 → i' < lg → redHd C P x ≠ t →
        upd1 g.flags ((x0 + 2 ^ i) % n2) (upd1 (g.flags ((x0 + 2 ^ i) % n2)) (k % 2)
          (upd1 (g.flags ((x0 + 2 ^ i) % n2) (k % 2)) i (decide (k / 2 % 2 = 0)))) ((x + 2 ^ i') % n2) p i' =
        g.flags ((x + 2 ^ i') % n2) p i' := by
      intro x p i' hx hp hi' e
      refine hflo x p i' hx hp hi' ?_
      rintro ⟨rfl, -⟩; exact e hd0
    by_cases hnext : j + 1 < (redHs C P n2 t).length
    · simp only [if_pos hnext]
      apply h.upd hP (t := t) (s' := .flag i (j + 1))
      case hle =>
        rw [hst]; refine ⟨by simp [RedPc.fl], by simp, ?_⟩
        intro a b; simp only [RedPc.fs, decide_eq_true_eq]; omega
      case hok => exact ⟨hi, hnext⟩
      case hflag => exact hflag
      case hflago => exact hflago
      all_goals red_auto T
    · simp only [if_neg hnext]
      apply h.upd hP (t := t) (s' := .wt i 0)
      case hle =>
        rw [hst]; refine ⟨by simp [RedPc.fl], by simp, ?_⟩
        intro a b; simp only [RedPc.fs, decide_eq_true_eq]; omega
      case hok => exact ⟨hi, by omega⟩
      case hflag =>
        intro x p i' hx hp hi' e
        refine (hflag x p i' hx hp hi' e).trans ?_
        congr 3
        show decide _ = decide _
        rw [decide_eq_decide]
        have := hlt x hx e
        omega
      case hflago => exact hflago
      case hseen => intro x i' _ _ _ hw; simp [RedPc.ws] at hw
      all_goals red_auto T
  | wt i j =>
    simp only [hpc] at hs
    split at hs
    next hcond =>
      simp only [Option.some.injEq, Prod.mk.injEq] at hs
      obtain ⟨rfl, rfl⟩ := hs
      have hst : (ls t).st k = .wt i j := by rw [RedL.st_of_ne (by simp [hpc]), hpc]
      have T := h.toT ht hst
      obtain ⟨hi, hj⟩ : i < lg ∧ j < (redHs C P n2 t).length := T.ok
      obtain ⟨hx0, hd0, hk0⟩ := redH_spec (C := C) (n2 := n2) hP ht hj hC
      have huniq : ∀ x, x < n2 → redHd C P x = t → redKx C P x = j → x = redH C P n2 t j := by
        intro x hx e e1
        have := (redHd_spec (C := C) (n2 := n2) hP hx hC2).2.2
        rw [e, e1] at this; exact this.symm
      have hlt : ∀ x, x < n2 → redHd C P x = t → redKx C P x < (redHs C P n2 t).length := by
        intro x hx e
        have := (redHd_spec (C := C) (n2 := n2) hP hx hC2).2.1
        rw [e] at this; exact this
      generalize redH C P n2 t j = x0 at *
      have hpar : g.parity x0 = k % 2 := by rw [T.par x0 hx0 hd0]; rfl
      have hsn : g.sense x0 = decide ((k / 2) % 2 = 0) := by rw [T.sen x0 hx0 hd0]; rfl
      have hpr : redPred n2 i x0 < n2 := Nat.mod_lt _ (by omega)
      have hsent : ((ls (redHd C P (redPred n2 i x0))).st k).fs (redKx C P (redPred n2 i x0)) i = true := by
        by_contra hf
        rw [Bool.not_eq_true] at hf
        have := h.flag (redPred n2 i x0) (k % 2) i hpr (by omega) hi
        rw [redPred_succ (hpow i hi) hx0, hf] at this
        rw [hpar, hsn, this] at hcond
        exact flag_old k hcond
      have hseen : ∀ x i', x < n2 → i' < lg → redHd C P x = t → (i' = i ∧ redKx C P x < j + 1) →
          ((ls (redHd C P (redPred n2 i' x))).st k).fs (redKx C P (redPred n2 i' x)) i' = true := by
        rintro x i' hx hi' e ⟨rfl, hc⟩
        rcases Nat.lt_or_eq_of_le (Nat.le_of_lt_succ hc) with hc' | hc'
        · exact T.seen x i' hx hi' e (by simp [RedPc.ws, hc'])
        · rw [huniq x hx e hc']; exact hsent
      by_cases hnext : j + 1 < (redHs C P n2 t).length
      · simp only [if_pos hnext]
        apply h.upd hP (t := t) (s' := .wt i (j + 1))
        case hle => rw [hst]; constructor <;> simp [RedPc.fl, RedPc.fs]
        case hok => exact ⟨hi, hnext⟩
        case hseen =>
          intro x i' hx hi' e hw
          simp only [RedPc.ws, decide_eq_true_eq] at hw
          exact hseen x i' hx hi' e hw
        all_goals red_auto T
      · simp only [if_neg hnext]
        apply h.upd hP (t := t) (s' := .rd i 0)
        case hle => rw [hst]; constructor <;> simp [RedPc.fl, RedPc.fs]
        case hok => exact ⟨hi, by omega⟩
        case hacc => intro x hx e hp; have := T.acc x hx e rfl; simp only [RedPc.got, Nat.not_lt_zero, if_false] at this ⊢; exact this
        case hseen =>
          intro x i' hx hi' e hw
          simp only [RedPc.ws, decide_eq_true_eq] at hw
          have := hlt x hx e
          exact hseen x i' hx hi' e ⟨hw, by omega⟩
        all_goals red_auto T
    next => simp at hs
  | rd i j =>
    simp only [hpc] at hs
    simp only [Option.some.injEq, Prod.mk.injEq] at hs
    obtain ⟨rfl, rfl⟩ := hs
    have hst : (ls t).st k = .rd i j := by rw [RedL.st_of_ne (by simp [hpc]), hpc]
    have T := h.toT ht hst
    obtain ⟨hi, hj⟩ : i < lg ∧ j < (redHs C P n2 t).length := T.ok
    obtain ⟨hx0, hd0, hk0⟩ := redH_spec (C := C) (n2 := n2) hP ht hj hC
    have huniq : ∀ x, x < n2 → redHd C P x = t → redKx C P x = j → x = redH C P n2 t j := by
      intro x hx e e1
      have := (redHd_spec (C := C) (n2 := n2) hP hx hC2).2.2
      rw [e, e1] at this; exact this.symm
    have hlt : ∀ x, x < n2 → redHd C P x = t → redKx C P x < (redHs C P n2 t).length := by
      intro x hx e
      have := (redHd_spec (C := C) (n2 := n2) hP hx hC2).2.1
      rw [e] at this; exact this
    generalize redH C P n2 t j = x0 at *
    have hpr : redPred n2 i x0 < n2 := Nat.mod_lt _ (by omega)
    have hsent := T.seen x0 i hx0 hi hd0 (by simp [RedPc.ws])
    have hvs : ((ls (redHd C P (redPred n2 i x0))).st k).vs (redKx C P (redPred n2 i x0)) i := by
      generalize (ls (redHd C P (redPred n2 i x0))).st k = sp at hsent
      cases sp <;> simp only [RedPc.fs, RedPc.vs, decide_eq_true_eq, reduceCtorEq, Bool.false_eq_true] at hsent ⊢ <;> omega
    have hkn := h.slot _ i hpr hi hvs
    rw [redPred_succ (hpow i hi) hx0] at hkn
    have hx0k : RedKnow C P n2 (fun u => inp u k) (fun u => ((ls u).st k).fl = true) (i + 1) x0
        ((ls t).acc C x0 + g.rvals x0 i) := by
      have := T.acc x0 hx0 hd0 rfl
      rw [hk0] at this
      simp only [RedPc.got, lt_self_iff_false, if_false] at this
      exact ⟨by rw [this.1, hkn.1]; rfl, this.2, hkn.2⟩
    have hacc : ∀ x, x < n2 → redHd C P x = t → ∀ v, ((ls t).setAcc C x0 v).acc C x = if x = x0 then v else (ls t).acc C x := by
      intro x hx e v
      by_cases e1 : x = x0
      · subst e1
        rw [if_pos rfl]
        unfold RedL.setAcc RedL.acc
        by_cases hc : x < C
        · rw [if_pos hc, if_pos hc]
        · rw [if_neg hc, if_neg hc]
      · rw [if_neg e1]
        have hcc : ¬ (x < C ↔ x0 < C) := by
          intro hiff
          apply e1
          apply huniq x hx e
          rw [← hk0]
          unfold redKx
          by_cases hc : x < C
          · rw [if_pos hc, if_pos (hiff.1 hc)]
          · rw [if_neg hc, if_neg (fun hc' => hc (hiff.2 hc'))]
        unfold RedL.setAcc RedL.acc
        by_cases hc : x0 < C
        · rw [if_pos hc, if_neg (fun hx' => hcc ⟨fun _ => hc, fun _ => hx'⟩)]
          rw [if_neg (fun hx' => hcc ⟨fun _ => hc, fun _ => hx'⟩)]
        · have hx' : x < C := by
            by_contra hx'; exact hcc ⟨fun h => absurd h hx', fun h => absurd h hc⟩
          rw [if_neg hc, if_pos hx', if_pos hx']
    have hset : ∀ v, ((ls t).setAcc C x0 v).tid = (ls t).tid ∧ ((ls t).setAcc C x0 v).calls = (ls t).calls ∧
        ((ls t).setAcc C x0 v).rets = (ls t).rets ∧ ((ls t).setAcc C x0 v).out = (ls t).out := by
      intro v; unfold RedL.setAcc; split <;> exact ⟨rfl, rfl, rfl, rfl⟩
    have hk' : ∀ x, x < n2 → redHd C P x = t → RedKnow C P n2 (fun u => inp u k) (fun u => ((ls u).st k).fl = true)
        (if redKx C P x < j + 1 then i + 1 else i) x
        (((ls t).setAcc C x0 ((ls t).acc C x0 + g.rvals x0 i)).acc C x) := by
      intro x hx e
      rw [hacc x hx e]
      by_cases e1 : x = x0
      · subst e1
        rw [if_pos rfl, if_pos (by omega)]; exact hx0k
      · rw [if_neg e1]
        have hne : redKx C P x ≠ j := fun hh => e1 (huniq x hx e hh)
        have := T.acc x hx e rfl
        simp only [RedPc.got] at this
        by_cases hc : redKx C P x < j
        · rw [if_pos hc] at this; rw [if_pos (by omega)]; exact this
        · rw [if_neg hc] at this; rw [if_neg (by omega)]; exact this
    by_cases hnext : j + 1 < (redHs C P n2 t).length
    · simp only [if_pos hnext]
      apply h.upd hP (t := t) (s' := .rd i (j + 1))
      case hle => rw [hst]; constructor <;> simp [RedPc.fl, RedPc.fs]
      case htid => exact (hset _).1.trans T.tid
      case hcalls => exact (hset _).2.1.trans T.calls
      case hrets => refine (hset _).2.2.1.trans ?_; have := T.rets; simpa using this
      case hout => intro j' hj'; rw [(hset _).2.2.2]; exact T.out j' hj'
      case hok => exact ⟨hi, hnext⟩
      case hacc => intro x hx e _; exact hk' x hx e
      all_goals red_auto T
    · simp only [if_neg hnext]
      have hk2 : ∀ x, x < n2 → redHd C P x = t → RedKnow C P n2 (fun u => inp u k) (fun u => ((ls u).st k).fl = true)
          (i + 1) x (((ls t).setAcc C x0 ((ls t).acc C x0 + g.rvals x0 i)).acc C x) := by
        intro x hx e
        have := hk' x hx e
        have h2 := hlt x hx e
        rw [if_pos (by omega)] at this; exact this
      rcases redRound_cases lg (i + 1) with ⟨er, er1⟩ | ⟨er, er1⟩
      · rw [er]
        apply h.upd hP (t := t) (s' := .val (i + 1) 0)
        case hle =>
          rw [hst]; refine ⟨by simp [RedPc.fl], by simp, ?_⟩
          intro a b; simp only [RedPc.fs, decide_eq_true_eq]; omega
        case htid => exact (hset _).1.trans T.tid
        case hcalls => exact (hset _).2.1.trans T.calls
        case hrets => refine (hset _).2.2.1.trans ?_; have := T.rets; simpa using this
        case hout => intro j' hj'; rw [(hset _).2.2.2]; exact T.out j' hj'
        case hok => exact ⟨er1, by omega⟩
        case hacc => intro x hx e _; exact hk2 x hx e
        case hflag =>
          intro x p i' hx hp hi' e; rw [T.flag x p i' hx hp hi' e]
          congr 3
          show decide _ = decide _
          rw [decide_eq_decide]; omega
        case hslot =>
          intro x i' hx hi' e hv
          refine T.slot x i' hx hi' e ?_
          rcases hv with hv | ⟨_, hv⟩
          · show i' ≤ i; omega
          · omega
        all_goals red_auto T
      · rw [er]
        apply h.upd hP (t := t) (s' := .adjust 0)
        case hle =>
          rw [hst]; refine ⟨by simp [RedPc.fl], by simp, ?_⟩
          intro a b _; rfl
        case htid => exact (hset _).1.trans T.tid
        case hcalls => exact (hset _).2.1.trans T.calls
        case hrets => refine (hset _).2.2.1.trans ?_; have := T.rets; simpa using this
        case hout => intro j' hj'; rw [(hset _).2.2.2]; exact T.out j' hj'
        case hok => show 0 < _; omega
        case hacc =>
          intro x hx e _
          have := hk2 x hx e
          rw [show i + 1 = lg by omega] at this; exact this
        case hflag =>
          intro x p i' hx hp hi' e; rw [T.flag x p i' hx hp hi' e]
          congr 3
          show decide _ = true
          rw [decide_eq_true_eq]; omega
        case hslot =>
          intro x i' hx hi' e hv
          exact T.slot x i' hx hi' e (show i' ≤ i by omega)
        case hpar => intro x hx e; refine (T.par x hx e).trans ?_; rw [show RedPc.adj (redKx C P x) (.adjust 0) = false from decide_eq_false (Nat.not_lt_zero (redKx C P x))]; rfl
        case hsen => intro x hx e; refine (T.sen x hx e).trans ?_; rw [show RedPc.adj (redKx C P x) (.adjust 0) = false from decide_eq_false (Nat.not_lt_zero (redKx C P x))]; rfl
        all_goals red_auto T
  | adjust j =>
    simp only [hpc] at hs
    simp only [Option.some.injEq, Prod.mk.injEq] at hs
    obtain ⟨rfl, rfl⟩ := hs
    have hst : (ls t).st k = .adjust j := by rw [RedL.st_of_ne (by simp [hpc]), hpc]
    have T := h.toT ht hst
    have hj : j < (redHs C P n2 t).length := T.ok
    obtain ⟨hx0, hd0, hk0⟩ := redH_spec (C := C) (n2 := n2) hP ht hj hC
    have huniq : ∀ x, x < n2 → redHd C P x = t → redKx C P x = j → x = redH C P n2 t j := by
      intro x hx e e1
      have := (redHd_spec (C := C) (n2 := n2) hP hx hC2).2.2
      rw [e, e1] at this; exact this.symm
    have hlt : ∀ x, x < n2 → redHd C P x = t → redKx C P x < (redHs C P n2 t).length := by
      intro x hx e
      have := (redHd_spec (C := C) (n2 := n2) hP hx hC2).2.1
      rw [e] at this; exact this
    generalize redH C P n2 t j = x0 at *
    have hpar0 : g.parity x0 = k % 2 := by rw [T.par x0 hx0 hd0, hk0]; simp [RedPc.adj, b01]
    have hsn0 : g.sense x0 = decide ((k / 2) % 2 = 0) := by rw [T.sen x0 hx0 hd0, hk0]; simp [RedPc.adj, b01]
    have hparo : ∀ x, x ≠ x0 → upd1 g.parity x0 (1 - g.parity x0) x = g.parity x ∧
        (if g.parity x0 = 1 then upd1 g.sense x0 (!g.sense x0) else g.sense) x = g.sense x := by
      intro x hx
      refine ⟨by simp [upd1, hx], ?_⟩
      split
      · simp [upd1, hx]
      · rfl
    have hpar1 : upd1 g.parity x0 (1 - g.parity x0) x0 = (k + 1) % 2 := by
      simp only [upd1, if_true, hpar0]; omega
    have hsn1 : (if g.parity x0 = 1 then upd1 g.sense x0 (!g.sense x0) else g.sense) x0 =
        decide (((k + 1) / 2) % 2 = 0) := by
      split
      · next e => simp only [upd1, if_true, hsn0]; rw [← decide_not, decide_eq_decide]; omega
      · next e => rw [hsn0, decide_eq_decide]; omega
    have hpar : ∀ x, x < n2 → redHd C P x = t → upd1 g.parity x0 (1 - g.parity x0) x =
        (k + b01 (decide (redKx C P x < j + 1))) % 2 ∧
        (if g.parity x0 = 1 then upd1 g.sense x0 (!g.sense x0) else g.sense) x =
          decide (((k + b01 (decide (redKx C P x < j + 1))) / 2) % 2 = 0) := by
      intro x hx e
      by_cases e1 : x = x0
      · subst e1
        rw [hpar1, hsn1, hk0]; simp [b01]
      · rw [(hparo x e1).1, (hparo x e1).2, T.par x hx e, T.sen x hx e]
        have hne : redKx C P x ≠ j := fun hh => e1 (huniq x hx e hh)
        have : RedPc.adj (redKx C P x) (.adjust j) = decide (redKx C P x < j + 1) := by
          show decide _ = decide _
          rw [decide_eq_decide]; omega
        rw [this]; exact ⟨rfl, rfl⟩
    have hpo : ∀ x, x < n2 → redHd C P x ≠ t → upd1 g.parity x0 (1 - g.parity x0) x = g.parity x ∧
        (if g.parity x0 = 1 then upd1 g.sense x0 (!g.sense x0) else g.sense) x = g.sense x := by
      intro x _ e; refine hparo x ?_; rintro rfl; exact e hd0
    by_cases hnext : j + 1 < (redHs C P n2 t).length
    · simp only [if_pos hnext]
      apply h.upd hP (t := t) (s' := .adjust (j + 1))
      case hle => rw [hst]; constructor <;> simp [RedPc.fl, RedPc.fs]
      case hok => exact hnext
      case hpar => intro x hx e; exact (hpar x hx e).1
      case hsen => intro x hx e; exact (hpar x hx e).2
      case hparo => exact hpo
      all_goals red_auto T
    · simp only [if_neg hnext]
      have hkx : ∀ x, x < n2 → redHd C P x = t → redKx C P x < j + 1 := by
        intro x hx e; have := hlt x hx e; omega
      by_cases hm : t % P = 0
      · simp only [if_pos hm]
        obtain ⟨et, -⟩ := leader_of ht hm
        have hxc : redHd C P (t / P) = t := by unfold redHd; rw [if_pos hc0]; exact et.symm
        have hcov := (T.acc (t / P) (by omega) hxc rfl).2
        apply h.upd hP (t := t) (s' := .pub)
        case hle => rw [hst]; constructor <;> simp [RedPc.fl, RedPc.fs]
        case hok => exact hm
        case hpar => intro x hx e; refine (hpar x hx e).1.trans ?_; rw [decide_eq_true (hkx x hx e)]; rfl
        case hsen => intro x hx e; refine (hpar x hx e).2.trans ?_; rw [decide_eq_true (hkx x hx e)]; rfl
        case hparo => exact hpo
        case hall =>
          intro _ _
          exact redCov_total' hP hn hC (show t / P < n2 by omega) hcov
        all_goals red_auto T
      · simp only [if_neg hm]
        apply h.upd hP (t := t) (s' := .spin)
        case hle => rw [hst]; constructor <;> simp [RedPc.fl, RedPc.fs]
        case hok => exact hm
        case hpar => intro x hx e; refine (hpar x hx e).1.trans ?_; rw [decide_eq_true (hkx x hx e)]; rfl
        case hsen => intro x hx e; refine (hpar x hx e).2.trans ?_; rw [decide_eq_true (hkx x hx e)]; rfl
        case hparo => exact hpo
        all_goals red_auto T
  | pub =>
    simp only [hpc] at hs
    simp only [Option.some.injEq, Prod.mk.injEq] at hs
    obtain ⟨rfl, rfl⟩ := hs
    have hst : (ls t).st k = .pub := by rw [RedL.st_of_ne (by simp [hpc]), hpc]
    have T := h.toT ht hst
    have hm : t % P = 0 := T.ok
    obtain ⟨et, -⟩ := leader_of ht hm
    have hxc : redHd C P (t / P) = t := by unfold redHd; rw [if_pos hc0]; exact et.symm
    have hval := (T.acc (t / P) (by omega) hxc rfl).1
    have hred : (ls t).red = redTot C P inp k := by
      have e1 : (ls t).acc C (t / P) = (ls t).red := by unfold RedL.acc; rw [if_pos hc0]
      rw [← e1, hval]
      exact redS_total' hP hn hC (by omega)
    apply h.upd hP (t := t) (s' := .wake)
    case hle => rw [hst]; constructor <;> simp [RedPc.fl, RedPc.fs]
    case hok => exact hm
    case hpub =>
      intro c hc e _
      have : t / P = c := by rw [← e]; exact Nat.mul_div_cancel _ hP
      show upd1 g.rval (t / P) (ls t).red c = _
      unfold upd1; rw [if_pos this.symm, hred]
    case hpubo =>
      intro c hc e
      show upd1 g.rval (t / P) (ls t).red c = _
      unfold upd1; rw [if_neg]
      rintro rfl; exact e et.symm
    case hall => intro _ _; exact T.all hm (Or.inl rfl)
    all_goals red_auto T
  | wake =>
    simp only [hpc] at hs
    simp only [Option.some.injEq, Prod.mk.injEq] at hs
    obtain ⟨rfl, rfl⟩ := hs
    have hst : (ls t).st k = .wake := by rw [RedL.st_of_ne (by simp [hpc]), hpc]
    have T := h.toT ht hst
    have hm : t % P = 0 := T.ok
    obtain ⟨et, -⟩ := leader_of ht hm
    apply h.upd hP (t := t) (s' := .ret)
    case hle => rw [hst]; constructor <;> simp [RedPc.fl, RedPc.fs]
    case hok => trivial
    case hpub => intro c hc e _; exact T.pub c hc e (Or.inl rfl)
    case hcs =>
      intro c hc e
      have : t / P = c := by rw [← e]; exact Nat.mul_div_cancel _ hP
      show upd1 g.coreSense (t / P) (g.threadSenses t) c = _
      unfold upd1; rw [if_pos this.symm, T.senses]; rfl
    case hcso =>
      intro c hc e
      show upd1 g.coreSense (t / P) (g.threadSenses t) c = _
      unfold upd1; rw [if_neg]
      rintro rfl; exact e et.symm
    case hall => intro _ _; exact T.all hm (Or.inr (Or.inl rfl))
    case hslave => intro hh; exact absurd hm hh
    case hres => intro hh; simp at hh
    all_goals red_auto T
  | spin =>
    simp only [hpc] at hs
    split at hs
    next hcond =>
      simp only [Option.some.injEq, Prod.mk.injEq] at hs
      obtain ⟨rfl, rfl⟩ := hs
      have hst : (ls t).st k = .spin := by rw [RedL.st_of_ne (by simp [hpc]), hpc]
      have T := h.toT ht hst
      have hm : t % P ≠ 0 := T.ok
      have hld : (ls (t / P * P)).st k = .ret := by
        rw [h.cs _ hc0, T.senses, decide_eq_decide] at hcond
        by_contra hne
        simp [b01, RedPc.fl, hne] at hcond
        omega
      apply h.upd hP (t := t) (s' := .ret)
      case hle => rw [hst]; constructor <;> simp [RedPc.fl, RedPc.fs]
      case hok => trivial
      case hpub => rintro c hc rfl _; rw [Nat.mul_mod_left] at hm; exact absurd rfl hm
      case hcs => rintro c hc rfl; rw [Nat.mul_mod_left] at hm; exact absurd rfl hm
      case hall => intro hh; exact absurd hh hm
      case hslave => intro _ _; exact hld
      case hres => intro hh; simp at hh
      all_goals red_auto T
    next => simp at hs
  | ret =>
    simp only [hpc] at hs
    simp only [Option.some.injEq, Prod.mk.injEq] at hs
    obtain ⟨rfl, rfl⟩ := hs
    have hst : (ls t).st k = .ret := by rw [RedL.st_of_ne (by simp [hpc]), hpc]
    have T := h.toT ht hst
    have hcl : (ls t).calls = k + 1 := by simpa using T.calls
    have hrt : (ls t).rets = k := by have := T.rets; simpa [hpc] using this
    have hval : g.rval (t / P) = redTot C P inp k := by
      refine h.pub _ hc0 (Or.inr ?_)
      by_cases hm : t % P = 0
      · obtain ⟨et, -⟩ := leader_of ht hm
        rw [← et]; exact hst
      · exact T.slave hm rfl
    apply h.upd hP (t := t) (s' := .ret)
    case hs' => unfold RedL.st; rw [if_pos ⟨rfl, by show k < (ls t).calls; omega⟩]
    case hle => rw [hst]; exact ⟨id, id, fun _ _ => id⟩
    case hrets => simp [hrt]
    case hout =>
      intro j hj
      show upd1 (ls t).out ((ls t).calls - 1) _ j = _
      unfold upd1; rw [if_neg (by omega)]; exact T.out j hj
    case hres =>
      intro _ _
      show upd1 (ls t).out ((ls t).calls - 1) _ k = _
      unfold upd1; rw [if_pos (by omega), hval]
    case hok => trivial
    case hpub => exact T.pub
    all_goals red_auto T

end

end SpMP
