import Verif.RcmGet
import Verif.BfsLevLoop
/-
The choice of a source for a large component: it ends, stays within its arrays and returns a node of the component.
-/

namespace SpMP
open Spec

variable {R : Type} {sz : CArr → Int} {A : Csr R} {k T : Nat} {m0 : Mem (CTy R)}

/-- initializeBitVector by a team. -/
theorem rcmClear_ok {M : Nat} {N : List Nat} {pa : Nat → Nat} {st : Int} (hpa : ∀ x, x < N.length → pa x < T) (hnd : N.Nodup) (hN : ∀ x ∈ N, x < M)
    (hq : HoldsQ m0 5 st N) (hdef : ∀ x ∈ N, ∃ v : Int, m0 bfsBits (x : Int) = some v) (hsz : (M : Int) ≤ sz bfsBits) {Post : (Nat → Unit) → Mem (CTy R) → Prop}
    (hk : ∀ r m, (∀ x ∈ N, m bfsBits (x : Int) = some (0 : Int)) → (∀ a i, ¬ (a = bfsBits ∧ ∃ x : Nat, x ∈ N ∧ i = (x : Int)) → m a i = m0 a i) → Post r m) :
    ParOk sz T Post (rcmClear M N.length pa st) m0 := by
  let W : Nat → CArr → Int → Prop := fun t a i => a = bfsBits ∧ ∃ x y : Nat, pa x = t ∧ N[x]? = some y ∧ i = (y : Int)
  refine par_rule (W := W) (R := fun t a i => W t a i ∨ a = .itmp 5)
    (Q := fun t _ m => ∀ x y : Nat, pa x = t → N[x]? = some y → m bfsBits (y : Int) = some (0 : Int)) ?_ ?_ ?_
  · rintro t u a i _ _ hne ⟨rfl, x, y, h1, h2, h3⟩ (⟨_, x', y', h4, h5, h6⟩ | e)
    · obtain rfl : y = y' := by omega
      have hx := (List.getElem?_eq_some_iff.1 h2).1
      have e := (List.getElem?_inj hx hnd).1 (h2.trans h5.symm)
      subst e
      omega
    · simp at e
  · intro t ht
    unfold rcmClear
    refine wp_forN (b := 0) (lo := 0) (hi := N.length)
      (fun n _ m => (∀ x y : Nat, x < n → pa x = t → N[x]? = some y → m bfsBits (y : Int) = some (0 : Int)) ∧
        (∀ x : Nat, x ∈ N → ∃ v : Int, m bfsBits (x : Int) = some v) ∧ ∀ a i, a ≠ bfsBits → m a i = m0 a i)
      (by omega) ⟨fun x y h => by omega, hdef, fun _ _ _ => rfl⟩ ?_ ?_ (by omega) (by omega)
    · rintro n _ m _ hn ⟨h1, h2, h3⟩
      rw [Int.add_zero, Int.toNat_natCast]
      by_cases hp : pa n = t
      swap
      · rw [if_neg hp, wp_pure]
        refine ⟨fun x y hx h4 h5 => ?_, h2, h3⟩
        by_cases e : x = n
        · subst e; exact absurd h4 hp
        · exact h1 x y (by omega) h4 h5
      rw [if_pos hp]
      unfold bfsUnmark
      have hx := List.getElem_mem hn
      have hl := hN _ hx
      refine wp_rd (N[n] : Int) (Or.inr rfl) (by rw [h3 _ _ (by simp)]; exact hq n _ (List.getElem?_eq_getElem hn)) ?_
      rw [wp_bind, wp_assert]
      refine ⟨⟨by show (0 : Int) ≤ (N[n] : Int); omega, by show (N[n] : Int) < (M : Int); omega⟩, ?_⟩
      obtain ⟨v, hv⟩ := h2 _ hx
      have hw : W t bfsBits (N[n] : Int) := ⟨rfl, n, N[n], hp, List.getElem?_eq_getElem hn, rfl⟩
      rw [wp_bind]
      unfold Prog.atomic wp
      refine ⟨hw, by omega, by omega, Or.inl hw, v, hv, ?_⟩
      refine wp_pure.2 (wp_pure.2 ?_)
      refine ⟨fun x y hx' h4 h5 => ?_, fun x hx' => ?_, fun a i ha => ?_⟩
      · by_cases e : y = N[n]
        · subst e; exact Mem.get_same _ _ _ _
        · rw [Mem.get_ne _ _ _ _ _ (by omega)]
          refine h1 x y ?_ h4 h5
          by_contra hc
          obtain rfl : x = n := by omega
          rw [List.getElem?_eq_getElem hn] at h5
          exact e (by simpa using h5.symm)
      · by_cases e : x = N[n]
        · subst e; exact ⟨0, Mem.get_same _ _ _ _⟩
        · rw [Mem.get_ne _ _ _ _ _ (by omega)]; exact h2 x hx'
      · rw [Mem.set_other _ _ _ _ _ ha]; exact h3 a i ha
    · rintro _ m ⟨h1, _, _⟩ x y h4 h5
      exact h1 x y (List.getElem?_eq_some_iff.1 h5).1 h4 h5
  · intro r m h1 h2
    refine hk r m (fun x hx => ?_) (fun a i hn => h2 a i ?_)
    · obtain ⟨j, hj, rfl⟩ := List.getElem_of_mem hx
      have hj' := List.getElem?_eq_getElem hj
      obtain ⟨mt, h3, h4⟩ := h1 (pa j) (hpa j hj)
      rw [h4 _ _ (Or.inl ⟨rfl, j, _, rfl, hj', rfl⟩)]
      exact h3 j _ rfl hj'
    · rintro t _ ⟨rfl, x, y, _, h5, h6⟩
      exact hn ⟨rfl, y, List.mem_of_getElem? h5, h6⟩

theorem wp_selDeg {W : CArr → Int → Prop} {Rd : CArr → Int → Prop} {m : Mem (CTy R)} {u : Nat} (hu : u < A.m) (hR : ∀ i, Rd (.rowptr k) i) (wf : A.WF)
    (hpat : HoldsPat m k 0 A) {Q : Int → Mem (CTy R) → Prop} (hQ : Q (degree A u : Int) m) : wp sz W Rd (selDeg k (u : Int)) m Q := by
  unfold selDeg
  have h1 := hpat.rowptr (u + 1) (by omega)
  rw [show ((u + 1 : Nat) : Int) = (u : Int) + 1 by omega] at h1
  refine wp_rd ((A.ptr (u + 1) : Int) + (0 : Nat) : Int) (hR _) h1 ?_
  refine wp_rd ((A.ptr u : Int) + (0 : Nat) : Int) (hR _) (hpat.rowptr u (by omega)) ?_
  have hm := wf.ptr_mono (show u ≤ u + 1 by omega) (by omega)
  refine wp_pure.2 ?_
  have e : ((A.ptr (u + 1) : Int) + (0 : Nat)) - ((A.ptr u : Int) + (0 : Nat)) = (degree A u : Int) := by unfold degree; omega
  show Q (((A.ptr (u + 1) : Int) + (0 : Nat)) - ((A.ptr u : Int) + (0 : Nat))) m
  rw [e]; exact hQ

/-- A node of smallest degree. -/
def MinDeg (A : Csr R) (N : List Nat) (s : Int × Int) : Prop := ∃ u : Nat, u ∈ N ∧ s = ((degree A u : Int), (u : Int))

theorem wp_minDegThread {N : List Nat} {pa : Nat → Nat} {st : Int} {t : Nat} (wf : A.WF) (hN : ∀ x ∈ N, x < A.m) (hdeg : ∀ x ∈ N, (degree A x : Int) < intMax)
    (hq : HoldsQ m0 5 st N) (hpat : HoldsPat m0 k 0 A) {Q : Int × Int → Mem (CTy R) → Prop}
    (hQ : ∀ s, (s = (intMax, -1) ∨ MinDeg A N s) → (∀ j x : Nat, pa j = t → N[j]? = some x → s.1 ≤ (degree A x : Int)) → Q s m0) :
    wp sz (fun _ _ => False) (fun _ _ => True) (minDegThread k N.length pa st t) m0 Q := by
  unfold minDegThread
  refine wp_forN (b := 0) (lo := 0) (hi := N.length)
    (fun n s m => m = m0 ∧ (s = (intMax, -1) ∨ MinDeg A N s) ∧ ∀ j x : Nat, j < n → pa j = t → N[j]? = some x → s.1 ≤ (degree A x : Int))
    (by omega) ⟨rfl, Or.inl rfl, fun j x h => by omega⟩ ?_ ?_ (by omega) (by omega)
  · rintro n s m _ hn ⟨rfl, h1, h2⟩
    rw [Int.add_zero, Int.toNat_natCast]
    by_cases hp : pa n = t
    swap
    · rw [if_neg hp]
      refine wp_pure.2 ⟨rfl, h1, fun j x hj hpj hx => ?_⟩
      by_cases e : j = n
      · subst e; exact absurd hpj hp
      · exact h2 j x (by omega) hpj hx
    rw [if_pos hp]
    have hmem := List.getElem_mem hn
    refine wp_rd (N[n] : Int) trivial (hq n _ (List.getElem?_eq_getElem hn)) ?_
    rw [wp_bind]
    refine wp_selDeg (A := A) (hN _ hmem) (fun _ => trivial) wf hpat (wp_pure.2 ⟨rfl, ?_, fun j x hj hpj hx => ?_⟩)
    · by_cases hc : (degree A N[n] : Int) < s.1
      · rw [if_pos hc]; exact Or.inr ⟨_, hmem, rfl⟩
      · rw [if_neg hc]; exact h1
    · have key : (if (degree A N[n] : Int) < s.1 then ((degree A N[n] : Int), (N[n] : Int)) else s).1 ≤ s.1 ∧
          (if (degree A N[n] : Int) < s.1 then ((degree A N[n] : Int), (N[n] : Int)) else s).1 ≤ (degree A N[n] : Int) := by
        by_cases hc : (degree A N[n] : Int) < s.1
        · rw [if_pos hc]; exact ⟨by show (degree A N[n] : Int) ≤ _; omega, Int.le_refl _⟩
        · rw [if_neg hc]; exact ⟨Int.le_refl _, by omega⟩
      by_cases e : j = n
      · subst e
        rw [List.getElem?_eq_getElem hn] at hx
        injection hx with hx
        subst hx
        exact key.2
      · exact Int.le_trans key.1 (h2 j x (by omega) hpj hx)
  · rintro s m ⟨rfl, h1, h2⟩
    exact hQ s h1 fun j x hp hx => h2 j x (List.getElem?_eq_some_iff.1 hx).1 hp hx

theorem minDegPick_le {r : Nat → Int × Int} {n : Nat} : ∀ t, t < n → (minDegPick r n).1 ≤ (r t).1 := by
  induction n with
  | zero => intro t h; omega
  | succ n ih =>
    intro t ht
    unfold minDegPick
    by_cases hc : (r n).1 < (minDegPick r n).1
    · rw [if_pos hc]
      by_cases e : t = n
      · subst e; exact Int.le_refl _
      · have := ih t (by omega); omega
    · rw [if_neg hc]
      by_cases e : t = n
      · subst e; omega
      · exact ih t (by omega)

theorem minDegPick_mem {N : List Nat} {r : Nat → Int × Int} {n : Nat} (h : ∀ t, t < n → r t = (intMax, -1) ∨ MinDeg A N (r t)) :
    minDegPick r n = (intMax, -1) ∨ MinDeg A N (minDegPick r n) := by
  induction n with
  | zero => exact Or.inl rfl
  | succ n ih =>
    unfold minDegPick
    by_cases hc : (r n).1 < (minDegPick r n).1
    · rw [if_pos hc]; exact h n (by omega)
    · rw [if_neg hc]; exact ih fun t ht => h t (by omega)

/-- getMinDegreeNode: a node of the component of smallest degree. -/
theorem minDeg_ok {N : List Nat} {pa : Nat → Nat} {st : Int} (wf : A.WF) (hne : N ≠ []) (hpa : ∀ x, x < N.length → pa x < T) (hN : ∀ x ∈ N, x < A.m)
    (hdeg : ∀ x ∈ N, (degree A x : Int) < intMax) (hq : HoldsQ m0 5 st N) (hpat : HoldsPat m0 k 0 A) {Post : (Nat → Int × Int) → Mem (CTy R) → Prop}
    (hk : ∀ r, (∃ u : Nat, u ∈ N ∧ (minDegPick r T).2 = (u : Int) ∧ ∀ x ∈ N, degree A u ≤ degree A x) → Post r m0) :
    ParOk sz T Post (minDegThread k N.length pa st) m0 := by
  refine par_rule (W := fun _ _ _ => False) (R := fun _ _ _ => True)
    (Q := fun t s _ => (s = (intMax, -1) ∨ MinDeg A N s) ∧ ∀ j x : Nat, pa j = t → N[j]? = some x → s.1 ≤ (degree A x : Int)) (fun _ _ _ _ _ _ _ h _ => h) ?_ ?_
  · intro t _
    exact wp_minDegThread wf hN hdeg hq hpat fun s h1 h2 => ⟨h1, h2⟩
  · intro r m h1 h2
    obtain rfl : m = m0 := by funext a i; exact h2 a i (fun _ _ h => h)
    have hr : ∀ t, t < T → (r t = (intMax, -1) ∨ MinDeg A N (r t)) ∧ ∀ j x : Nat, pa j = t → N[j]? = some x → (r t).1 ≤ (degree A x : Int) :=
      fun t ht => (h1 t ht).elim fun _ h => h.1
    refine hk r ?_
    have hle : ∀ x ∈ N, (minDegPick r T).1 ≤ (degree A x : Int) := by
      intro x hx
      obtain ⟨j, hj, rfl⟩ := List.getElem_of_mem hx
      exact Int.le_trans (minDegPick_le _ (hpa j hj)) ((hr _ (hpa j hj)).2 j _ rfl (List.getElem?_eq_getElem hj))
    rcases minDegPick_mem (A := A) (N := N) fun t ht => (hr t ht).1 with h | ⟨u, hu, h⟩
    · obtain ⟨x, hx⟩ := List.exists_mem_of_ne_nil N hne
      have h3 := hle x hx
      have h4 := hdeg x hx
      rw [h] at h3
      change intMax ≤ _ at h3
      omega
    · refine ⟨u, hu, by rw [h], fun x hx => ?_⟩
      have h3 := hle x hx
      rw [h] at h3
      change (degree A u : Int) ≤ _ at h3
      omega

/-- The first `c` candidates are nodes with `P`. -/
def CandOk (P : Nat → Prop) (c : Int) (m : Mem (CTy R)) : Prop := ∀ i : Int, 0 ≤ i → i < c → ∃ x : Nat, m rcmCand i = some (x : Int) ∧ P x

theorem CandOk.set {P : Nat → Prop} {c : Int} {m : Mem (CTy R)} (h : CandOk P c m) (i : Int) {x : Nat} (hx : P x) : CandOk P c (m.set rcmCand i (x : Int)) := by
  intro j h1 h2
  by_cases e : j = i
  · subst e; exact ⟨x, Mem.get_same _ _ _ _, hx⟩
  · rw [Mem.get_ne _ _ _ _ _ e]; exact h j h1 h2

theorem CandOk.push {P : Nat → Prop} {c : Int} {m : Mem (CTy R)} (h : CandOk P c m) {x : Nat} (hx : P x) : CandOk P (c + 1) (m.set rcmCand c (x : Int)) := by
  intro j h1 h2
  by_cases e : j = c
  · subst e; exact ⟨x, Mem.get_same _ _ _ _, hx⟩
  · rw [Mem.get_ne _ _ _ _ _ e]; exact h j h1 (by omega)

/-- Nothing but the candidates changed. -/
def CandOnly (m0 m : Mem (CTy R)) : Prop := ∀ a i, a ≠ rcmCand → m a i = m0 a i

theorem CandOnly.set {m : Mem (CTy R)} (h : CandOnly m0 m) (i v : Int) : CandOnly m0 (m.set rcmCand i v) := by
  intro a j ha
  rw [Mem.set_other _ _ _ _ _ ha]; exact h a j ha

theorem CandOnly.pat {m : Mem (CTy R)} (h : CandOnly m0 m) (hp : HoldsPat m0 k 0 A) : HoldsPat m k 0 A :=
  ⟨fun i hi => by rw [h _ _ (by simp)]; exact hp.rowptr i hi, fun i hi => by rw [h _ _ (by simp)]; exact hp.colidx i hi⟩

section
variable {P : Nat → Prop}

theorem wp_selGather {p : Nat} {Qs : Nat → List Nat} {qt : Nat → Int} (hp : p < 2) (hqt : ∀ t, qt t = ((Qs t).length : Int))
    (hQs : ∀ t, t < T → HoldsQ m0 (10 + p) ((t : Int) * A.m) (Qs t)) (hP : ∀ t, t < T → ∀ x ∈ Qs t, P x) (hsz : psum qt T ≤ sz rcmCand)
    {Q : Int → Mem (CTy R) → Prop} (hQ : ∀ m, CandOk P (psum qt T) m → CandOnly m0 m → Q (psum qt T) m) :
    wp sz (fun _ _ => True) (fun _ _ => True) (selGather T A.m p qt) m0 Q := by
  have hq0 : ∀ t, 0 ≤ qt t := fun t => by rw [hqt]; omega
  unfold selGather
  refine wp_forN (b := 0) (lo := 0) (hi := T) (fun n c m => c = psum qt n ∧ CandOk P c m ∧ CandOnly m0 m) (by omega)
    ⟨rfl, fun i h1 h2 => by change i < 0 at h2; omega, fun _ _ _ => rfl⟩ ?_ ?_ (by omega) (by omega)
  · rintro n c m _ hn ⟨rfl, h1, h2⟩
    rw [Int.add_zero, Int.toNat_natCast]
    have hmono : psum qt (n + 1) ≤ psum qt T := psum_mono hq0 (by omega)
    have hnn : 0 ≤ psum qt n := by
      have := psum_mono hq0 (show 0 ≤ n by omega)
      rwa [show psum qt 0 = 0 from rfl] at this
    have hs : psum qt (n + 1) = psum qt n + qt n := rfl
    refine wp_forN (b := 0) (lo := 0) (hi := (Qs n).length) (fun j c m => c = psum qt n + j ∧ CandOk P c m ∧ CandOnly m0 m) (by omega)
      ⟨by simp, h1, h2⟩ ?_ ?_ (by omega) (by rw [hqt]; omega)
    · rintro j c m _ hj ⟨rfl, h1, h2⟩
      rw [Int.add_zero]
      have hq := hqt n
      refine wp_rd ((Qs n)[j] : Int) trivial (by
        rw [h2 _ _ (by intro e; injection e with e; omega)]; exact hQs n hn j _ (List.getElem?_eq_getElem hj)) ?_
      refine wp_wr trivial ⟨by omega, by omega⟩ ?_
      refine wp_pure.2 ⟨by push_cast; omega, h1.push (hP n hn _ (List.getElem_mem hj)), h2.set _ _⟩
    · rintro c m ⟨rfl, h1, h2⟩
      have e : psum qt (n + 1) = psum qt n + ((Qs n).length : Int) := by rw [hs, hqt]
      refine ⟨e.symm, ?_, h2⟩
      exact h1
  · rintro c m ⟨rfl, h1, h2⟩
    exact hQ m h1 h2

variable (wf : A.WF) (hpat : HoldsPat m0 k 0 A) (hPm : ∀ x, P x → x < A.m)
include wf hpat hPm

theorem wp_selShift {n : Int} (hsz : n ≤ sz rcmCand) {c : Nat} (hc : P c) (d : Int) {Q : Unit → Mem (CTy R) → Prop}
    (hQ : ∀ m, CandOk P n m → CandOnly m0 m → Q () m) :
    ∀ (j : Nat) (m : Mem (CTy R)), (j : Int) < n → CandOk P n m → CandOnly m0 m → wp sz (fun _ _ => True) (fun _ _ => True) (selShift k (c : Int) d j) m Q := by
  intro j
  induction j with
  | zero =>
    intro m hj h1 h2
    unfold selShift
    exact wp_wr1 trivial ⟨by omega, by omega⟩ (hQ _ (h1.set _ hc) (h2.set _ _))
  | succ j ih =>
    intro m hj h1 h2
    unfold selShift
    obtain ⟨x, hx, hPx⟩ := h1 (j : Int) (by omega) (by omega)
    refine wp_rd (x : Int) trivial hx ?_
    rw [wp_bind]
    refine wp_selDeg (A := A) (hPm x hPx) (fun _ => trivial) wf (h2.pat hpat) ?_
    by_cases hd : d < (degree A x : Int)
    · rw [if_pos hd]
      refine wp_wr trivial ⟨by omega, by omega⟩ ?_
      exact ih _ (by omega) (h1.set _ hPx) (h2.set _ _)
    · rw [if_neg hd]
      exact wp_wr1 trivial ⟨by omega, by omega⟩ (hQ _ (h1.set _ hc) (h2.set _ _))

theorem wp_selSort {n : Nat} (hn : 1 ≤ n) (hsz : (n : Int) ≤ sz rcmCand) {m : Mem (CTy R)} (h1 : CandOk P n m) (h2 : CandOnly m0 m) {Q : Unit → Mem (CTy R) → Prop}
    (hQ : ∀ m, CandOk P n m → CandOnly m0 m → Q () m) : wp sz (fun _ _ => True) (fun _ _ => True) (selSort k (n : Int)) m Q := by
  unfold selSort
  refine wp_forN (b := 0) (lo := 1) (hi := n) (fun _ _ m => CandOk P n m ∧ CandOnly m0 m) (by omega) ⟨h1, h2⟩ ?_ ?_ (by omega) (by omega)
  · rintro i _ m _ hi ⟨h1, h2⟩
    rw [Int.add_zero]
    obtain ⟨x, hx, hPx⟩ := h1 (i : Int) (by omega) (by omega)
    refine wp_rd (x : Int) trivial hx ?_
    rw [wp_bind]
    refine wp_selDeg (A := A) (hPm x hPx) (fun _ => trivial) wf (h2.pat hpat) ?_
    rw [Int.toNat_natCast]
    exact wp_selShift wf hpat hPm hsz hPx _ (fun m a b => ⟨a, b⟩) i m (by omega) h1 h2
  · rintro _ m ⟨h1, h2⟩
    exact hQ m h1 h2

omit wf hpat hPm in
theorem wp_selHas {o : Nat} {n v : Int} (ho : (o : Int) ≤ n) {m : Mem (CTy R)} (h1 : CandOk P n m) {Q : Bool → Mem (CTy R) → Prop} (hQ : ∀ b, Q b m) :
    wp sz (fun _ _ => True) (fun _ _ => True) (selHas (o : Int) v) m Q := by
  unfold selHas
  refine wp_forN (b := 0) (lo := 0) (hi := o) (fun _ _ m' => m' = m) (by omega) rfl ?_ ?_ (by omega) (by omega)
  · rintro i a m' _ hi rfl
    rw [Int.add_zero]
    cases a with
    | true => rw [if_pos rfl]; exact wp_pure.2 rfl
    | false =>
      rw [if_neg (by simp)]
      obtain ⟨x, hx, _⟩ := h1 (i : Int) (by omega) (by omega)
      exact wp_rd (x : Int) trivial hx (wp_pure.2 rfl)
  · rintro b m' rfl
    exact hQ b

omit hPm in
theorem wp_selAdj {o u : Nat} {n : Int} (ho : (o : Int) ≤ n) (hu : u < A.m) {m : Mem (CTy R)} (h1 : CandOk P n m) (h2 : CandOnly m0 m) {Q : Bool → Mem (CTy R) → Prop}
    (hQ : ∀ b, Q b m) : wp sz (fun _ _ => True) (fun _ _ => True) (selAdj k (o : Int) (u : Int)) m Q := by
  have hp := h2.pat hpat
  unfold selAdj
  rw [wp_bind]
  refine wp_selHas ho h1 ?_
  intro b
  have e1 := hp.rowptr (u + 1) (by omega)
  rw [show ((u + 1 : Nat) : Int) = (u : Int) + 1 by omega] at e1
  refine wp_rd ((A.ptr u : Int) + (0 : Nat) : Int) trivial (hp.rowptr u (by omega)) ?_
  refine wp_rd ((A.ptr (u + 1) : Int) + (0 : Nat) : Int) trivial e1 ?_
  have hm := wf.ptr_mono (show u ≤ u + 1 by omega) (by omega)
  refine wp_forN (b := 0) (lo := A.ptr u) (hi := A.ptr (u + 1)) (fun _ _ m' => m' = m) hm rfl ?_ ?_ (by omega) (by omega)
  · rintro j a m' _ hj rfl
    rw [Int.add_zero]
    cases a with
    | true => rw [if_pos rfl]; exact wp_pure.2 rfl
    | false =>
      rw [if_neg (by simp)]
      have hjn : j < A.nnz := Nat.lt_of_lt_of_le hj (wf.ptr_le_nnz (by omega))
      refine wp_rd ((A.col j : Int) + (0 : Nat) : Int) trivial (hp.colidx j hjn) ?_
      exact wp_selHas ho h1 fun _ => rfl
  · rintro b m' rfl
    exact hQ b

theorem wp_selPick {n : Nat} (hn : 1 ≤ n) (hsz : (n : Int) ≤ sz rcmCand) {m : Mem (CTy R)} (h1 : CandOk P n m) (h2 : CandOnly m0 m) {Q : Int → Mem (CTy R) → Prop}
    (hQ : ∀ (o : Nat) m, 1 ≤ o → o ≤ n → CandOk P n m → CandOnly m0 m → Q (o : Int) m) : wp sz (fun _ _ => True) (fun _ _ => True) (selPick k (n : Int)) m Q := by
  unfold selPick
  refine wp_forN (b := 0) (lo := 1) (hi := n) (fun i o m => (∃ o' : Nat, o = (o' : Int) ∧ 1 ≤ o' ∧ o' ≤ i) ∧ CandOk P n m ∧ CandOnly m0 m) (by omega)
    ⟨⟨1, rfl, by omega, by omega⟩, h1, h2⟩ ?_ ?_ (by omega) (by omega)
  · rintro i o m hi1 hi ⟨⟨o, rfl, o1, o2⟩, h1, h2⟩
    rw [Int.add_zero]
    by_cases ho : (o : Int) < 5
    · rw [if_pos ho]
      obtain ⟨x, hx, hPx⟩ := h1 (i : Int) (by omega) (by omega)
      refine wp_rd (x : Int) trivial hx ?_
      rw [wp_bind]
      refine wp_selAdj wf hpat (by omega) (hPm x hPx) h1 h2 ?_
      intro b
      cases b with
      | true => rw [if_pos rfl]; exact wp_pure.2 ⟨⟨o, rfl, o1, by omega⟩, h1, h2⟩
      | false =>
        rw [if_neg (by simp)]
        refine wp_wr trivial ⟨by omega, by omega⟩ ?_
        exact wp_pure.2 ⟨⟨o + 1, by push_cast; rfl, by omega, by omega⟩, h1.set _ hPx, h2.set _ _⟩
    · rw [if_neg ho]
      exact wp_pure.2 ⟨⟨o, rfl, o1, by omega⟩, h1, h2⟩
  · rintro o m ⟨⟨o, rfl, o1, o2⟩, h1, h2⟩
    exact hQ o m o1 o2 h1 h2

/-- Candidates of a last level. -/
theorem wp_selCands {p : Nat} {Qs : Nat → List Nat} {qt : Nat → Int} (hp : p < 2) (hqt : ∀ t, qt t = ((Qs t).length : Int))
    (hQs : ∀ t, t < T → HoldsQ m0 (10 + p) ((t : Int) * A.m) (Qs t)) (hP : ∀ t, t < T → ∀ x ∈ Qs t, P x) (hpos : 0 < psum qt T) (hsz : psum qt T ≤ sz rcmCand)
    {Q : Int → Mem (CTy R) → Prop} (hQ : ∀ (o : Nat) m, 1 ≤ o → CandOk P o m → CandOnly m0 m → Q (o : Int) m) :
    wp sz (fun _ _ => True) (fun _ _ => True) (selCands k T A.m p qt) m0 Q := by
  unfold selCands
  rw [wp_bind]
  refine wp_selGather hp hqt hQs hP hsz ?_
  intro m h1 h2
  obtain ⟨n, hn⟩ : ∃ n : Nat, psum qt T = (n : Int) := ⟨(psum qt T).toNat, by omega⟩
  rw [hn] at h1 hsz hpos ⊢
  rw [wp_bind]
  refine wp_selSort wf hpat hPm (by omega) hsz h1 h2 ?_
  intro m h1 h2
  refine wp_selPick wf hpat hPm (by omega) hsz h1 h2 ?_
  intro o m o1 o2 h1 h2
  exact hQ o m o1 (fun i a b => h1 i a (by omega)) h2

end

/-- `d` levels from `s`. -/
def Ecc (A : Csr R) (s d : Nat) : Prop := (∀ x e, IsDist A s x e → e < d) ∧ ∀ e, e < d → ∃ x, IsDist A s x e

theorem Ecc.unique {s d e : Nat} (h1 : Ecc A s d) (h2 : Ecc A s e) : d = e := by
  rcases Nat.lt_trichotomy d e with h | h | h
  · obtain ⟨x, hx⟩ := h2.2 d h
    exact absurd (h1.1 x d hx) (by omega)
  · exact h
  · obtain ⟨x, hx⟩ := h1.2 e h
    exact absurd (h2.1 x e hx) (by omega)

theorem dist_below {s x d e : Nat} (h : IsDist A s x d) (he : e ≤ d) : ∃ y, IsDist A s y e := by
  have key : ∀ n, n ≤ d → ∃ y, IsDist A s y (d - n) := by
    intro n
    induction n with
    | zero => intro _; exact ⟨x, h⟩
    | succ n ih =>
      intro hn
      obtain ⟨y, hy⟩ := ih (by omega)
      rw [show d - n = (d - (n + 1)) + 1 by omega] at hy
      obtain ⟨_, u, _, hu, _⟩ := isDist_succ_iff.1 hy
      exact ⟨u, hu⟩
  have := key (d - e) (by omega)
  rwa [show d - (d - e) = e by omega] at this

theorem ecc_exists (wf : A.WF) (hsq : A.n = A.m) {s : Nat} (hs : s < A.m) : ∃ d, Ecc A s d := by
  classical
  by_contra hn
  have key : ∀ n, ∃ x, IsDist A s x n := by
    intro n
    induction n with
    | zero => exact ⟨s, isDist_zero⟩
    | succ n ih =>
      obtain ⟨x, hx⟩ := ih
      by_contra hc
      refine hn ⟨n + 1, fun y e hy => ?_, fun e he => dist_below hx (by omega)⟩
      by_contra hle
      exact hc (dist_below hy (by omega))
  obtain ⟨x, hx⟩ := key A.m
  have := dist_lt_m wf hsq hs hx
  omega

/-- Cells the selection for the component of `ρ` may change. -/
def SelCell (A : Csr R) (ρ : Nat) (a : CArr) (i : Int) : Prop :=
  a = bfsQ 0 ∨ a = bfsQ 1 ∨ a = bufA ∨ a = rcmCand ∨ ((a = bfsBits ∨ a = bfsLev) ∧ ∃ x : Nat, Reaches A ρ x ∧ i = (x : Int))

/-- What the selection for the component of `ρ`, with nodes `N` stored from `off` on, relies on. -/
structure SelCtx (A : Csr R) (T : Nat) (sz : CArr → Int) (ρ : Nat) (N : List Nat) (clr : Nat → Nat) : Prop where
  wf : A.WF
  sq : A.n = A.m
  sym : PatSym A
  hT : 1 ≤ T
  big : 2 ≤ T * A.m
  hρ : ρ < A.m
  nodup : N.Nodup
  mem : ∀ x, x ∈ N ↔ Reaches A ρ x
  clear : ∀ x, x < N.length → clr x < T
  q0 : (T : Int) * A.m ≤ sz (bfsQ 0)
  q1 : (T : Int) * A.m ≤ sz (bfsQ 1)
  rp : (T : Int) * A.m ≤ sz bufA
  bits : (A.m : Int) ≤ sz bfsBits
  cand : (A.m : Int) ≤ sz rcmCand
  max : (T : Int) * A.m < intMax
  last : ∀ (s d : Nat) (l : List Nat), Reaches A ρ s → l.Nodup → (∀ x ∈ l, IsDist A s x d) → (∀ x e, IsDist A s x e → e ≤ d) → T * l.length ≤ A.m

/-- The state during the selection. -/
structure SelInv (A : Csr R) (ρ : Nat) (m0 m : Mem (CTy R)) : Prop where
  bits : ∀ x, Reaches A ρ x → ∃ v : Int, m bfsBits (x : Int) = some v
  frame : ∀ a i, ¬ SelCell A ρ a i → m a i = m0 a i

section
variable {ρ off : Nat} {N : List Nat} {clr : Nat → Nat} (h : SelCtx A T sz ρ N clr) (hpat : HoldsPat m0 k 0 A) (hq : HoldsQ m0 5 (off : Int) N)

theorem SelInv.pat {m : Mem (CTy R)} (hi : SelInv A ρ m0 m) (hpat : HoldsPat m0 k 0 A) : HoldsPat m k 0 A :=
  ⟨fun i hl => by rw [hi.frame _ _ (by simp [SelCell])]; exact hpat.rowptr i hl, fun i hl => by rw [hi.frame _ _ (by simp [SelCell])]; exact hpat.colidx i hl⟩

theorem SelInv.nodes {m : Mem (CTy R)} (hi : SelInv A ρ m0 m) (hq : HoldsQ m0 5 (off : Int) N) : HoldsQ m 5 (off : Int) N := fun j x hj => by
  rw [hi.frame _ _ (by simp [SelCell])]; exact hq j x hj

include h

theorem SelCtx.reach_iff {s : Nat} (hs : Reaches A ρ s) (x : Nat) : Reaches A s x ↔ Reaches A ρ x :=
  ⟨fun hx => hs.trans hx, fun hx => (hs.symm h.sym).trans hx⟩

theorem SelCtx.cell {s : Nat} (hs : Reaches A ρ s) {a : CArr} {i : Int} (hc : LsCell A s a i) : SelCell A ρ a i := by
  rcases hc with e | e | e | ⟨e, x, hx, hi⟩
  · exact Or.inl e
  · exact Or.inr (Or.inl e)
  · exact Or.inr (Or.inr (Or.inl e))
  · exact Or.inr (Or.inr (Or.inr (Or.inr ⟨e, x, (h.reach_iff hs x).1 hx, hi⟩)))

include hq in
/-- initializeBitVector. -/
theorem selClear_ok {m : Mem (CTy R)} (hi : SelInv A ρ m0 m) {Post : (Nat → Unit) → Mem (CTy R) → Prop}
    (hk : ∀ r m', SelInv A ρ m0 m' → (∀ x, Reaches A ρ x → m' bfsBits (x : Int) = some (0 : Int)) → (∀ i, m' rcmCand i = m rcmCand i) → Post r m') :
    ParOk sz T Post (rcmClear A.m N.length clr (off : Int)) m := by
  refine rcmClear_ok h.clear h.nodup (fun x hx => ((h.mem x).1 hx).lt h.wf h.sq h.hρ) (hi.nodes hq) (fun x hx => hi.bits x ((h.mem x).1 hx)) h.bits ?_
  intro r m' h1 h2
  have hz : ∀ x, Reaches A ρ x → m' bfsBits (x : Int) = some (0 : Int) := fun x hx => h1 x ((h.mem x).2 hx)
  refine hk r m' ⟨fun x hx => ⟨0, hz x hx⟩, fun a i hn => ?_⟩ hz (fun i => h2 _ _ (by simp))
  rw [h2 a i ?_]
  · exact hi.frame a i hn
  · rintro ⟨e, x, hx, ei⟩
    exact hn (Or.inr (Or.inr (Or.inr (Or.inr ⟨Or.inl e, x, (h.mem x).1 hx, ei⟩))))

include hpat in
/-- One search. -/
theorem selSearch_ok {s : Nat} (hs : Reaches A ρ s) {m : Mem (CTy R)} (hi : SelInv A ρ m0 m) (hz : ∀ x, Reaches A ρ x → m bfsBits (x : Int) = some (0 : Int))
    {sc : Option Int} {wd : Int} {Q : Int × Int × (Nat → Int) → Mem (CTy R) → Prop}
    (hcut : ∀ r m' w, sc = some w → w < (T : Int) * A.m → r.1 = -1 → SelInv A ρ m0 m' → (∀ i, m' rcmCand i = m rcmCand i) → Q r m')
    (hdone : ∀ r m' (d : Nat), r.1 = (d : Int) + 1 → r.2.1 ≤ max wd ((T : Int) * A.m) → Ecc A s d → LsQueues A T s ((d + 1) % 2) (d - 1) r.2.2 m' →
      SelInv A ρ m0 m' → (∀ i, m' rcmCand i = m rcmCand i) → Q r m') :
    (bfsLevPar sz k 0 T A.m false sc wd (s : Int)).Ok m Q := by
  refine Script.Ok.mono (bfsLevPar_ok h.wf h.sq h.hT h.big (hs.lt h.wf h.sq h.hρ) (hi.pat hpat) (fun x hx => hz x ((h.reach_iff hs x).1 hx)) h.q0 h.q1 h.rp h.bits
    (fun e => absurd e (by simp))) ?_
  rintro r m' (⟨⟨w, hw1, hw2⟩, hr, hc⟩ | ⟨d, hr, hw, hd⟩)
  · refine hcut r m' w hw1 hw2 hr ⟨fun x hx => ?_, fun a i hn => ?_⟩ (fun i => hc.frame _ _ (by simp [LsCell]))
    · rcases hc.bit x ((h.reach_iff hs x).2 hx) with e | e <;> exact ⟨_, e⟩
    · rw [hc.frame a i fun hh => hn (h.cell hs hh)]; exact hi.frame a i hn
  · refine hdone r m' d hr hw ⟨hd.lt, hd.below⟩ hd.last ⟨fun x hx => ⟨1, hd.bit x ((h.reach_iff hs x).2 hx)⟩, fun a i hn => ?_⟩ (fun i => hd.frame _ _ (by simp [LsCell]))
    rw [hd.frame a i fun hh => hn (h.cell hs hh)]; exact hi.frame a i hn

include hpat hq

/-- The loop over candidates. -/
theorem selWidths_ok {s D : Nat} {Q : Int × Int → Mem (CTy R) → Prop}
    (hQ1 : ∀ (s' D' : Nat) m', Reaches A ρ s' → D < D' → Ecc A s' D' → SelInv A ρ m0 m' → Q ((s' : Int), -1) m')
    (hQ2 : ∀ e m', e ≠ -1 → SelInv A ρ m0 m' → Q ((s : Int), e) m') :
    ∀ (left i : Nat) (mw e : Int) (m : Mem (CTy R)), SelInv A ρ m0 m → CandOk (Reaches A ρ) ((i : Int) + left) m → (e ≠ -1 ∨ (mw = intMax ∧ 0 < left)) →
      (selWidths sz T k A.m N.length clr (off : Int) ((D : Int) + 1) left i mw (s : Int) e).Ok m Q := by
  have hnn : (0 : Int) ≤ (T : Int) * A.m := Int.mul_nonneg (by omega) (by omega)
  have hmax := h.max
  intro left
  induction left with
  | zero =>
    intro i mw e m hi _ hc
    unfold selWidths
    refine Script.ok_done_of (hQ2 e m ?_ hi)
    rcases hc with hc | hc
    · exact hc
    · omega
  | succ left ih =>
    intro i mw e m hi hcand hc
    unfold selWidths
    refine selClear_ok h hq hi ?_
    intro _ m1 hi1 hz1 hc1
    obtain ⟨c, hcv, hcr⟩ := hcand (i : Int) (by omega) (by omega)
    refine seq_rule ?_
    refine wp_read.2 ⟨trivial, (c : Int), by rw [hc1]; exact hcv, ?_⟩
    rw [Script.ok_bind]
    have hnext : ∀ m', (∀ j, m' rcmCand j = m1 rcmCand j) → CandOk (Reaches A ρ) (((i + 1 : Nat) : Int) + left) m' := by
      intro m' hm' j h1 h2
      rw [hm', hc1]
      exact hcand j h1 (by push_cast at h2 ⊢; omega)
    refine selSearch_ok h hpat hcr hi1 hz1 ?_ ?_
    · intro r m2 w hw1 hw2 hr hi2 hc2
      rw [if_pos hr]
      refine ih (i + 1) mw e m2 hi2 (hnext m2 hc2) (Or.inl ?_)
      injection hw1 with hw1
      rcases hc with hc | hc
      · exact hc
      · omega
    · intro r m2 d hr hw hecc _ hi2 hc2
      have hw' : r.2.1 ≤ (T : Int) * A.m := Int.le_trans hw (max_le (by unfold intMin; omega) (Int.le_refl _))
      have q : ¬ r.1 = -1 := by omega
      rw [if_neg q]
      by_cases h1 : (D : Int) + 1 < r.1 ∧ r.2.1 < mw
      · rw [if_pos h1]
        exact Script.ok_done_of (hQ1 c d m2 hcr (by omega) hecc hi2)
      rw [if_neg h1]
      by_cases h2 : r.2.1 < mw
      · rw [if_pos h2]
        refine ih (i + 1) r.2.1 (c : Int) m2 hi2 (hnext m2 hc2) (Or.inl (by omega))
      · rw [if_neg h2]
        refine ih (i + 1) mw e m2 hi2 (hnext m2 hc2) (Or.inl ?_)
        rcases hc with hc | hc
        · exact hc
        · omega

omit h hpat hq in
theorem psum_room {qt : Nat → Int} {M : Int} (hT : 1 ≤ T) (hq : ∀ t, t < T → (T : Int) * qt t ≤ M) : psum qt T ≤ M := by
  have key : ∀ n, n ≤ T → (T : Int) * psum qt n ≤ (n : Int) * M := by
    intro n
    induction n with
    | zero => intro _; show (T : Int) * 0 ≤ _; simp
    | succ n ih =>
      intro hn
      have h1 := ih (by omega)
      have h2 := hq n (by omega)
      show (T : Int) * (psum qt n + qt n) ≤ ((n + 1 : Nat) : Int) * M
      rw [Int.mul_add, Nat.cast_succ, Int.add_mul, Int.one_mul]
      omega
  exact Int.le_of_mul_le_mul_left (key T (Nat.le_refl _)) (by omega)

/-- The loop until no candidate gives more levels. -/
theorem selLoop_ok {Q : Int → Mem (CTy R) → Prop} {D0 : Nat}
    (hQ : ∀ (s' D' : Nat) m', Reaches A ρ s' → D0 ≤ D' → Ecc A s' D' → SelInv A ρ m0 m' → Q (s' : Int) m') :
    ∀ (fuel : Nat) (first : Bool) (s D : Nat) (m : Mem (CTy R)), A.m + 2 ≤ fuel + D → Reaches A ρ s → Ecc A s D → D0 ≤ D → SelInv A ρ m0 m →
      (first = true → ∀ x, Reaches A ρ x → m bfsBits (x : Int) = some (0 : Int)) → (selLoop sz T k A.m N.length clr (off : Int) fuel first (s : Int)).Ok m Q := by
  intro fuel
  induction fuel with
  | zero =>
    intro first s D m hf hs hD _ _ _
    obtain ⟨x, hx⟩ := hD.2 (D - 1) (by omega)
    have := dist_lt_m h.wf h.sq (hs.lt h.wf h.sq h.hρ) hx
    omega
  | succ fuel ih =>
    intro first s D m hf hs hD hDD hi hz
    unfold selLoop
    rw [Script.ok_bind]
    have hreset : (selReset sz T A.m N.length clr (off : Int) first).Ok m (fun _ m' => SelInv A ρ m0 m' ∧ ∀ x, Reaches A ρ x → m' bfsBits (x : Int) = some (0 : Int)) := by
      unfold selReset
      cases first with
      | true => rw [if_pos rfl]; exact Script.ok_done_of ⟨hi, hz rfl⟩
      | false =>
        rw [if_neg (by simp)]
        exact selClear_ok h hq hi fun _ m' h1 h2 _ => Script.ok_done_of ⟨h1, h2⟩
    refine Script.Ok.mono hreset ?_
    rintro _ m1 ⟨hi1, hz1⟩
    rw [Script.ok_bind]
    refine selSearch_ok h hpat hs hi1 hz1 (fun _ _ w hw => by cases hw) ?_
    intro r m2 d hr _ hecc hlast hi2 _
    obtain rfl := hecc.unique hD
    have hd1 : 0 < d := hecc.1 s 0 isDist_zero
    obtain ⟨Qs, g1, g2, g3, g4⟩ := hlast
    rw [hr, show ((d : Int) + 1).toNat = d + 1 by omega]
    have hPm : ∀ x, Reaches A ρ x → x < A.m := fun x hx => hx.lt h.wf h.sq h.hρ
    have hdist : ∀ t, t < T → ∀ x ∈ Qs t, IsDist A s x (d - 1) := fun t ht x hx => (g4 x).1 (List.mem_flatMap.2 ⟨t, List.mem_range.2 ht, hx⟩)
    have hroom : psum r.2.2 T ≤ (A.m : Int) := by
      refine psum_room h.hT fun t ht => ?_
      have := h.last s (d - 1) (Qs t) hs (g3 t ht) (hdist t ht) (fun x e he => by have := hecc.1 x e he; omega)
      rw [g2]; exact_mod_cast this
    have hcd := h.cand
    have hpos : 0 < psum r.2.2 T := by
      obtain ⟨x, hx⟩ := hecc.2 (d - 1) (by omega)
      obtain ⟨t, ht, hxt⟩ := List.mem_flatMap.1 ((g4 x).2 hx)
      have ht := List.mem_range.1 ht
      have hq0 : ∀ t, 0 ≤ r.2.2 t := fun t => by rw [g2]; omega
      have h1 := psum_mono hq0 (show t + 1 ≤ T by omega)
      have h2 := psum_mono hq0 (show 0 ≤ t by omega)
      have h3 : psum r.2.2 (t + 1) = psum r.2.2 t + r.2.2 t := rfl
      have h4 : psum r.2.2 0 = 0 := rfl
      have h5 := g2 t
      have h6 := List.length_pos_of_mem hxt
      omega
    refine seq_rule ?_
    refine wp_selCands h.wf (hi2.pat hpat) hPm (by omega) g2 g1 (fun t ht x hx => hs.trans ⟨_, (hdist t ht x hx).1⟩) hpos (by omega) ?_
    intro o m3 ho h3 h4
    have hi3 : SelInv A ρ m0 m3 := by
      refine ⟨fun x hx => ?_, fun a i hn => ?_⟩
      · rw [h4 _ _ (by simp)]; exact hi2.bits x hx
      · rw [h4 a i fun e => hn (by simp [SelCell, e])]; exact hi2.frame a i hn
    rw [Script.ok_bind, Int.toNat_natCast]
    refine selWidths_ok (s := s) (D := d) h hpat hq ?_ ?_ o 0 intMax (-1) m3 hi3 (by simpa using h3) (Or.inr ⟨rfl, by omega⟩)
    · intro s' D' m4 hs' hlt he' hi4
      rw [if_pos rfl]
      exact ih false s' D' m4 (by omega) hs' he' (by omega) hi4 (fun e => absurd e (by simp))
    · intro e m4 he hi4
      rw [if_neg he]
      exact Script.ok_done_of (hQ s d m4 hs hDD hecc hi4)

/-- selectSourcesWithPseudoDiameter ends with a node of the component that has at least as many levels as some node of smallest degree. -/
theorem selectSource_ok {pa : Nat → Nat} (hpa : ∀ x, x < N.length → pa x < T) (hdeg : ∀ x, Reaches A ρ x → (degree A x : Int) < intMax)
    (hz : ∀ x, Reaches A ρ x → m0 bfsBits (x : Int) = some (0 : Int)) {Q : Int → Mem (CTy R) → Prop}
    (hQ : ∀ (u s Du Ds : Nat) m', Reaches A ρ u → (∀ x, Reaches A ρ x → degree A u ≤ degree A x) → Reaches A ρ s → Ecc A u Du → Ecc A s Ds → Du ≤ Ds → SelInv A ρ m0 m' → Q (s : Int) m') :
    (selectSource sz T k A.m N.length pa clr (off : Int)).Ok m0 Q := by
  unfold selectSource
  refine minDeg_ok h.wf (List.ne_nil_of_mem ((h.mem ρ).2 (.refl _))) hpa (fun x hx => ((h.mem x).1 hx).lt h.wf h.sq h.hρ) (fun x hx => hdeg x ((h.mem x).1 hx)) hq hpat ?_
  rintro r ⟨u, hu, hr, hmin⟩
  have hu' := (h.mem u).1 hu
  obtain ⟨Du, hDu⟩ := ecc_exists h.wf h.sq (hu'.lt h.wf h.sq h.hρ)
  dsimp only
  rw [hr]
  refine selLoop_ok (D0 := Du) h hpat hq ?_ (A.m + 2) true u Du m0 (by omega) hu' hDu (Nat.le_refl _) ⟨fun x hx => ⟨0, hz x hx⟩, fun _ _ _ => rfl⟩ (fun _ => hz)
  intro s D m' hs hD he hi
  exact hQ u s Du D m' hu' (fun x hx => hmin x ((h.mem x).2 hx)) hs hDu he hD hi

end

end SpMP
