import Verif.LevelsTrav
import Verif.BinFile
/-
The level search computes the level decomposition.
-/

namespace SpMP
open Spec

set_option linter.unusedSectionVars false

variable {R : Type} [Races CArr]

section
variable {sz : CArr → Int} {m : Mem (CTy R)} {base : Nat} {A : Csr R} {dp ep : Nat → Nat} {hasExt : Bool} {T : Nat}

theorem rowWork_nonneg (hs : SplitRows A dp ep) {r : Nat} (h : r < A.m) : 0 ≤ rowWork dp ep r := by
  have := hs.bounds r h
  unfold rowWork; omega

theorem wS_nonneg (hs : SplitRows A dp ep) {q : List Nat} (h : ∀ r ∈ q, r < A.m) : 0 ≤ wS dp ep q := by
  induction q with
  | nil => exact Int.le_refl _
  | cons r q ih =>
    have h1 := ih (fun x hx => h x (List.mem_cons_of_mem _ hx))
    have h2 := rowWork_nonneg hs (h r List.mem_cons_self)
    have : wS dp ep (r :: q) = rowWork dp ep r + wS dp ep q := by simp [wS]
    omega

theorem wS_append (dp ep : Nat → Nat) (q q' : List Nat) : wS dp ep (q ++ q') = wS dp ep q + wS dp ep q' := by
  simp [wS]

theorem wS_take_mono (hs : SplitRows A dp ep) {q : List Nat} (h : ∀ r ∈ q, r < A.m) {k k' : Nat} (hk : k ≤ k') :
    wS dp ep (q.take k) ≤ wS dp ep (q.take k') := by
  have h1 : q.take k' = q.take k ++ (q.drop k).take (k' - k) := by
    rw [← List.take_add, show k + (k' - k) = k' by omega]
  rw [h1, wS_append]
  have := wS_nonneg (dp := dp) (ep := ep) hs (q := (q.drop k).take (k' - k)) (fun r hr => h r (List.mem_of_mem_drop (List.mem_of_mem_take hr)))
  omega

theorem LvInv.len_le {L : List (List Nat)} {cur : List Nat} (h : LvInv A dp L cur) {q : List Nat} (hq : q.Nodup)
    (hm : ∀ s ∈ q, s < A.m ∧ 0 < remN A dp L.flatten s) : L.flatten.length + cur.length + q.length ≤ A.m := by
  have h1 : ((L.flatten ++ cur) ++ q).Nodup := by
    rw [List.nodup_append]
    refine ⟨h.nodup, hq, ?_⟩
    rintro a ha b hb rfl
    have h2 := (h.ready a (hm a hb).1).1 ha
    have := (hm a hb).2
    omega
  have h2 : ∀ s ∈ (L.flatten ++ cur) ++ q, s < A.m := by
    intro s hs
    rcases List.mem_append.mp hs with h3 | h3
    · exact h.lt s h3
    · exact (hm s h3).1
  have h3 := (List.subperm_of_subset h1 (fun s hs => List.mem_range.mpr (h2 s hs))).length_le
  rw [List.length_range, List.length_append, List.length_append] at h3
  exact h3

theorem LvInv.count_le (hs : SplitRows A dp ep) (hd : NoDup A) (hsym : SymPat A) {L : List (List Nat)} {cur : List Nat}
    (h : LvInv A dp L cur) {s : Nat} (hm : s < A.m) :
    remN A dp (L.flatten ++ cur) s + (cur.flatMap (upL A dp ep)).count s = remN A dp L.flatten s := by
  rw [count_up hs hd hsym (List.nodup_append.mp h.nodup).2.1 (fun j hj => h.lt j (List.mem_append_right _ hj)) hm]
  exact remN_step h.cur_disj s

/-- Ends of the levels, starting with 0. -/
def levEnds (L : List (List Nat)) : List Int := (List.range (L.length + 1)).map fun k => ((L.take k).flatten.length : Int)

theorem levEnds_nil : levEnds [] = [0] := rfl

theorem levEnds_snoc (L : List (List Nat)) (c : List Nat) :
    levEnds (L ++ [c]) = levEnds L ++ [((L.flatten.length : Int) + c.length)] := by
  unfold levEnds
  rw [List.length_append, List.length_singleton, List.range_succ, List.map_append]
  congr 1
  · refine List.map_congr_left ?_
    intro k hk
    rw [List.mem_range] at hk
    rw [List.take_append_of_le_length (by omega)]
  · rw [List.map_singleton, List.take_of_length_le (by simp)]
    simp

/-- State at the head of the loop over levels: the levels `L` are done, `cur` is the next one. -/
structure LvHead (m0 : Mem (CTy R)) (base : Nat) (A : Csr R) (dp ep : Nat → Nat) (hasExt : Bool) (T : Nat)
    (ser : Bool) (qt nz : Nat → Int) (L : List (List Nat)) (cur : List Nat) (m : Mem (CTy R)) : Prop where
  mat : LvMem m base A dp ep hasExt
  inv : LvInv A dp L cur
  rev : HoldsQ m 21 0 L.flatten
  np : ∀ s : Nat, s < A.m → m bufA (npOff T A.m + s) = some (remN A dp L.flatten s : Int)
  frame : ∀ a i, a ≠ bufA → a ≠ revA → m a i = m0 a i
  serForm : ser = true → qt 0 = cur.length ∧ nz 0 = wS dp ep cur ∧ HoldsQ m 21 L.flatten.length cur ∧ HoldsRP m dp ep (rOff T A.m 0) cur
  parForm : ser = false → ∃ Qs : Nat → List Nat, cur = (List.range T).flatMap Qs ∧ (∀ t, qt t = ((Qs t).length : Int)) ∧
    (∀ t, nz t = wS dp ep (Qs t)) ∧ (∀ t, T ≤ t → Qs t = []) ∧
    ∀ t, t < T → HoldsQ m 20 (qOff T A.m t) (Qs t) ∧ HoldsRP m dp ep (rOff T A.m t) (Qs t)

/-- qTailPrefixSum or nnzPrefixSum as the loop body sees it. -/
def lvSum (ser : Bool) (f : Nat → Int) : Nat → Int := if ser then (fun t => if t = 0 then 0 else f 0) else psum f

theorem LvHead.total {m0 : Mem (CTy R)} {ser : Bool} {qt nz : Nat → Int} {L : List (List Nat)} {cur : List Nat} (hT : 1 ≤ T)
    (h : LvHead m0 base A dp ep hasExt T ser qt nz L cur m) : lvSum ser qt T = cur.length := by
  cases ser with
  | true =>
    show (if T = 0 then 0 else qt 0) = _
    rw [if_neg (by omega)]; exact (h.serForm rfl).1
  | false =>
    obtain ⟨Qs, rfl, h1, _⟩ := h.parForm rfl
    show psum qt T = _
    rw [flatMap_length_psum, show qt = fun t => ((Qs t).length : Int) from funext h1]

/-- The next level is in place in `reversePerm`. -/
theorem LvHead.copied {m0 : Mem (CTy R)} {qt nz : Nat → Int} {L : List (List Nat)} {cur : List Nat}
    (h : LvHead m0 base A dp ep hasExt T false qt nz L cur m) {m' : Mem (CTy R)} (hf : ∀ a i, a ≠ revA → m' a i = m a i)
    (hr : ∀ i : Int, i < L.flatten.length → m' revA i = m revA i) : LvHead m0 base A dp ep hasExt T false qt nz L cur m' := by
  refine ⟨h.mat.congr (fun a i ha => hf a i (by rintro rfl; simp [MatCell] at ha)), h.inv, ?_, ?_, ?_, by simp, ?_⟩
  · exact h.rev.congr (fun i _ h2 => hr i (by omega))
  · intro s hs; rw [hf _ _ (by simp)]; exact h.np s hs
  · intro a i h1 h2; rw [hf _ _ h2]; exact h.frame a i h1 h2
  · intro _
    obtain ⟨Qs, h1, h2, h3, h4, h5⟩ := h.parForm rfl
    refine ⟨Qs, h1, h2, h3, h4, fun t ht => ⟨(h5 t ht).1.congr (fun i _ _ => hf _ _ (by simp)), (h5 t ht).2.congr (fun i _ _ => hf _ _ (by simp))⟩⟩

/-- What the partition of the level relies on holds at the loop head. -/
theorem LvHead.cutOk {m0 : Mem (CTy R)} {ser : Bool} {qt nz : Nat → Int} {L : List (List Nat)} {cur : List Nat} (hs : SplitRows A dp ep) (hT : 1 ≤ T)
    (h : LvHead m0 base A dp ep hasExt T ser qt nz L cur m) : ∃ rp : Nat → Nat → Int, CutOk T qt (lvSum ser qt) (lvSum ser nz) rp ∧
      ∀ t k : Nat, t < T → lvSum ser nz t < lvSum ser nz (t + 1) → (k : Int) < qt t → m bufA (rOff T A.m t + k) = some (rp t k) := by
  have hclt : ∀ j ∈ cur, j < A.m := fun j hj => h.inv.lt j (List.mem_append_right _ hj)
  cases ser with
  | true =>
    obtain ⟨h1, h2, h3, h4⟩ := h.serForm rfl
    have e1 : ∀ (f : Nat → Int) t, lvSum true f t = if t = 0 then 0 else f 0 := fun _ _ => rfl
    have hn := wS_nonneg (dp := dp) (ep := ep) hs hclt
    have hz : ∀ t, lvSum true nz t < lvSum true nz (t + 1) → t = 0 ∧ 0 < nz 0 := by
      intro t ht
      rw [e1, e1, if_neg (show ¬ t + 1 = 0 by omega)] at ht
      by_cases h0 : t = 0
      · rw [if_pos h0] at ht; exact ⟨h0, ht⟩
      · rw [if_neg h0] at ht; omega
    refine ⟨fun _ k => wS dp ep (cur.take k), ⟨rfl, rfl, ?_, ?_, ?_, ?_, ?_⟩, ?_⟩
    · intro a b hab _
      rw [e1, e1]; split <;> split <;> omega
    · intro a b hab _
      rw [e1, e1]; split <;> split <;> omega
    · intro t _ ht
      obtain ⟨rfl, h0⟩ := hz t ht
      refine ⟨?_, ?_⟩
      · rw [h1]
        rcases cur with _ | ⟨x, c⟩
        · rw [h2] at h0; exact absurd h0 (by simp [wS])
        · simp
      · rw [e1, e1, if_neg (by omega), if_pos rfl]; omega
    · intro t; simp [wS]
    · intro t k k' _ _ hk _
      exact wS_take_mono hs hclt hk
    · intro t k _ ht hk
      obtain ⟨rfl, h0⟩ := hz t ht
      exact h4 k (by omega)
  | false =>
    obtain ⟨Qs, h1, h2, h3, h4, h5⟩ := h.parForm rfl
    have e1 : ∀ (f : Nat → Int) t, lvSum false f t = psum f t := fun _ _ => rfl
    have hQlt : ∀ t, ∀ r ∈ Qs t, r < A.m := by
      intro t r hr
      by_cases ht : t < T
      · exact hclt r (by rw [h1, List.mem_flatMap]; exact ⟨t, List.mem_range.mpr ht, hr⟩)
      · rw [h4 t (by omega)] at hr; simp at hr
    have hn : ∀ t, 0 ≤ nz t := fun t => by rw [h3]; exact wS_nonneg hs (hQlt t)
    have hq : ∀ t, 0 ≤ qt t := fun t => by rw [h2]; omega
    refine ⟨fun t k => wS dp ep ((Qs t).take k), ⟨rfl, rfl, ?_, ?_, ?_, ?_, ?_⟩, ?_⟩
    · intro a b hab _; exact psum_mono hn hab
    · intro a b hab _; exact psum_mono hq hab
    · intro t _ ht
      have ht : psum nz t < psum nz t + nz t := ht
      refine ⟨?_, rfl⟩
      rw [h2]
      have h6 := h3 t
      rcases hQ : Qs t with _ | ⟨x, c⟩
      · rw [hQ] at h6; simp [wS] at h6; omega
      · simp
    · intro t; simp [wS]
    · intro t k k' _ _ hk _
      exact wS_take_mono hs (hQlt t) hk
    · intro t k htT ht hk
      rw [h2] at hk
      exact (h5 t htT).2 k (by omega)

/-- The part of `reversePerm` that a thread copies. -/
def CopyW (T : Nat) (b n : Int) (t : Nat) (a : CArr) (i : Int) : Prop := a = revA ∧ b + simpleBegin T t n ≤ i ∧ i < b + simpleEnd T t n

def CopyR (T : Nat) (b n : Int) (t : Nat) (a : CArr) (i : Int) : Prop := a ≠ revA ∨ CopyW T b n t a i

theorem copy_disj {b n : Int} (hT : 1 ≤ T) (hn : 0 ≤ n) : ∀ t u a i, t < T → u < T → t ≠ u → CopyW T b n t a i → ¬ CopyR T b n u a i := by
  rintro t u a i _ _ hne ⟨rfl, h1, h2⟩ h3
  rcases h3 with h3 | ⟨_, h3, h4⟩
  · exact h3 rfl
  · rcases Nat.lt_trichotomy t u with h | h | h
    · have := simpleEnd_le_begin (T := T) (t := t) (u := u) (n := n) (by omega) hn (by omega); omega
    · exact hne h
    · have := simpleEnd_le_begin (T := T) (t := u) (u := t) (n := n) (by omega) hn (by omega); omega

/-- The level after a phase in which the queues are copied. -/
theorem LvHead.afterCopy {m0 : Mem (CTy R)} {qt nz : Nat → Int} {L : List (List Nat)} {cur : List Nat} (hT : 1 ≤ T)
    (h : LvHead m0 base A dp ep hasExt T false qt nz L cur m) {m' : Mem (CTy R)}
    (h1 : ∀ t, t < T → ∃ mt : Mem (CTy R), ((∀ a i, a ≠ revA → mt a i = m a i) ∧
      (∀ p s : Nat, cur[p]? = some s → simpleBegin T t (psum qt T) ≤ p → (p : Int) < simpleEnd T t (psum qt T) →
        mt revA ((L.flatten.length : Int) + p) = some (s : Int))) ∧ ∀ a i, CopyR T L.flatten.length (psum qt T) t a i → m' a i = mt a i)
    (h2 : ∀ a i, (∀ t, t < T → ¬ CopyW T L.flatten.length (psum qt T) t a i) → m' a i = m a i) :
    LvHead m0 base A dp ep hasExt T false qt nz L cur m' ∧ HoldsQ m' 21 L.flatten.length cur := by
  have htot : psum qt T = cur.length := h.total hT
  rw [htot] at h1 h2
  have hn : (0 : Int) ≤ cur.length := by omega
  have e1 : ∀ a i, a ≠ revA → m' a i = m a i := fun a i ha => h2 a i (fun t _ hc => ha hc.1)
  refine ⟨h.copied e1 ?_, ?_⟩
  · intro i hi
    refine h2 _ _ ?_
    rintro t ht ⟨_, h3, h4⟩
    have := simpleBegin_nonneg (T := T) (tid := t) (n := cur.length) (by omega) hn (by omega)
    omega
  · intro p s hp
    have hpl := (List.getElem?_eq_some_iff.mp hp).1
    obtain ⟨t, ht0, htT, h3, h4⟩ := simple_exists (T := T) (n := cur.length) (i := p) (by omega) (by omega) (by omega)
    obtain ⟨u, rfl⟩ : ∃ u : Nat, t = u := ⟨t.toNat, by omega⟩
    obtain ⟨mt, ⟨_, k2⟩, k3⟩ := h1 u (by omega)
    rw [k3 _ _ (Or.inr ⟨rfl, by omega, by omega⟩)]
    exact k2 p s hp h3 h4

theorem LvHead.wp_copy {m0 : Mem (CTy R)} {qt nz : Nat → Int} {L : List (List Nat)} {cur : List Nat} (hT : 1 ≤ T)
    (h : LvHead m0 base A dp ep hasExt T false qt nz L cur m) (hszr : (A.m : Int) ≤ sz revA) {tid : Nat}
    {Q : Unit → Mem (CTy R) → Prop}
    (hQ : ∀ mt, ((∀ a i, a ≠ revA → mt a i = m a i) ∧
      (∀ p s : Nat, cur[p]? = some s → simpleBegin T tid (psum qt T) ≤ p → (p : Int) < simpleEnd T tid (psum qt T) →
        mt revA ((L.flatten.length : Int) + p) = some (s : Int))) → Q () mt) :
    wp sz (CopyW T L.flatten.length (psum qt T) tid) (CopyR T L.flatten.length (psum qt T) tid)
      (copyQueues T A.m qt (psum qt) (L.flatten.length : Int) tid) m Q := by
  obtain ⟨Qs, h1, h2, h3, h4, h5⟩ := h.parForm rfl
  have hlen := h.inv.len_le (q := []) List.nodup_nil (by simp)
  refine wp_copyQueues hT h2 (fun t ht => (h5 t ht).1) (by omega) ?_ ?_ ?_ ?_
  · rw [← h1]; rw [List.length_nil] at hlen; omega
  · intro i; exact Or.inl (by simp)
  · intro i k1 k2; exact ⟨rfl, k1, k2⟩
  · rw [← h1]
    intro m' k1 k2
    exact hQ m' ⟨k1, k2⟩

/-- The parts of the threads tile the level. -/
theorem cuts_tile {qt P N : Nat → Int} {rp : Nat → Nat → Int} (hc : CutOk T qt P N rp) (hT : 1 ≤ T) {r : Nat → Int × Int}
    (h : ∀ t, t < T → (if t = 0 then (r t).1 = 0 else CutRel T qt P N rp (((N T + T - 1) / T) * (t : Int)) (r t).1) ∧
      CutRel T qt P N rp (((N T + T - 1) / T) * ((t + 1 : Nat) : Int)) (r t).2) :
    ∃ c : Nat → Nat, c 0 = 0 ∧ (c T : Int) = P T ∧ (∀ t, t < T → c t ≤ c (t + 1)) ∧ ∀ t, t < T → r t = ((c t : Int), (c (t + 1) : Int)) := by
  have hN0 : 0 ≤ N T := by have := hc.Nmono 0 T (by omega) (by omega); rw [hc.N0] at this; exact this
  have hper : 0 ≤ (N T + T - 1) / T := Int.ediv_nonneg (by omega) (by omega)
  have hperT : N T ≤ ((N T + T - 1) / T) * T := (perThread_spec (T := T) (n := N T) (by omega)).1
  generalize (N T + T - 1) / (T : Int) = per at h hper hperT
  have hb : ∀ t, t < T → 0 ≤ (r t).2 := fun t ht => ((h t ht).2.bounds hc).1
  have hst : ∀ t, t < T → (r t).1 ≤ (r t).2 := by
    intro t ht
    have h1 := h t ht
    by_cases h0 : t = 0
    · rw [if_pos h0] at h1; rw [h1.1]; exact hb t ht
    · rw [if_neg h0] at h1
      refine h1.1.mono hc h1.2 (Int.mul_le_mul_of_nonneg_left (by omega) hper)
  have heq : ∀ t, t + 1 < T → (r (t + 1)).1 = (r t).2 := by
    intro t ht
    have h1 := (h (t + 1) ht).1
    rw [if_neg (by omega)] at h1
    exact h1.unique hc (h t (by omega)).2
  refine ⟨fun t => match t with | 0 => 0 | u + 1 => (r u).2.toNat, rfl, ?_, ?_, ?_⟩
  · obtain ⟨u, rfl⟩ : ∃ u, T = u + 1 := ⟨T - 1, by omega⟩
    have h1 := (h u (by omega)).2
    have h2 := hb u (by omega)
    show (((r u).2.toNat : Nat) : Int) = _
    rw [Int.toNat_of_nonneg h2]
    rcases h1 with ⟨_, h1⟩ | ⟨t, k, g1, g2, g3, _⟩
    · exact h1
    · have := hc.Nmono (t + 1) (u + 1) (by omega) (by omega); omega
  · intro t ht
    rcases t with _ | t
    · exact Nat.zero_le _
    · show (r t).2.toNat ≤ (r (t + 1)).2.toNat
      have := hst (t + 1) ht
      rw [heq t ht] at this
      omega
  · intro t ht
    have h2 := hb t ht
    rcases t with _ | t
    · have h1 := (h 0 ht).1
      rw [if_pos rfl] at h1
      refine Prod.ext h1 ?_
      show _ = (((r 0).2.toNat : Nat) : Int)
      rw [Int.toNat_of_nonneg h2]
    · have h3 := hb t (by omega)
      refine Prod.ext ?_ ?_
      · show _ = (((r t).2.toNat : Nat) : Int)
        rw [Int.toNat_of_nonneg h3]; exact heq t ht
      · show _ = (((r (t + 1)).2.toNat : Nat) : Int)
        rw [Int.toNat_of_nonneg h2]

theorem wp_partLevel {W Rd : CArr → Int → Prop} {qt P N : Nat → Int} {rp : Nat → Nat → Int} (hc : CutOk T qt P N rp) (hT : 1 ≤ T) {mm : Nat}
    (hm : ∀ t k : Nat, t < T → N t < N (t + 1) → (k : Int) < qt t → m bufA (rOff T mm t + k) = some (rp t k)) (hR : ∀ i, Rd bufA i) {tid : Nat}
    {Q : Int × Int → Mem (CTy R) → Prop}
    (hQ : ∀ r : Int × Int, (if tid = 0 then r.1 = 0 else CutRel T qt P N rp (((N T + T - 1) / T) * (tid : Int)) r.1) →
      CutRel T qt P N rp (((N T + T - 1) / T) * ((tid + 1 : Nat) : Int)) r.2 → Q r m) :
    wp sz W Rd (partLevel T mm qt P N tid) m Q := by
  have hN0 : 0 ≤ N T := by have := hc.Nmono 0 T (by omega) (by omega); rw [hc.N0] at this; exact this
  have hper : 0 ≤ (N T + T - 1) / T := Int.ediv_nonneg (by omega) (by omega)
  unfold partLevel
  dsimp only
  generalize (N T + T - 1) / (T : Int) = per at hQ hper ⊢
  rw [wp_bind]
  have hsnd : ∀ b : Int, (if tid = 0 then b = 0 else CutRel T qt P N rp (per * (tid : Int)) b) →
      wp sz W Rd (do let e ← cutAt T mm qt P N per (tid + 1); pure (b, e)) m Q := by
    intro b hb
    rw [wp_bind]
    refine wp_cutAt hc hm hR hper ?_
    intro c h1
    rw [wp_pure]
    exact hQ (b, c) hb h1
  by_cases h0 : tid = 0
  · rw [if_pos h0, wp_pure]
    exact hsnd 0 (by rw [if_pos h0])
  · rw [if_neg h0]
    refine wp_cutAt hc hm hR hper ?_
    intro c h1
    exact hsnd c (by rw [if_neg h0]; exact h1)

/-! ### The team traversal -/

/-- Facts about any run of the shared accesses of a level's traversal. -/
theorem run_won {m0 ms : Mem (CTy R)} {log : EvLog (CTy R)} {n : Nat} {L : List (List Nat)} {cur : List Nat} (hinv : LvInv A dp L cur)
    (hnp : ∀ s : Nat, s < A.m → m0 bufA (npOff T A.m + s) = some (remN A dp L.flatten s : Int))
    (h : EvRun m0 log ms) (hall : ∀ e ∈ log, e.1 < n ∧ NpCell T A.m e.2.a e.2.i ∧ EvOk e.2) :
    ∃ q : List Nat, log.filterMap (fun e => wonAt e.2) = q.map (fun s : Nat => npOff T A.m + s) ∧ q.Nodup ∧
      ∀ s ∈ q, s < A.m ∧ 0 < remN A dp L.flatten s := by
  have hcell : ∀ i ∈ log.filterMap (fun e => wonAt e.2), ∃ s : Nat, s < A.m ∧ i = npOff T A.m + s := by
    intro i hi
    obtain ⟨⟨t, e⟩, he, hw⟩ := List.mem_filterMap.mp hi
    obtain ⟨_, h2, j, o, n', rfl, _⟩ := hall _ he
    have hw : (if n' ≠ o ∧ o = 1 then some j else none) = some i := hw
    split at hw
    · obtain ⟨_, h3, h4⟩ := h2
      have h3 : npOff T A.m ≤ j := h3
      have h4 : j < npOff T A.m + A.m := h4
      have : j = i := Option.some.inj hw
      exact ⟨(i - npOff T A.m).toNat, by omega, by omega⟩
    · cases hw
  have hcnt := fun (s : Nat) (hsm : s < A.m) => run_counters h (fun e he => (hall e he).2.2) (hnp s hsm)
  have hnod : (log.filterMap (fun e => wonAt e.2)).Nodup := by
    rw [List.nodup_iff_count_le_one]
    intro i
    by_cases hi : i ∈ log.filterMap (fun e => wonAt e.2)
    · obtain ⟨s, hs, rfl⟩ := hcell i hi
      rw [(hcnt s hs).2.1]; split <;> omega
    · rw [List.count_eq_zero_of_not_mem hi]; omega
  refine ⟨(log.filterMap (fun e => wonAt e.2)).map fun i => (i - npOff T A.m).toNat, ?_, ?_, ?_⟩
  · rw [List.map_map]
    symm
    refine (List.map_congr_left ?_).trans (List.map_id _)
    intro i hi
    obtain ⟨s, hs, rfl⟩ := hcell i hi
    simp
  · refine List.Nodup.map_on ?_ hnod
    intro x hx y hy hxy
    obtain ⟨s, _, rfl⟩ := hcell x hx
    obtain ⟨s', _, rfl⟩ := hcell y hy
    omega
  · intro s hs
    obtain ⟨i, hi, rfl⟩ := List.mem_map.mp hs
    clear hs
    obtain ⟨s, hs, rfl⟩ := hcell i hi
    have e : (npOff T A.m + (s : Int) - npOff T A.m).toNat = s := by omega
    rw [e]
    refine ⟨hs, ?_⟩
    have h1 := (hcnt s hs).2.1
    have h2 := List.count_pos_iff.mpr hi
    rw [h1] at h2
    split at h2
    · rename_i h3; omega
    · omega

theorem evOf_sub (t : Nat) (log : EvLog (CTy R)) : (evOf t log).Sublist (log.map Prod.snd) := by
  unfold evOf
  exact List.Sublist.map _ List.filter_sublist

theorem LvHead.traversed {m0 : Mem (CTy R)} {ser : Bool} {qt nz : Nat → Int} {L : List (List Nat)} {cur : List Nat} (hs : SplitRows A dp ep)
    (hwf : A.WF) (hd : NoDup A) (hsym : SymPat A) (hT : 1 ≤ T)
    (htol : ∀ a i, NpCell T A.m a i → Races.tol a i)
    (hszb : 4 * (lvMx T A.m : Int) + A.m ≤ sz bufA)
    (h : LvHead m0 base A dp ep hasExt T ser qt nz L cur m) (hcur : HoldsQ m 21 L.flatten.length cur)
    (hcap : A.m < lvCap T A.m + cur.length) (hne : cur ≠ [])
    {c : Nat → Nat} (c0 : c 0 = 0) (cT : c T = cur.length) (cmono : ∀ t, t < T → c t ≤ c (t + 1))
    {Post : (Nat → Int × Int × Bool) → Mem (CTy R) → Prop}
    (hpost : ∀ (r : Nat → Int × Int × Bool) m' next, (∀ t, t < T → (r t).2.2 = true) →
      LvHead m0 base A dp ep hasExt T false (onTeam T fun t => (r t).1) (onTeam T fun t => (r t).2.1) (L ++ [cur]) next m' → Post r m')
    {ie : Nat → Int × Int} (hie : ∀ t, t < T → ie t = ((c t : Int), (c (t + 1) : Int))) :
    ParOk sz T Post (fun tid => traverse hasExt base T A.m ((L.flatten.length : Int) + (ie tid).1) ((L.flatten.length : Int) + (ie tid).2) tid) m := by
  have hclt : ∀ j ∈ cur, j < A.m := fun j hj => h.inv.lt j (List.mem_append_right _ hj)
  have cmono' : ∀ a b, a ≤ b → b ≤ T → c a ≤ c b := by
    intro a b hab
    induction b with
    | zero => intro _; have : a = 0 := by omega
              subst this; exact Nat.le_refl _
    | succ b ih =>
      intro hb
      rcases Nat.lt_or_ge a (b + 1) with h1 | h1
      · exact Nat.le_trans (ih (by omega) (by omega)) (cmono b (by omega))
      · have : a = b + 1 := by omega
        rw [this]
  have cle : ∀ t, t ≤ T → c t ≤ cur.length := fun t ht => by rw [← cT]; exact cmono' t T ht (Nat.le_refl _)
  refine log_rule (fun t => OwnQ T A.m t) (fun t => TrRd T A.m t) (NpCell T A.m) EvOk
    (fun t r tr mt => ∃ q, r.1 = ((q : List Nat).length : Int) ∧ r.2.1 = wS dp ep q ∧
      TrInv m base A dp ep hasExt T t ((slice cur (c t) (c (t + 1))).flatMap (upL A dp ep)) q r.2.2 tr mt) ?_ ?_ ?_ ?_ htol
  · rintro a i ⟨rfl, h1, h2⟩
    have := h.np (i - npOff T A.m).toNat (by omega)
    rw [show npOff T A.m + ((i - npOff T A.m).toNat : Int) = i by omega] at this
    exact ⟨_, this⟩
  · intro t u a i ht hu hne h1 h2
    have g1 := qOff_nonneg (T := T) (m := A.m) t
    have g1' := qOff_nonneg (T := T) (m := A.m) u
    have g2 := qOff_le (m := A.m) ht
    have g2' := qOff_le (m := A.m) hu
    have g3 := rOff_eq (T := T) (m := A.m) t
    have g3' := rOff_eq (T := T) (m := A.m) u
    rcases h2 with h2 | rfl | h2
    · obtain ⟨rfl, _⟩ := h1; simp [MatCell] at h2
    · obtain ⟨h1, _⟩ := h1; simp at h1
    · obtain ⟨rfl, h1⟩ := h1
      obtain ⟨_, h2⟩ := h2
      rcases Nat.lt_trichotomy t u with h3 | h3 | h3
      · have := qOff_mono (T := T) (m := A.m) h3
        rcases h1 with h1 | h1 <;> rcases h2 with h2 | h2 <;> omega
      · exact hne h3
      · have := qOff_mono (T := T) (m := A.m) h3
        rcases h1 with h1 | h1 <;> rcases h2 with h2 | h2 <;> omega
  · intro t ht
    rw [hie t ht]
    have hcl := cle (t + 1) (by omega)
    have hcm := cmono t ht
    have hlo : ((L.flatten.length : Int) + (c t : Int)) = ((L.flatten.length + c t : Nat) : Int) := by omega
    show wpA sz _ _ _ _ _ (traverse hasExt base T A.m ((L.flatten.length : Int) + (c t : Int)) ((L.flatten.length : Int) + (c (t + 1) : Int)) t) m [] _
    rw [hlo]
    refine wpA_traverse (sl := slice cur (c t) (c (t + 1))) hs hwf ht hszb ?_ ?_ h.mat ?_ ?_ ?_
    · intro r hr
      exact hclt r (List.mem_of_mem_drop (List.mem_of_mem_take hr))
    · rintro tr ⟨log, ms, k1, k2, rfl⟩
      obtain ⟨q, e1, e2, e3⟩ := run_won (T := T) h.inv h.np k1 k2
      have e4 := h.inv.len_le e2 e3
      have e5 := ((evOf_sub t log).filterMap wonAt).length_le
      rw [List.filterMap_map] at e5
      have e6 : (List.filterMap (wonAt ∘ Prod.snd) log) = log.filterMap (fun e => wonAt e.2) := rfl
      rw [e6, e1, List.length_map] at e5
      omega
    · intro x s hx
      have hxl := (List.getElem?_eq_some_iff.mp hx).1
      rw [slice_length _ hcl] at hxl
      rw [slice_getElem? _ hxl] at hx
      have := hcur _ _ hx
      rw [← this]; congr 1; push_cast; omega
    · intro q b tr mt hI
      exact ⟨q, rfl, rfl, hI⟩
    · rw [slice_length _ hcl]; push_cast; omega
  · intro r log ms m' hrun hall hS hth hfr
    have hth' : ∀ t, ∃ q : List Nat, (T ≤ t → q = []) ∧ (t < T → ∃ mt, (r t).1 = (q.length : Int) ∧ (r t).2.1 = wS dp ep q ∧
        TrInv m base A dp ep hasExt T t ((slice cur (c t) (c (t + 1))).flatMap (upL A dp ep)) q (r t).2.2 (evOf t log) mt ∧
        ∀ a i, ¬ NpCell T A.m a i → TrRd T A.m t a i → m' a i = mt a i) := by
      intro t
      by_cases ht : t < T
      · obtain ⟨mt, ⟨q, k1, k2, k3⟩, k4⟩ := hth t ht
        exact ⟨q, fun h => by omega, fun _ => ⟨mt, k1, k2, k3, k4⟩⟩
      · exact ⟨[], fun _ => rfl, fun h => absurd h ht⟩
    choose Qs hQ0 hQ using hth'
    have hcnt := fun (s : Nat) (hsm : s < A.m) => run_counters hrun (fun e he => (hall e he).2.2) (h.np s hsm)
    have hperm := log_perm T log (fun e he => (hall e he).1)
    have hinj : Function.Injective (fun s : Nat => npOff T A.m + (s : Int)) := fun x y hxy => by
      have : npOff T A.m + (x : Int) = npOff T A.m + (y : Int) := hxy
      omega
    -- all decrements
    have hdec : ((cur.flatMap (upL A dp ep)).map fun s : Nat => npOff T A.m + (s : Int)).Perm (log.filterMap fun e => decAt e.2) := by
      have e1 := hperm.filterMap decAt
      rw [List.filterMap_map, List.filterMap_flatMap] at e1
      have e2 : (List.range T).flatMap (fun t => (evOf t log).filterMap decAt) =
          (cur.flatMap (upL A dp ep)).map fun s : Nat => npOff T A.m + (s : Int) := by
        have e3 := slice_flat cur c c0 cmono cle
        rw [cT, List.take_length] at e3
        rw [← e3, List.flatMap_assoc, List.map_flatMap]
        refine List.flatMap_congr ?_
        intro t ht
        obtain ⟨mt, _, _, k3, _⟩ := hQ t (List.mem_range.mp ht)
        exact k3.dec
      rw [e2] at e1
      exact e1
    have hwon : (((List.range T).flatMap Qs).map fun s : Nat => npOff T A.m + (s : Int)).Perm (log.filterMap fun e => wonAt e.2) := by
      have e1 := hperm.filterMap wonAt
      rw [List.filterMap_map, List.filterMap_flatMap] at e1
      have e2 : (List.range T).flatMap (fun t => (evOf t log).filterMap wonAt) =
          ((List.range T).flatMap Qs).map fun s : Nat => npOff T A.m + (s : Int) := by
        rw [List.map_flatMap]
        refine List.flatMap_congr ?_
        intro t ht
        obtain ⟨mt, _, _, k3, _⟩ := hQ t (List.mem_range.mp ht)
        exact k3.won
      rw [e2] at e1
      exact e1
    have hdc : ∀ s : Nat, (log.filterMap fun e => decAt e.2).count (npOff T A.m + (s : Int)) = (cur.flatMap (upL A dp ep)).count s := by
      intro s
      rw [← hdec.count_eq]
      exact List.count_map_of_injective _ _ hinj s
    have hwc : ∀ s : Nat, ((List.range T).flatMap Qs).count s = (log.filterMap fun e => wonAt e.2).count (npOff T A.m + (s : Int)) := by
      intro s
      rw [← hwon.count_eq]
      exact (List.count_map_of_injective _ _ hinj s).symm
    have hle := fun (s : Nat) (hsm : s < A.m) => h.inv.count_le hs hd hsym hsm
    have hQlt : ∀ t, t < T → ∀ s ∈ Qs t, s < A.m := by
      intro t ht s hsq
      obtain ⟨mt, _, _, k3, _⟩ := hQ t ht
      exact k3.lt s hsq
    have hnext : NextLevel A dp ep L.flatten cur ((List.range T).flatMap Qs) := by
      have hlt : ∀ s ∈ (List.range T).flatMap Qs, s < A.m := by
        intro s hsq
        obtain ⟨t, ht, hsq⟩ := List.mem_flatMap.mp hsq
        exact hQlt t (List.mem_range.mp ht) s hsq
      have hc : ∀ s, s < A.m → ((List.range T).flatMap Qs).count s =
          if 0 < remN A dp L.flatten s ∧ (cur.flatMap (upL A dp ep)).count s = remN A dp L.flatten s then 1 else 0 := by
        intro s hsm
        rw [hwc, (hcnt s hsm).2.1, hdc]
        have := hle s hsm
        split <;> split <;> first | rfl | omega
      refine ⟨?_, ?_⟩
      · rw [List.nodup_iff_count_le_one]
        intro s
        by_cases hsm : s < A.m
        · rw [hc s hsm]; split <;> omega
        · rw [List.count_eq_zero_of_not_mem (fun h => hsm (hlt s h))]; omega
      · intro s
        constructor
        · intro hsq
          have hsm := hlt s hsq
          have h1 := List.count_pos_iff.mpr hsq
          rw [hc s hsm] at h1
          split at h1
          · rename_i h2; exact ⟨hsm, h2.1, h2.2⟩
          · omega
        · rintro ⟨hsm, h1, h2⟩
          rw [← List.count_pos_iff, hc s hsm, if_pos ⟨h1, h2⟩]; omega
    have hfl : (L ++ [cur]).flatten = L.flatten ++ cur := by simp
    refine hpost r m' ((List.range T).flatMap Qs) ?_ ⟨?_, h.inv.step hs hd hsym hne hnext, ?_, ?_, ?_, by simp, ?_⟩
    · intro t ht
      obtain ⟨mt, _, _, k3, _⟩ := hQ t ht
      refine k3.flag ?_
      rintro e he i o rfl
      have he' := mem_evOf.mp he
      obtain ⟨_, ⟨_, k5, k6⟩, _⟩ := hall _ he'
      have k5 : npOff T A.m ≤ i := k5
      have k6 : i < npOff T A.m + A.m := k6
      obtain ⟨s, hsm, rfl⟩ : ∃ s : Nat, s < A.m ∧ i = npOff T A.m + s := ⟨(i - npOff T A.m).toNat, by omega, by omega⟩
      have k7 := (hcnt s hsm).2.2 _ he' o o rfl
      rw [hdc] at k7
      have := hle s hsm
      omega
    · refine h.mat.congr ?_
      intro a i ha
      refine hfr a i ?_ ?_
      · rintro ⟨rfl, _⟩; simp [MatCell] at ha
      · rintro t _ ⟨rfl, _⟩; simp [MatCell] at ha
    · rw [hfl]
      intro x s hx
      rw [hfr _ _ (by rintro ⟨k, _⟩; simp at k) (by rintro t _ ⟨k, _⟩; simp at k)]
      rcases Nat.lt_or_ge x L.flatten.length with h1 | h1
      · rw [List.getElem?_append_left h1] at hx; exact h.rev x s hx
      · rw [List.getElem?_append_right h1] at hx
        have := hcur _ _ hx
        rw [← this]; congr 1; omega
    · intro s hsm
      rw [hS _ _ ⟨rfl, by omega, by omega⟩, (hcnt s hsm).1, hdc, hfl]
      have := hle s hsm
      exact congrArg some (by omega)
    · intro a i h1 h2
      rw [hfr a i (fun k => h1 k.1) (fun t _ k => h1 k.1)]
      exact h.frame a i h1 h2
    · intro _
      refine ⟨Qs, rfl, ?_, ?_, hQ0, ?_⟩
      · intro t
        unfold onTeam
        split
        · rename_i ht
          obtain ⟨mt, k1, _⟩ := hQ t ht
          exact k1
        · rename_i ht; rw [hQ0 t (by omega)]; rfl
      · intro t
        unfold onTeam
        split
        · rename_i ht
          obtain ⟨mt, _, k2, _⟩ := hQ t ht
          exact k2
        · rename_i ht; rw [hQ0 t (by omega)]; rfl
      · intro t ht
        obtain ⟨mt, k1, k2, k3, k4⟩ := hQ t ht
        have hroom := k3.room
        have hcell : ∀ i, OwnQ T A.m t bufA i → m' bufA i = mt bufA i := fun i hi => k4 _ _ (hi.not_np ht) (Or.inr (Or.inr hi))
        refine ⟨k3.hq.congr (fun i h1 h2 => hcell i ⟨rfl, Or.inl ⟨h1, by omega⟩⟩), k3.rp.congr (fun i h1 h2 => hcell i ⟨rfl, Or.inr ⟨h1, by omega⟩⟩)⟩

/-- The serial traversal leads to the next loop head. -/
theorem LvHead.serial {m0 : Mem (CTy R)} {ser : Bool} {qt nz : Nat → Int} {L : List (List Nat)} {cur : List Nat} (hs : SplitRows A dp ep)
    (hd : NoDup A) (hsym : SymPat A)
    (h : LvHead m0 base A dp ep hasExt T ser qt nz L cur m) (hcur : HoldsQ m 21 L.flatten.length cur) (hne : cur ≠ [])
    {q : List Nat} {m' : Mem (CTy R)}
    (hI : SerInv m base A dp ep hasExt T (remN A dp L.flatten) (L.flatten.length + cur.length) (cur.flatMap (upL A dp ep)) q m') :
    LvHead m0 base A dp ep hasExt T true (fun _ => (q.length : Int)) (fun _ => wS dp ep q) (L ++ [cur]) q m' := by
  have hfl : (L ++ [cur]).flatten = L.flatten ++ cur := by simp
  refine ⟨hI.mat, h.inv.step hs hd hsym hne ⟨hI.nodup, hI.mem⟩, ?_, ?_, ?_, ?_, by simp⟩
  · rw [hfl]
    intro x s hx
    have hxl := (List.getElem?_eq_some_iff.mp hx).1
    rw [List.length_append] at hxl
    rw [hI.rev _ (by push_cast; omega)]
    rcases Nat.lt_or_ge x L.flatten.length with h1 | h1
    · rw [List.getElem?_append_left h1] at hx; exact h.rev x s hx
    · rw [List.getElem?_append_right h1] at hx
      have := hcur _ _ hx
      rw [← this]; congr 1; omega
  · intro s hsm
    rw [hI.np s hsm, hfl]
    have := h.inv.count_le hs hd hsym hsm
    exact congrArg some (by omega)
  · intro a i h1 h2
    rw [hI.frame a i h1 h2]; exact h.frame a i h1 h2
  · intro _
    refine ⟨rfl, rfl, ?_, hI.rp⟩
    rw [hfl, List.length_append]; exact hI.hq

/-- What the level search leaves behind. -/
def LvDone (m0 : Mem (CTy R)) (A : Csr R) (lev : List Int) (m' : Mem (CTy R)) : Prop :=
  ∃ L, lev = levEnds L ∧ LevelDecomp (Dep A) A.m L ∧ HoldsQ m' 21 0 L.flatten ∧ ∀ a i, a ≠ bufA → a ≠ revA → m' a i = m0 a i

theorem levelLoop_ok {m0 : Mem (CTy R)} (hs : SplitRows A dp ep) (hwf : A.WF) (hd : NoDup A) (hsym : SymPat A) (hT : 1 ≤ T)
    (htol : ∀ a i, NpCell T A.m a i → Races.tol a i)
    (hszb : 4 * (lvMx T A.m : Int) + A.m ≤ sz bufA) (hszr : (A.m : Int) ≤ sz revA) (hcap : A.m < lvCap T A.m + 64) :
    ∀ (fuel : Nat) (ser : Bool) (qt nz : Nat → Int) (L : List (List Nat)) (cur : List Nat) (m : Mem (CTy R)),
      LvHead m0 base A dp ep hasExt T ser qt nz L cur m → A.m + 1 ≤ fuel + L.flatten.length →
      (levelLoop sz hasExt base T A.m fuel ser qt nz (L.flatten.length : Int) (levEnds L)).Ok m (LvDone m0 A) := by
  intro fuel
  induction fuel with
  | zero =>
    intro ser qt nz L cur m h hf
    have := h.inv.len_le (q := []) List.nodup_nil (by simp)
    omega
  | succ fuel ih =>
    intro ser qt nz L cur m h hf
    have htot := h.total hT
    have hlen := h.inv.len_le (q := []) List.nodup_nil (by simp)
    rw [List.length_nil] at hlen
    have hclt : ∀ j ∈ cur, j < A.m := fun j hj => h.inv.lt j (List.mem_append_right _ hj)
    unfold levelLoop
    show (if lvSum ser qt T = 0 then .done (levEnds L) else if lvSum ser qt T < (if ser then 128 else 64) then _ else _ : Script (CTy R) (List Int)).Ok m _
    have hend : ((L.flatten.length : Int) + lvSum ser qt T) = (((L ++ [cur]).flatten.length : Nat) : Int) := by
      rw [htot]; simp
    have hlev : levEnds L ++ [(L.flatten.length : Int) + lvSum ser qt T] = levEnds (L ++ [cur]) := by rw [levEnds_snoc, htot]
    by_cases h0 : lvSum ser qt T = 0
    · rw [if_pos h0]
      refine Script.ok_done_of ?_
      have hnil : cur = [] := List.length_eq_zero_iff.mp (by omega)
      have hinv := h.inv
      rw [hnil] at hinv
      exact ⟨L, rfl, hinv.final hs, h.rev, h.frame⟩
    · rw [if_neg h0]
      have hne : cur ≠ [] := by rintro rfl; exact h0 (by rw [htot]; rfl)
      have hnl : 1 ≤ cur.length := by
        rcases cur with _ | ⟨x, c⟩
        · exact absurd rfl hne
        · simp
      have hf' : A.m + 1 ≤ fuel + (L ++ [cur]).flatten.length := by
        rw [show (L ++ [cur]).flatten.length = L.flatten.length + cur.length by simp]; omega
      by_cases hsm : lvSum ser qt T < (if ser then 128 else 64)
      · rw [if_pos hsm]
        have hser : ∀ m1, LvHead m0 base A dp ep hasExt T ser qt nz L cur m1 → HoldsQ m1 21 L.flatten.length cur →
            (Script.seq sz (traverseSerial hasExt base T A.m (L.flatten.length : Int) ((L.flatten.length : Int) + lvSum ser qt T)) fun r =>
              levelLoop sz hasExt base T A.m fuel true (fun _ => r.1) (fun _ => r.2) ((L.flatten.length : Int) + lvSum ser qt T)
                (levEnds L ++ [(L.flatten.length : Int) + lvSum ser qt T]) : Script (CTy R) (List Int)).Ok m1 (LvDone m0 A) := by
          intro m1 h1 hq
          refine seq_rule ?_
          rw [hlev, hend]
          rw [show (((L ++ [cur]).flatten.length : Nat) : Int) = (L.flatten.length : Int) + cur.length by simp]
          refine wp_traverseSerial (n0 := remN A dp L.flatten) hs hwf hT hszb hszr hclt ?_ h1.mat hq h1.np ?_ ?_
          · intro q k1 k2; exact h1.inv.len_le k1 k2
          · intro s hsm; have := h1.inv.count_le hs hd hsym hsm; omega
          · intro q m2 hI
            rw [show (L.flatten.length : Int) + cur.length = (((L ++ [cur]).flatten.length : Nat) : Int) by simp]
            exact ih true _ _ (L ++ [cur]) q m2 (h1.serial hs hd hsym hq hne hI) hf'
        rw [Script.ok_bind]
        cases ser with
        | true => exact hser m h (h.serForm rfl).2.2.1
        | false =>
          refine par_rule (CopyW T L.flatten.length (psum qt T)) (CopyR T L.flatten.length (psum qt T))
            (fun t _ mt => (∀ a i, a ≠ revA → mt a i = m a i) ∧
              (∀ p s : Nat, cur[p]? = some s → simpleBegin T t (psum qt T) ≤ p → (p : Int) < simpleEnd T t (psum qt T) →
                mt revA ((L.flatten.length : Int) + p) = some (s : Int))) ?_ ?_ ?_
          · exact copy_disj hT (by have : psum qt T = cur.length := htot
                                   omega)
          · intro t ht; exact h.wp_copy hT hszr (fun mt k => k)
          · intro r m1 k1 k2
            obtain ⟨k3, k4⟩ := h.afterCopy hT k1 k2
            exact hser m1 k3 k4
      · rw [if_neg hsm]
        have hge : 64 ≤ cur.length := by
          cases ser
          · have : ¬ (lvSum false qt T < 64) := hsm
            omega
          · have : ¬ (lvSum true qt T < 128) := hsm
            omega
        -- the second and third step, common to both forms
        have hrest : ∀ m1 (ie : Nat → Int × Int) (rp : Nat → Nat → Int), LvHead m0 base A dp ep hasExt T ser qt nz L cur m1 →
            HoldsQ m1 21 L.flatten.length cur → CutOk T qt (lvSum ser qt) (lvSum ser nz) rp →
            (∀ t, t < T → (if t = 0 then (ie t).1 = 0 else CutRel T qt (lvSum ser qt) (lvSum ser nz) rp (((lvSum ser nz T + T - 1) / T) * (t : Int)) (ie t).1) ∧
              CutRel T qt (lvSum ser qt) (lvSum ser nz) rp (((lvSum ser nz T + T - 1) / T) * ((t + 1 : Nat) : Int)) (ie t).2) →
            (.phase sz T (fun tid => traverse hasExt base T A.m ((L.flatten.length : Int) + (ie tid).1) ((L.flatten.length : Int) + (ie tid).2) tid) fun r =>
              .seq sz (Prog.assert (∀ t, t < T → (r t).2.2 = true)) fun _ =>
              levelLoop sz hasExt base T A.m fuel false (onTeam T fun t => (r t).1) (onTeam T fun t => (r t).2.1)
                ((L.flatten.length : Int) + lvSum ser qt T) (levEnds L ++ [(L.flatten.length : Int) + lvSum ser qt T]) : Script (CTy R) (List Int)).Ok m1 (LvDone m0 A) := by
          intro m1 ie rp h1 hq hc hie
          obtain ⟨c, c0, cT, cm, ce⟩ := cuts_tile hc hT hie
          refine h1.traversed hs hwf hd hsym hT htol hszb hq (by omega) hne c0 (by omega) cm ?_ ce
          intro r m2 next k1 k2
          refine seq_rule ?_
          rw [wp_assert]
          refine ⟨k1, ?_⟩
          rw [hlev, hend]
          exact ih false _ _ (L ++ [cur]) next m2 k2 hf'
        cases ser with
        | true =>
          obtain ⟨rp, hc, hm⟩ := h.cutOk hs hT
          refine par_rule (fun _ _ _ => False) (fun _ _ _ => True)
            (fun t r mt => mt = m ∧ (if t = 0 then r.1 = 0 else CutRel T qt (lvSum true qt) (lvSum true nz) rp (((lvSum true nz T + T - 1) / T) * (t : Int)) r.1) ∧
              CutRel T qt (lvSum true qt) (lvSum true nz) rp (((lvSum true nz T + T - 1) / T) * ((t + 1 : Nat) : Int)) r.2) ?_ ?_ ?_
          · intro t u a i _ _ _ hf; exact hf.elim
          · intro t ht
            rw [wp_bind, if_pos rfl, wp_pure]
            refine wp_partLevel hc hT hm (fun _ => trivial) ?_
            intro r k1 k2
            exact ⟨rfl, k1, k2⟩
          · intro r m1 k1 k2
            have hm1 : m1 = m := by funext a i; exact k2 a i (fun _ _ h => h)
            rw [hm1]
            refine hrest m r rp h (h.serForm rfl).2.2.1 hc ?_
            intro t ht
            obtain ⟨mt, ⟨_, k3, k4⟩, _⟩ := k1 t ht
            exact ⟨k3, k4⟩
        | false =>
          obtain ⟨rp, hc, hm⟩ := h.cutOk hs hT
          refine par_rule (CopyW T L.flatten.length (psum qt T)) (CopyR T L.flatten.length (psum qt T))
            (fun t r mt => ((∀ a i, a ≠ revA → mt a i = m a i) ∧
              (∀ p s : Nat, cur[p]? = some s → simpleBegin T t (psum qt T) ≤ p → (p : Int) < simpleEnd T t (psum qt T) →
                mt revA ((L.flatten.length : Int) + p) = some (s : Int))) ∧
              (if t = 0 then r.1 = 0 else CutRel T qt (lvSum false qt) (lvSum false nz) rp (((lvSum false nz T + T - 1) / T) * (t : Int)) r.1) ∧
              CutRel T qt (lvSum false qt) (lvSum false nz) rp (((lvSum false nz T + T - 1) / T) * ((t + 1 : Nat) : Int)) r.2) ?_ ?_ ?_
          · exact copy_disj hT (by have : psum qt T = cur.length := htot
                                   omega)
          · intro t ht
            rw [wp_bind, if_neg (by simp)]
            refine h.wp_copy hT hszr ?_
            intro mt k
            refine wp_partLevel hc hT (fun t k' h1 h2 h3 => (k.1 _ _ (by simp)).trans (hm t k' h1 h2 h3)) (fun _ => Or.inl (by simp)) ?_
            intro r k1 k2
            exact ⟨k, k1, k2⟩
          · intro r m1 k1 k2
            obtain ⟨k3, k4⟩ := h.afterCopy (m' := m1) hT (fun t ht => by
              obtain ⟨mt, ⟨k, _⟩, k'⟩ := k1 t ht
              exact ⟨mt, k, k'⟩) k2
            refine hrest m1 r rp k3 k4 hc ?_
            intro t ht
            obtain ⟨mt, ⟨_, k5, k6⟩, _⟩ := k1 t ht
            exact ⟨k5, k6⟩

/-! ### The start -/

theorem free_flat (A : Csr R) (dp : Nat → Nat) (cb : Nat → Nat) (h0 : cb 0 = 0) {T : Nat} (hmono : ∀ t, t < T → cb t ≤ cb (t + 1)) :
    (List.range T).flatMap (fun t => freeRows A dp (cb t) (cb (t + 1))) = freeRows A dp 0 (cb T) := by
  induction T with
  | zero => simp [freeRows, h0]
  | succ T ih =>
    rw [List.range_succ, List.flatMap_append, ih (fun t ht => hmono t (by omega))]
    have h1 := hmono T (by omega)
    unfold freeRows
    rw [List.flatMap_singleton, ← List.filter_append]
    congr 1
    have := List.range'_append_1 (s := 0) (m := cb T) (n := cb (T + 1) - cb T)
    rw [Nat.zero_add, Nat.sub_zero, Nat.sub_zero, show cb T + (cb (T + 1) - cb T) = cb (T + 1) by omega] at *
    exact this

theorem remN_nil (A : Csr R) (dp : Nat → Nat) (s : Nat) : remN A dp [] s = dp s - A.ptr s := by
  unfold remN dnL
  rw [List.filter_eq_self.mpr (by simp)]
  simp

theorem mem_free {s : Nat} : s ∈ freeRows A dp 0 A.m ↔ s < A.m ∧ dp s = A.ptr s := by
  unfold freeRows
  rw [List.mem_filter, List.mem_range'_1]
  simp

theorem LvInv.start (hs : SplitRows A dp ep) : LvInv A dp [] (freeRows A dp 0 A.m) := by
  have hz : ∀ s, s < A.m → (s ∈ freeRows A dp 0 A.m ↔ remN A dp [] s = 0) := by
    intro s hsm
    have := hs.bounds s hsm
    rw [mem_free, remN_nil]; omega
  refine ⟨?_, ?_, ?_, by simp, ?_, ?_⟩
  · exact List.Nodup.filter _ List.nodup_range'
  · intro i hi; exact (mem_free.mp hi).1
  · intro s hsm; exact hz s hsm
  · intro k i j hi hd
    rcases k with _ | k
    · have hi : i ∈ freeRows A dp 0 A.m := hi
      have hsm := (mem_free.mp hi).1
      have := (remN_zero hs hsm).1 ((hz i hsm).1 hi) j hd
      simp at this
    · simp at hi
  · intro k i hi
    rcases k with _ | k
    · exact Chain.start i
    · simp at hi

/-- The level search. -/
theorem findLevels_ok (hs : SplitRows A dp ep) (hwf : A.WF) (hd : NoDup A) (hsym : SymPat A) (hT : 1 ≤ T)
    (hm : LvMem m base A dp ep hasExt) {cb : Nat → Nat} (cb0 : cb 0 = 0) (cbT : cb T = A.m) (cbm : ∀ t, t < T → cb t ≤ cb (t + 1))
    (cbc : ∀ t, t < T → cb (t + 1) - cb t ≤ (A.m + T - 1) / T)
    (htol : ∀ a i, NpCell T A.m a i → Races.tol a i)
    (hszb : 4 * (lvMx T A.m : Int) + A.m ≤ sz bufA) (hszr : (A.m : Int) ≤ sz revA) (hcap : A.m < lvCap T A.m + 64) :
    (findLevels sz hasExt base T A.m cb).Ok m (LvDone m A) := by
  have cmono' : ∀ a b, a ≤ b → b ≤ T → cb a ≤ cb b := by
    intro a b hab
    induction b with
    | zero => intro _; have : a = 0 := by omega
              subst this; exact Nat.le_refl _
    | succ b ih =>
      intro hb
      rcases Nat.lt_or_ge a (b + 1) with h1 | h1
      · exact Nat.le_trans (ih (by omega) (by omega)) (cbm b (by omega))
      · have : a = b + 1 := by omega
        rw [this]
  have hle : ∀ t, t ≤ T → cb t ≤ A.m := fun t ht => by rw [← cbT]; exact cmono' t T ht (Nat.le_refl _)
  unfold findLevels
  refine par_rule (fun t a i => OwnQ T A.m t a i ∨ (a = bufA ∧ npOff T A.m + cb t ≤ i ∧ i < npOff T A.m + cb (t + 1)))
    (fun t a i => MatCell a ∨ OwnQ T A.m t a i ∨ (a = bufA ∧ npOff T A.m + cb t ≤ i ∧ i < npOff T A.m + cb (t + 1)))
    (fun t r mt => r = (((freeRows A dp (cb t) (cb (t + 1))).length : Int), wS dp ep (freeRows A dp (cb t) (cb (t + 1)))) ∧
      HoldsQ mt 20 (qOff T A.m t) (freeRows A dp (cb t) (cb (t + 1))) ∧ HoldsRP mt dp ep (rOff T A.m t) (freeRows A dp (cb t) (cb (t + 1))) ∧
      (∀ i : Nat, cb t ≤ i → i < cb (t + 1) → mt bufA (npOff T A.m + i) = some ((dp i : Int) - A.ptr i))) ?_ ?_ ?_
  · intro t u a i ht hu hne h1 h2
    have g1 := qOff_nonneg (T := T) (m := A.m) t
    have g1' := qOff_nonneg (T := T) (m := A.m) u
    have g2 := qOff_le (m := A.m) ht
    have g2' := qOff_le (m := A.m) hu
    have g3 := rOff_eq (T := T) (m := A.m) t
    have g3' := rOff_eq (T := T) (m := A.m) u
    have g4 := npOff_eq (T := T) (m := A.m)
    have ha : a = bufA := by rcases h1 with ⟨h, _⟩ | ⟨h, _⟩ <;> exact h
    subst ha
    have h1' : (qOff T A.m t ≤ i ∧ i < qOff T A.m t + lvCap T A.m) ∨ (rOff T A.m t ≤ i ∧ i < rOff T A.m t + lvCap T A.m) ∨
        (npOff T A.m + cb t ≤ i ∧ i < npOff T A.m + cb (t + 1)) := by
      rcases h1 with ⟨_, h | h⟩ | ⟨_, h⟩
      · exact Or.inl h
      · exact Or.inr (Or.inl h)
      · exact Or.inr (Or.inr h)
    have h2' : (qOff T A.m u ≤ i ∧ i < qOff T A.m u + lvCap T A.m) ∨ (rOff T A.m u ≤ i ∧ i < rOff T A.m u + lvCap T A.m) ∨
        (npOff T A.m + cb u ≤ i ∧ i < npOff T A.m + cb (u + 1)) := by
      rcases h2 with h | ⟨_, h | h⟩ | ⟨_, h⟩
      · simp [MatCell] at h
      · exact Or.inl h
      · exact Or.inr (Or.inl h)
      · exact Or.inr (Or.inr h)
    rcases Nat.lt_trichotomy t u with h3 | h3 | h3
    · have := qOff_mono (T := T) (m := A.m) h3
      have := cmono' (t + 1) u h3 (by omega)
      rcases h1' with h1 | h1 | h1 <;> rcases h2' with h2 | h2 | h2 <;> omega
    · exact hne h3
    · have := qOff_mono (T := T) (m := A.m) h3
      have := cmono' (u + 1) t h3 (by omega)
      rcases h1' with h1 | h1 | h1 <;> rcases h2' with h2 | h2 | h2 <;> omega
  · intro t ht
    have hc := lvCap_chunk (m := A.m) hT (cbc t ht)
    refine wp_firstReady hm hs (fun a i h => Or.inl h) ht (cbm t ht) (hle (t + 1) (by omega)) hc hszb (fun a i h => Or.inl h)
      (fun a i h => Or.inr (Or.inl h)) (fun i h1 h2 => Or.inr ⟨rfl, h1, h2⟩) ?_
    intro m' k1 k2 k3
    exact ⟨rfl, k1, k2, k3⟩
  · intro r m1 k1 k2
    refine levelLoop_ok (m0 := m) (L := []) (cur := freeRows A dp 0 A.m) hs hwf hd hsym hT htol hszb hszr hcap (A.m + 1) false _ _ m1 ?_ (by simp)
    refine ⟨?_, LvInv.start hs, ?_, ?_, ?_, by simp, ?_⟩
    · refine hm.congr ?_
      intro a i ha
      refine k2 a i ?_
      rintro t _ (⟨rfl, _⟩ | ⟨rfl, _⟩) <;> simp [MatCell] at ha
    · intro x s hx; simp at hx
    · intro s hsm
      have hex : ∀ n, n ≤ T → s < cb n → ∃ t, t < T ∧ cb t ≤ s ∧ s < cb (t + 1) := by
        intro n
        induction n with
        | zero => intro _ h; omega
        | succ n ih =>
          intro hn hlt
          rcases Nat.lt_or_ge s (cb n) with h | h
          · exact ih (by omega) h
          · exact ⟨n, by omega, h, hlt⟩
      obtain ⟨t, ht, h1, h2⟩ := hex T (Nat.le_refl _) (by omega)
      obtain ⟨mt, ⟨_, _, _, k3⟩, k4⟩ := k1 t ht
      rw [k4 _ _ (Or.inr (Or.inr ⟨rfl, by omega, by omega⟩)), k3 s h1 h2]
      have := hs.bounds s hsm
      show _ = some ((remN A dp [] s : Nat) : Int)
      rw [remN_nil]
      exact congrArg some (by omega)
    · intro a i h1 h2
      refine k2 a i ?_
      rintro t _ (⟨h, _⟩ | ⟨h, _⟩) <;> exact h1 h
    · intro _
      refine ⟨fun t => if t < T then freeRows A dp (cb t) (cb (t + 1)) else [], ?_, ?_, ?_, ?_, ?_⟩
      · rw [← cbT, ← free_flat A dp cb cb0 cbm]
        refine List.flatMap_congr ?_
        intro t ht
        rw [if_pos (List.mem_range.mp ht)]
      · intro t
        unfold onTeam
        by_cases ht : t < T
        · obtain ⟨mt, ⟨h1, _⟩, _⟩ := k1 t ht
          dsimp only
          rw [if_pos ht, if_pos ht, h1]
        · dsimp only
          rw [if_neg ht, if_neg ht]; rfl
      · intro t
        unfold onTeam
        by_cases ht : t < T
        · obtain ⟨mt, ⟨h1, _⟩, _⟩ := k1 t ht
          dsimp only
          rw [if_pos ht, if_pos ht, h1]
        · dsimp only
          rw [if_neg ht, if_neg ht]; rfl
      · intro t ht; dsimp only; rw [if_neg (by omega)]
      · intro t ht
        obtain ⟨mt, ⟨_, h2, h3, _⟩, h4⟩ := k1 t ht
        have hc := lvCap_chunk (m := A.m) hT (cbc t ht)
        have hlen : (freeRows A dp (cb t) (cb (t + 1))).length ≤ cb (t + 1) - cb t := by
          refine Nat.le_trans (List.length_filter_le _ _) ?_
          rw [List.length_range']
        dsimp only
        rw [if_pos ht]
        have hcell : ∀ i, OwnQ T A.m t bufA i → m1 bufA i = mt bufA i := fun i hi => h4 _ _ (Or.inr (Or.inl hi))
        exact ⟨h2.congr (fun i h1 h2 => hcell i ⟨rfl, Or.inl ⟨h1, by omega⟩⟩), h3.congr (fun i h1 h2 => hcell i ⟨rfl, Or.inr ⟨h1, by omega⟩⟩)⟩

end

end SpMP
