import Verif.Rcm
import Verif.RcmPure
import Verif.BfsSmall
/-
Placing one small component: prefix sums of the levels, children, sorting, and the loop over levels.
-/

namespace SpMP
open Spec

variable {R : Type} {sz : CArr → Int} {W Rd : CArr → Int → Prop} {A : Csr R} {k k' : Nat} {s : Nat}

theorem countP_take_succ (p : Nat → Bool) (N : List Nat) {n : Nat} (h : n < N.length) :
    (N.take (n + 1)).countP p = (N.take n).countP p + if p N[n] then 1 else 0 := by
  rw [List.take_add_one, List.countP_append, List.getElem?_eq_getElem h]
  simp [List.countP_cons]

theorem countP_lt_succ (D : Nat → Nat) (N : List Nat) (n : Nat) :
    N.countP (fun y => decide (D y < n + 1)) = N.countP (fun y => decide (D y + 1 = n + 1)) + N.countP (fun y => decide (D y < n)) := by
  induction N with
  | nil => rfl
  | cons a N ih =>
    rw [List.countP_cons, List.countP_cons, List.countP_cons, ih]
    by_cases h1 : D a < n
    · simp [h1, show D a < n + 1 by omega, show ¬ D a = n by omega]; omega
    · by_cases h2 : D a = n
      · simp [h2]; omega
      · simp [h1, h2, show ¬ D a < n + 1 by omega]

theorem wp_rcmPrefix {mm : Nat} {m0 : Mem (CTy R)} {o st : Int} {nl : Nat} {N : List Nat} {D : Nat → Nat} (hN : HoldsQ m0 5 st N) (hlt : ∀ x ∈ N, x < mm)
    (hlev : ∀ x ∈ N, m0 bfsLev (x : Int) = some (D x : Int)) (hnl : ∀ x ∈ N, D x + 1 ≤ nl)
    (hacc : ∀ i, o ≤ i → i ≤ o + nl → W rcmPfx i ∧ Rd rcmPfx i ∧ 0 ≤ i ∧ i < sz rcmPfx) (hR5 : ∀ i, Rd (.itmp 5) i) (hRl : ∀ x ∈ N, Rd bfsLev (x : Int))
    {Q : Unit → Mem (CTy R) → Prop}
    (hQ : ∀ m, (∀ l : Nat, l ≤ nl → m rcmPfx (o + l) = some (N.countP (fun y => decide (D y < l)) : Int)) →
      (∀ a i, ¬ (a = rcmPfx ∧ o ≤ i ∧ i ≤ o + nl) → m a i = m0 a i) → Q () m) :
    wp sz W Rd (rcmPrefix mm o nl st (N.length : Int)) m0 Q := by
  unfold rcmPrefix
  rw [wp_bind]
  refine wp_forN (b := 0) (lo := 0) (hi := nl + 1)
    (fun n _ m => (∀ l : Nat, l < n → m rcmPfx (o + l) = some (0 : Int)) ∧ ∀ a i, ¬ (a = rcmPfx ∧ o ≤ i ∧ i ≤ o + nl) → m a i = m0 a i)
    (by omega) ⟨fun _ h => by omega, fun _ _ _ => rfl⟩ ?_ ?_ (by omega) (by omega)
  · rintro n _ m h1 h2 ⟨h3, h4⟩
    rw [Int.add_zero]
    have ha := hacc (o + n) (by omega) (by omega)
    refine wp_wr1 ha.1 ha.2.2 ⟨fun l hl => ?_, fun a i hai => ?_⟩
    · by_cases e : l = n
      · subst e; exact Mem.get_same _ _ _ _
      · rw [Mem.get_ne _ _ _ _ _ (by omega)]; exact h3 l (by omega)
    · rcases Mem.set_cases m rcmPfx (o + n) ((0 : Int) : CTy R rcmPfx) a i with ⟨rfl, rfl⟩ | e
      · exact absurd ⟨rfl, by omega, by omega⟩ hai
      · exact e.trans (h4 a i hai)
  rintro _ m1 ⟨hz, hf1⟩
  rw [wp_bind]
  refine wp_forN (b := 0) (lo := 0) (hi := N.length)
    (fun n _ m => (∀ l : Nat, l ≤ nl → m rcmPfx (o + l) = some ((N.take n).countP (fun y => decide (D y + 1 = l)) : Int)) ∧
      ∀ a i, ¬ (a = rcmPfx ∧ o ≤ i ∧ i ≤ o + nl) → m a i = m0 a i)
    (by omega) ⟨fun l hl => hz l (by omega), hf1⟩ ?_ ?_ (by omega) (by omega)
  · rintro n _ m h1 h2 ⟨h3, h4⟩
    rw [Int.add_zero]
    have hx : N[n] ∈ N := List.getElem_mem h2
    refine wp_rd (N[n] : Int) (hR5 _) (by rw [h4 _ _ (by simp)]; exact hN n _ (List.getElem?_eq_getElem h2)) ?_
    rw [wp_bind, wp_assert]
    have hl := hlt _ hx
    refine ⟨⟨by show (0 : Int) ≤ (N[n] : Int); omega, by show (N[n] : Int) < (mm : Int); omega⟩, ?_⟩
    refine wp_rd (D N[n] : Int) (hRl _ hx) (by rw [h4 _ _ (by simp)]; exact hlev _ hx) ?_
    have hd := hnl _ hx
    have e : o + (D N[n] : Int) + 1 = o + ((D N[n] + 1 : Nat) : Int) := by omega
    rw [e]
    have ha := hacc (o + ((D N[n] + 1 : Nat) : Int)) (by omega) (by omega)
    refine wp_rd _ ha.2.1 (h3 (D N[n] + 1) hd) ?_
    refine wp_wr1 ha.1 ha.2.2 ⟨fun l hl => ?_, fun a i hai => ?_⟩
    · rw [countP_take_succ _ _ h2]
      by_cases e : D N[n] + 1 = l
      · subst e
        rw [Mem.get_same]
        simp
      · rw [Mem.get_ne _ _ _ _ _ (by omega), h3 l hl]
        simp [e]
    · rcases Mem.set_cases m rcmPfx (o + ((D N[n] + 1 : Nat) : Int)) (((N.take n).countP (fun y => decide (D y + 1 = D N[n] + 1)) : Int) + 1 : CTy R rcmPfx) a i with ⟨rfl, rfl⟩ | e
      · exact absurd ⟨rfl, by omega, by omega⟩ hai
      · exact e.trans (h4 a i hai)
  rintro _ m2 ⟨hc, hf2⟩
  rw [List.take_length] at hc
  refine wp_forN (b := 0) (lo := 0) (hi := nl)
    (fun n _ m => (∀ l : Nat, l ≤ n → m rcmPfx (o + l) = some (N.countP (fun y => decide (D y < l)) : Int)) ∧
      (∀ l : Nat, n < l → l ≤ nl → m rcmPfx (o + l) = some (N.countP (fun y => decide (D y + 1 = l)) : Int)) ∧
      ∀ a i, ¬ (a = rcmPfx ∧ o ≤ i ∧ i ≤ o + nl) → m a i = m0 a i)
    (by omega) ⟨fun l hl => ?_, fun l _ hl => hc l hl, hf2⟩ ?_ ?_ (by omega) (by omega)
  · obtain rfl : l = 0 := by omega
    rw [hc 0 (by omega)]
    simp
  · rintro n _ m h1 h2 ⟨h3, h4, h5⟩
    rw [Int.add_zero]
    have e : o + (n : Int) + 1 = o + ((n + 1 : Nat) : Int) := by omega
    rw [e]
    have ha := hacc (o + ((n + 1 : Nat) : Int)) (by omega) (by omega)
    have hb := hacc (o + (n : Int)) (by omega) (by omega)
    refine wp_rd _ ha.2.1 (h4 (n + 1) (by omega) (by omega)) ?_
    refine wp_rd _ hb.2.1 (h3 n (by omega)) ?_
    refine wp_wr1 ha.1 ha.2.2 ⟨fun l hl => ?_, fun l h6 h7 => ?_, fun a i hai => ?_⟩
    · by_cases e : l = n + 1
      · subst e
        rw [Mem.get_same, countP_lt_succ]
        push_cast; rfl
      · rw [Mem.get_ne _ _ _ _ _ (by omega)]; exact h3 l (by omega)
    · rw [Mem.get_ne _ _ _ _ _ (by omega)]; exact h4 l (by omega) h7
    · rcases Mem.set_cases m rcmPfx (o + ((n + 1 : Nat) : Int)) ((N.countP (fun y => decide (D y + 1 = n + 1)) : Int) + (N.countP (fun y => decide (D y < n)) : Int) : CTy R rcmPfx) a i with ⟨rfl, rfl⟩ | e
      · exact absurd ⟨rfl, by omega, by omega⟩ hai
      · exact e.trans (h5 a i hai)
  · rintro _ m ⟨h1, _, h3⟩
    exact hQ m h1 h3

/-! ### Children of a node -/

/-- Which levels have been taken: the children `G` being collected and the placed nodes other than the source. -/
def RcmLev (A : Csr R) (s : Nat) (D : Nat → Nat) (out G : List Nat) (m : Mem (CTy R)) : Prop :=
  ∀ x, Reaches A s x → m bfsLev (x : Int) = some (if (x ∈ out ∧ x ≠ s) ∨ x ∈ G then -1 else (D x : Int))

theorem wp_rcmChildren (wf : A.WF) (hsq : A.n = A.m) (hs : s < A.m) {m0 : Mem (CTy R)} (hpat : HoldsPat m0 k 0 A)
    (hrp : ∀ i, Rd (.rowptr k) i) (hci : ∀ i, Rd (.colidx k) i) (hlw : ∀ a i, SerL A s a i → W a i ∧ Rd a i ∧ i < sz a)
    {D : Nat → Nat} (hD : ∀ x, Reaches A s x → IsDist A s x (D x)) {co : Int} {N : List Nat} (hN : ∀ x, Reaches A s x → x ∈ N)
    (hchd : ∀ i, co ≤ i → i < co + N.length → W rcmChd i ∧ 0 ≤ i ∧ i < sz rcmChd)
    {out : List Nat} {u : Nat} (hu : Reaches A s u) (hso : s ∈ out) (hnear : ∀ x, Reaches A s x → D x ≤ D u → x ∈ out)
    (hlev : RcmLev A s D out [] m0) {Q : Int → Mem (CTy R) → Prop}
    (hQ : ∀ (G : List Nat) m, G.Nodup → (∀ x, x ∈ G ↔ x ∉ out ∧ Stores A u x) → HoldsQ m 21 co G → RcmLev A s D out G m →
      (∀ a i, ¬ SerL A s a i → ¬ (a = rcmChd ∧ co ≤ i ∧ i < co + N.length) → m a i = m0 a i) → Q (G.length : Int) m) :
    wp sz W Rd (rcmChildren k co (u : Int) (D u : Int)) m0 Q := by
  have hum : u < A.m := hu.lt wf hsq hs
  unfold rcmChildren
  refine wp_rd ((A.ptr u : Int)) (hrp _) (by have := hpat.rowptr u (by omega); simpa using this) ?_
  refine wp_rd ((A.ptr (u + 1) : Int)) (hrp _) (by have := hpat.rowptr (u + 1) (by omega); simpa using this) ?_
  have hpm := wf.ptr_mono (show u ≤ u + 1 by omega) (show u + 1 ≤ A.m by omega)
  refine wp_forN (b := 0) (lo := A.ptr u) (hi := A.ptr (u + 1))
    (fun n c m => ∃ G : List Nat, c = (G.length : Int) ∧ G.Nodup ∧ (∀ x ∈ G, x ∉ out ∧ Stores A u x) ∧
      (∀ j, A.ptr u ≤ j → j < n → A.col j ∈ out ∨ A.col j ∈ G) ∧ HoldsQ m 21 co G ∧ RcmLev A s D out G m ∧
      (∀ a i, ¬ SerL A s a i → ¬ (a = rcmChd ∧ co ≤ i ∧ i < co + N.length) → m a i = m0 a i)) hpm ?_ ?_ ?_ (by omega) (by omega)
  · exact ⟨[], rfl, List.nodup_nil, by simp, fun j a b => by omega, fun q x h => by simp at h, hlev, fun _ _ _ _ => rfl⟩
  · rintro n c m h1 h2 ⟨G, rfl, hnd, hmem, hdone, hq, hl, hf⟩
    rw [Int.add_zero]
    have hin : A.InRow u n := ⟨hum, h1, h2⟩
    have hnz := hin.lt_nnz wf
    have hreach : Reaches A s (A.col n) := hu.trans (.edge hin)
    refine wp_rd ((A.col n : Int)) (hci _)
      (by rw [hf _ _ (by rintro ⟨h, _⟩; simp at h) (by simp)]; have := hpat.colidx n hnz; simpa using this) ?_
    have hla := hlw bfsLev (A.col n : Int) ⟨rfl, _, hreach, rfl⟩
    refine wp_rd _ hla.2.1 (hl _ hreach) ?_
    by_cases hc : ((A.col n ∈ out ∧ A.col n ≠ s) ∨ A.col n ∈ G)
    · have q : ¬ ((if (A.col n ∈ out ∧ A.col n ≠ s) ∨ A.col n ∈ G then -1 else (D (A.col n) : Int)) = (D u : Int) + 1) := by
        rw [if_pos hc]; omega
      rw [if_neg q, wp_pure]
      refine ⟨G, rfl, hnd, hmem, fun j a b => ?_, hq, hl, hf⟩
      by_cases e : j = n
      · subst e; rcases hc with h | h
        · exact Or.inl h.1
        · exact Or.inr h
      · exact hdone j a (by omega)
    · by_cases hxs : A.col n = s
      · have hd0 : D (A.col n) = 0 := by rw [hxs]; exact (hD s (.refl s)).unique isDist_zero
        have q : ¬ ((if (A.col n ∈ out ∧ A.col n ≠ s) ∨ A.col n ∈ G then -1 else (D (A.col n) : Int)) = (D u : Int) + 1) := by
          rw [if_neg hc]; omega
        rw [if_neg q, wp_pure]
        refine ⟨G, rfl, hnd, hmem, fun j a b => ?_, hq, hl, hf⟩
        by_cases e : j = n
        · subst e; exact Or.inl (by rw [hxs]; exact hso)
        · exact hdone j a (by omega)
      · have hxo : A.col n ∉ out := fun h => hc (Or.inl ⟨h, hxs⟩)
        have hxG : A.col n ∉ G := fun h => hc (Or.inr h)
        have hdu : D (A.col n) = D u + 1 := by
          have a1 : ¬ D (A.col n) ≤ D u := fun h => hxo (hnear _ hreach h)
          have a2 := (hD _ hreach).2 _ (.snoc (hD u hu).1 hin)
          omega
        have q : ((if (A.col n ∈ out ∧ A.col n ≠ s) ∨ A.col n ∈ G then -1 else (D (A.col n) : Int)) = (D u : Int) + 1) := by
          rw [if_neg hc]; omega
        rw [if_pos q]
        have hnd' : (G ++ [A.col n]).Nodup := by
          rw [List.nodup_append]
          exact ⟨hnd, List.nodup_singleton _, fun a ha b hb e => hxG (by rw [← List.mem_singleton.1 hb, ← e]; exact ha)⟩
        have hlen : (G ++ [A.col n]).length ≤ N.length := by
          refine (List.subperm_of_subset hnd' ?_).length_le
          intro x hx
          rcases List.mem_append.1 hx with hx | hx
          · obtain ⟨j, hj, rfl⟩ := (hmem x hx).2
            exact hN _ (hu.trans (.edge hj))
          · rw [List.mem_singleton.1 hx]; exact hN _ hreach
        rw [List.length_append, List.length_singleton] at hlen
        have hca := hchd (co + (G.length : Int)) (by omega) (by omega)
        refine wp_wr hca.1 hca.2 ?_
        refine wp_wr hla.1 ⟨by omega, hla.2.2⟩ ?_
        rw [wp_pure]
        have hne : bfsLev ≠ rcmChd := by simp
        refine ⟨G ++ [A.col n], by rw [List.length_append, List.length_singleton]; push_cast; rfl, hnd', ?_, ?_, ?_, ?_, ?_⟩
        · intro x hx
          rcases List.mem_append.1 hx with hx | hx
          · exact hmem x hx
          · rw [List.mem_singleton.1 hx]; exact ⟨hxo, n, hin, rfl⟩
        · intro j a b
          by_cases e : j = n
          · subst e; exact Or.inr (by simp)
          · rcases hdone j a (by omega) with h | h
            · exact Or.inl h
            · exact Or.inr (List.mem_append_left _ h)
        · refine HoldsQ.snoc (hq.congr fun i a1 a2 => ?_) ?_
          · rw [Mem.set_other _ _ _ _ _ (Ne.symm hne), Mem.get_ne _ _ _ _ _ (by omega)]
          · rw [Mem.set_other _ _ _ _ _ (Ne.symm hne)]; exact Mem.get_same _ _ _ _
        · intro x hx
          by_cases e : x = A.col n
          · subst e
            rw [Mem.get_same, if_pos (Or.inr (by simp))]
          · rw [Mem.get_ne _ _ _ _ _ (by omega), Mem.set_other _ _ _ _ _ hne, hl x hx]
            simp [e]
        · intro a i h3 h4
          rw [← hf a i h3 h4]
          rcases Mem.set_cases (m.set rcmChd (co + (G.length : Int)) ((A.col n : Int) : CTy R rcmChd)) bfsLev (A.col n : Int) ((-1 : Int) : CTy R bfsLev) a i with ⟨rfl, rfl⟩ | e
          · exact absurd ⟨rfl, _, hreach, rfl⟩ h3
          · rw [e]
            rcases Mem.set_cases m rcmChd (co + (G.length : Int)) ((A.col n : Int) : CTy R rcmChd) a i with ⟨rfl, rfl⟩ | e
            · exact absurd ⟨rfl, by omega, by omega⟩ h4
            · exact e
  · rintro c m ⟨G, rfl, hnd, hmem, hdone, hq, hl, hf⟩
    refine hQ G m hnd (fun x => ⟨hmem x, fun ⟨h1, j, h2, h3⟩ => ?_⟩) hq hl hf
    subst h3
    rcases hdone j h2.2.1 h2.2.2 with h | h
    · exact absurd h h1
    · exact h

/-! ### Sorting -/

/-- What std::sort promises: a rearrangement, sorted by key. -/
def SortsByKey (srt : List (Int × Int) → List (Int × Int)) : Prop :=
  ∀ l, (srt l).Perm l ∧ (srt l).Pairwise fun x y => x.1 ≤ y.1

theorem wp_rcmDegrees {m : Mem (CTy R)} (hpat : HoldsPat m k 0 A) (wf : A.WF) (hrp : ∀ i, Rd (.rowptr k) i) :
    ∀ (G : List Nat), (∀ x ∈ G, x < A.m) → ∀ {Q : List (Int × Int) → Mem (CTy R) → Prop},
    Q (G.map fun x : Nat => ((degree A x : Int), (x : Int))) m → wp sz W Rd (rcmDegrees k (G.map fun x : Nat => (x : Int))) m Q := by
  intro G
  induction G with
  | nil => intro _ Q hQ; show wp sz W Rd (pure []) m Q; rw [wp_pure]; exact hQ
  | cons x G ih =>
    intro hlt Q hQ
    have hx := hlt x (by simp)
    refine wp_rd ((A.ptr (x + 1) : Int)) (hrp _) (by have := hpat.rowptr (x + 1) (by omega); simpa using this) ?_
    refine wp_rd ((A.ptr x : Int)) (hrp _) (by have := hpat.rowptr x (by omega); simpa using this) ?_
    rw [wp_bind]
    refine ih (fun y hy => hlt y (by simp [hy])) ?_
    rw [wp_pure]
    have hpm := wf.ptr_mono (show x ≤ x + 1 by omega) (show x + 1 ≤ A.m by omega)
    have e : ((A.ptr (x + 1) : Int) - (A.ptr x : Int), (x : Int)) = ((degree A x : Int), (x : Int)) := by
      unfold degree; rw [Nat.cast_sub hpm]
    rw [List.map_cons] at hQ
    rw [← e] at hQ
    exact hQ

theorem sorted_children {srt : List (Int × Int) → List (Int × Int)} (hsrt : SortsByKey srt) (A : Csr R) (G : List Nat) :
    ∃ G' : List Nat, G'.Perm G ∧ (G'.Pairwise fun x y => degree A x ≤ degree A y) ∧
      (srt (G.map fun x : Nat => ((degree A x : Int), (x : Int)))).map Prod.snd = G'.map fun x : Nat => (x : Int) := by
  obtain ⟨h1, h2⟩ := hsrt (G.map fun x : Nat => ((degree A x : Int), (x : Int)))
  generalize srt (G.map fun x : Nat => ((degree A x : Int), (x : Int))) = S at h1 h2
  have hform : ∀ p ∈ S, p = ((degree A p.2.toNat : Int), (p.2.toNat : Int)) := by
    intro p hp
    obtain ⟨x, _, rfl⟩ := List.mem_map.1 (h1.mem_iff.1 hp)
    simp
  refine ⟨S.map fun p => p.2.toNat, ?_, ?_, ?_⟩
  · have := h1.map (fun p : Int × Int => p.2.toNat)
    rw [List.map_map] at this
    simpa [Function.comp_def] using this
  · rw [List.pairwise_map]
    refine List.Pairwise.imp_of_mem ?_ h2
    intro p q hp hq hle
    rw [hform p hp, hform q hq] at hle
    simpa using hle
  · rw [List.map_map]
    refine List.map_congr_left fun p hp => ?_
    have := congrArg Prod.snd (hform p hp)
    exact this

theorem wp_rcmSort {m0 : Mem (CTy R)} (wf : A.WF) (hpat : HoldsPat m0 k 0 A) (hrp : ∀ i, Rd (.rowptr k) i) {srt : List (Int × Int) → List (Int × Int)} (hsrt : SortsByKey srt)
    {co : Int} {G : List Nat} (hlt : ∀ x ∈ G, x < A.m) (hq : HoldsQ m0 21 co G)
    (hchd : ∀ i, co ≤ i → i < co + G.length → W rcmChd i ∧ Rd rcmChd i ∧ 0 ≤ i ∧ i < sz rcmChd) (hco : 0 ≤ co ∧ co + G.length ≤ sz rcmChd)
    {Q : Unit → Mem (CTy R) → Prop}
    (hQ : ∀ (G' : List Nat) m, G'.Perm G → (G'.Pairwise fun x y => degree A x ≤ degree A y) → HoldsQ m 21 co G' →
      (∀ a i, ¬ (a = rcmChd ∧ co ≤ i ∧ i < co + G.length) → m a i = m0 a i) → Q () m) :
    wp sz W Rd (rcmSort k srt co (G.length : Int)) m0 Q := by
  unfold rcmSort
  rw [wp_bind, Int.toNat_natCast]
  have hl : (G.map fun x : Nat => (x : Int)).length = G.length := List.length_map _
  rw [← hl]
  refine wp_readList (G.map fun x : Nat => (x : Int)) co ?_ ?_
  · intro q hqq
    rw [hl] at hqq
    refine ⟨(hchd _ (by omega) (by omega)).2.1, ?_⟩
    rw [List.getElem_map]
    exact hq q _ (List.getElem?_eq_getElem hqq)
  rw [wp_bind]
  refine wp_rcmDegrees hpat wf hrp G hlt ?_
  obtain ⟨G', h1, h2, h3⟩ := sorted_children hsrt A G
  rw [h3]
  have hl' : (G'.map fun x : Nat => (x : Int)).length = G.length := by rw [List.length_map, h1.length_eq]
  refine wp_writeList _ co m0 hco.1 (by rw [hl']; exact hco.2) ?_ ?_
  · intro q hqq
    rw [hl'] at hqq
    exact (hchd _ (by omega) (by omega)).1
  · intro m g1 g2
    refine hQ G' m h1 h2 ?_ ?_
    · intro q x hx
      obtain ⟨hqq, rfl⟩ := List.getElem?_eq_some_iff.1 hx
      have := g1 q (by rw [List.length_map]; exact hqq)
      rw [List.getElem_map] at this
      exact this
    · intro a i h
      exact g2 a i (by rw [hl']; exact h)

/-! ### Placing the children -/

/-- The placed nodes in memory. -/
structure RcmOut (A : Csr R) (off : Nat) (out : List Nat) (m : Mem (CTy R)) : Prop where
  inv : ∀ j x : Nat, out[j]? = some x → m bfsInv ((A.m : Int) - ((off + j : Nat) : Int) - 1) = some (x : Int)
  perm : ∀ j x : Nat, out[j]? = some x → m bfsPrm (x : Int) = some ((A.m : Int) - ((off + j : Nat) : Int) - 1 : Int)

theorem wp_rcmPut {m0 : Mem (CTy R)} {co : Int} {off n : Nat} {out C : List Nat} (hnd : (out ++ C).Nodup) (hr : ∀ x ∈ C, Reaches A s x) (ho : RcmOut A off out m0) (hq : HoldsQ m0 21 co C)
    (hlen : (out ++ C).length ≤ n)
    (hchd : ∀ i, co ≤ i → i < co + C.length → Rd rcmChd i)
    (hinv : ∀ i : Int, (A.m : Int) - off - n ≤ i → i < (A.m : Int) - off → W bfsInv i ∧ 0 ≤ i ∧ i < sz bfsInv)
    (hprm : ∀ x : Nat, Reaches A s x → W bfsPrm (x : Int) ∧ (x : Int) < sz bfsPrm) {Q : Unit → Mem (CTy R) → Prop}
    (hQ : ∀ m, RcmOut A off (out ++ C) m →
      (∀ a i, ¬ (a = bfsInv ∧ (A.m : Int) - off - n ≤ i ∧ i < (A.m : Int) - off) → ¬ (a = bfsPrm ∧ ∃ x : Nat, Reaches A s x ∧ i = (x : Int)) → m a i = m0 a i) → Q () m) :
    wp sz W Rd (rcmPut A.m co ((off + out.length : Nat) : Int) (C.length : Int)) m0 Q := by
  unfold rcmPut
  rw [List.length_append] at hlen
  refine wp_forN (b := 0) (lo := 0) (hi := C.length)
    (fun q _ m => RcmOut A off (out ++ C.take q) m ∧
      (∀ a i, ¬ (a = bfsInv ∧ (A.m : Int) - off - n ≤ i ∧ i < (A.m : Int) - off) → ¬ (a = bfsPrm ∧ ∃ x : Nat, Reaches A s x ∧ i = (x : Int)) → m a i = m0 a i))
    (by omega) ⟨by simpa using ho, fun _ _ _ _ => rfl⟩ ?_ ?_ (by omega) (by omega)
  · rintro q _ m _ hq2 ⟨h1, h2⟩
    rw [Int.add_zero]
    refine wp_rd (C[q] : Int) (hchd _ (by omega) (by omega)) (by rw [h2 _ _ (by simp) (by simp)]; exact hq q _ (List.getElem?_eq_getElem hq2)) ?_
    have e : (A.m : Int) - (((off + out.length : Nat) : Int) + (q : Int)) - 1 = (A.m : Int) - ((off + (out.length + q) : Nat) : Int) - 1 := by omega
    rw [e]
    have hi := hinv ((A.m : Int) - ((off + (out.length + q) : Nat) : Int) - 1) (by omega) (by omega)
    have hx : Reaches A s C[q] := hr _ (List.getElem_mem _)
    have hp := hprm C[q] hx
    refine wp_wr hi.1 hi.2 ?_
    refine wp_wr1 hp.1 ⟨by omega, hp.2⟩ ?_
    have hne : bfsInv ≠ bfsPrm := by simp
    have hlt : (C.take q).length = q := by rw [List.length_take]; omega
    have htk : out ++ C.take (q + 1) = (out ++ C.take q) ++ [C[q]] := by
      rw [List.take_add_one, List.getElem?_eq_getElem hq2, List.append_assoc]; rfl
    have hll : (out ++ C.take q).length = out.length + q := by rw [List.length_append, hlt]
    have hnotin : C[q] ∉ out ++ C.take q := by
      have hs : ((out ++ C.take q) ++ [C[q]]).Sublist (out ++ C) := by
        rw [← htk]; exact List.Sublist.append_left (List.take_sublist _ _) _
      have := hnd.sublist hs
      rw [List.nodup_append] at this
      exact fun h => this.2.2 _ h _ (by simp) rfl
    refine ⟨⟨fun j x hj => ?_, fun j x hj => ?_⟩, fun a i h3 h4 => ?_⟩
    · rw [Mem.set_other _ _ _ _ _ hne]
      rw [htk] at hj
      have hjl := (List.getElem?_eq_some_iff.1 hj).1
      rw [List.length_append, List.length_singleton, hll] at hjl
      by_cases ej : j = out.length + q
      · subst ej
        rw [List.getElem?_append_right (by omega), hll] at hj
        simp at hj
        subst hj
        exact Mem.get_same _ _ _ _
      · rw [List.getElem?_append_left (by omega)] at hj
        rw [Mem.get_ne _ _ _ _ _ (by omega)]
        exact h1.inv j x hj
    · rw [htk] at hj
      have hjl := (List.getElem?_eq_some_iff.1 hj).1
      rw [List.length_append, List.length_singleton, hll] at hjl
      by_cases ej : j = out.length + q
      · subst ej
        rw [List.getElem?_append_right (by omega), hll] at hj
        simp at hj
        subst hj
        exact Mem.get_same _ _ _ _
      · rw [List.getElem?_append_left (by omega)] at hj
        have hxn : x ≠ C[q] := by rintro rfl; exact hnotin (List.mem_of_getElem? hj)
        rw [Mem.get_ne _ _ _ _ _ (by omega), Mem.set_other _ _ _ _ _ (Ne.symm hne)]
        exact h1.perm j x hj
    · rw [← h2 a i h3 h4]
      rcases Mem.set_cases (m.set bfsInv ((A.m : Int) - ((off + (out.length + q) : Nat) : Int) - 1) ((C[q] : Int) : CTy R bfsInv)) bfsPrm (C[q] : Int)
        (((A.m : Int) - ((off + (out.length + q) : Nat) : Int) - 1 : Int) : CTy R bfsPrm) a i with ⟨rfl, rfl⟩ | e
      · exact absurd ⟨rfl, _, hx, rfl⟩ h4
      · rw [e]
        rcases Mem.set_cases m bfsInv ((A.m : Int) - ((off + (out.length + q) : Nat) : Int) - 1) ((C[q] : Int) : CTy R bfsInv) a i with ⟨rfl, rfl⟩ | e
        · exact absurd ⟨rfl, by omega, by omega⟩ h3
        · exact e
  · rintro _ m ⟨h1, h2⟩
    rw [List.take_length] at h1
    exact hQ m h1 h2

end SpMP
