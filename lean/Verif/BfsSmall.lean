import Verif.BfsBlocks
/-
The components other than the first: the shortcuts for one and two nodes, and the serial search of a small component.
-/

namespace SpMP
open Spec

variable {R : Type} {sz : CArr → Int} {W Rd : CArr → Int → Prop} {A : Csr R} {k k' base : Nat}

theorem wp_bfsSingle {m : Mem (CTy R)} (wf : A.WF) (hpat : HoldsPat m k base A) (hR : ∀ i, Rd (.rowptr k) i) (hC : ∀ i, Rd (.colidx k) i)
    {i : Nat} (hi : i < A.m) {Q : Bool → Mem (CTy R) → Prop}
    (hQ : ∀ b, (b = true → ∀ j, A.InRow i j → A.col j = i) → (b = false → A.ptr (i + 1) = A.ptr i + 1 → A.col (A.ptr i) ≠ i) → Q b m) :
    wp sz W Rd (bfsSingle k base (i : Int)) m Q := by
  unfold bfsSingle
  refine wp_rd ((A.ptr (i + 1) : Int) + base) (hR _) (hpat.rowptr (i + 1) (by omega)) ?_
  refine wp_rd ((A.ptr i : Int) + base) (hR _) (hpat.rowptr i (by omega)) ?_
  by_cases h1 : A.ptr (i + 1) = A.ptr i + 1
  · have q : ((A.ptr (i + 1) : Int) + base : Int) = (A.ptr i : Int) + base + 1 := by omega
    rw [if_pos q]
    have hin : A.InRow i (A.ptr i) := ⟨hi, Nat.le_refl _, by omega⟩
    have e : ((A.ptr i : Int) + base - base : Int) = A.ptr i := by omega
    rw [e]
    refine wp_rd ((A.col (A.ptr i) : Int) + base) (hC _) (hpat.colidx _ (hin.lt_nnz wf)) ?_
    rw [wp_pure]
    refine hQ _ ?_ ?_
    · intro hb j hj
      have hb := of_decide_eq_true hb
      obtain rfl : j = A.ptr i := by have := hj.2; omega
      have hb : ((A.col (A.ptr i) : Int) + base - base : Int) = i := hb
      omega
    · intro hb _
      have hb := of_decide_eq_false hb
      intro e
      apply hb
      show ((A.col (A.ptr i) : Int) + base - base : Int) = i
      omega
  · have q : ¬ ((A.ptr (i + 1) : Int) + base : Int) = (A.ptr i : Int) + base + 1 := by omega
    rw [if_neg q, wp_pure]
    refine hQ _ ?_ (fun _ h => absurd h h1)
    intro hb j hj
    have hb := of_decide_eq_true hb
    have hb : ((A.ptr (i + 1) : Int) + base : Int) = (A.ptr i : Int) + base := hb
    have := hj.2
    omega

/-- Rows `i` and `u` only refer to `i` and `u`, and row `i` to `u`. -/
structure Twin (A : Csr R) (i u : Nat) : Prop where
  ne : u ≠ i
  lt : u < A.m
  adj : ∃ j, A.InRow i j ∧ A.col j = u
  row_i : ∀ j, A.InRow i j → A.col j = i ∨ A.col j = u
  row_u : ∀ j, A.InRow u j → A.col j = u ∨ A.col j = i

theorem Twin.reaches {i u : Nat} (h : Twin A i u) (x : Nat) : Reaches A i x ↔ x = i ∨ x = u := by
  constructor
  · rintro ⟨d, hw⟩
    induction hw with
    | nil => exact Or.inl rfl
    | snoc _ h2 ih =>
      rcases ih with rfl | rfl
      · exact h.row_i _ h2
      · exact (h.row_u _ h2).symm
  · rintro (rfl | rfl)
    · exact .refl _
    · obtain ⟨j, hj, rfl⟩ := h.adj
      exact .edge hj

theorem wp_bfsTwin1 {m : Mem (CTy R)} (wf : A.WF) (hsq : A.n = A.m) (hpat : HoldsPat m k base A) (hR : ∀ i, Rd (.rowptr k) i) (hC : ∀ i, Rd (.colidx k) i)
    {i : Nat} (hi : i < A.m) (h1 : A.ptr (i + 1) = A.ptr i + 1) (hne : A.col (A.ptr i) ≠ i) {Q : Option Int → Mem (CTy R) → Prop}
    (hQn : Q none m) (hQs : ∀ u : Nat, Twin A i u → Q (some (u : Int)) m) :
    wp sz W Rd (bfsTwin1 k base (i : Int) ((A.ptr i : Int) + base)) m Q := by
  unfold bfsTwin1
  have hin : A.InRow i (A.ptr i) := ⟨hi, Nat.le_refl _, by omega⟩
  have e : ((A.ptr i : Int) + base - base : Int) = A.ptr i := by omega
  rw [e]
  refine wp_rd ((A.col (A.ptr i) : Int) + base) (hC _) (hpat.colidx _ (hin.lt_nnz wf)) ?_
  dsimp only
  generalize hu : A.col (A.ptr i) = u at *
  have hum : u < A.m := by have := wf.col_lt _ (hin.lt_nnz wf); omega
  have e : ((u : Int) + base - base : Int) = u := by omega
  rw [e]
  refine wp_rd ((A.ptr (u + 1) : Int) + base) (hR _) (hpat.rowptr (u + 1) (by omega)) ?_
  refine wp_rd ((A.ptr u : Int) + base) (hR _) (hpat.rowptr u (by omega)) ?_
  by_cases h2 : A.ptr (u + 1) = A.ptr u + 1
  · have q : ((A.ptr (u + 1) : Int) + base : Int) = (A.ptr u : Int) + base + 1 := by omega
    rw [if_pos q]
    have hin' : A.InRow u (A.ptr u) := ⟨hum, Nat.le_refl _, by omega⟩
    have e : ((A.ptr u : Int) + base - base : Int) = A.ptr u := by omega
    rw [e]
    refine wp_rd ((A.col (A.ptr u) : Int) + base) (hC _) (hpat.colidx _ (hin'.lt_nnz wf)) ?_
    rw [wp_pure]
    by_cases h3 : A.col (A.ptr u) = i
    · have q : ((A.col (A.ptr u) : Int) + base - base : Int) = i := by omega
      rw [if_pos q]
      refine hQs u ⟨hne, hum, ⟨_, hin, hu⟩, ?_, ?_⟩
      · intro j hj
        obtain rfl : j = A.ptr i := by have := hj.2; omega
        exact Or.inr hu
      · intro j hj
        obtain rfl : j = A.ptr u := by have := hj.2; omega
        exact Or.inr h3
    · have q : ¬ ((A.col (A.ptr u) : Int) + base - base : Int) = i := by omega
      rw [if_neg q]; exact hQn
  · have q : ¬ ((A.ptr (u + 1) : Int) + base : Int) = (A.ptr u : Int) + base + 1 := by omega
    rw [if_neg q, wp_pure]; exact hQn

theorem wp_bfsTwin2c {m : Mem (CTy R)} (wf : A.WF) (hpat : HoldsPat m k base A) (hR : ∀ i, Rd (.rowptr k) i) (hC : ∀ i, Rd (.colidx k) i)
    {i u : Nat} (hum : u < A.m) {Q : Option Int → Mem (CTy R) → Prop} (hQn : Q none m)
    (hQs : (∀ j, A.InRow u j → A.col j = u ∨ A.col j = i) → Q (some (u : Int)) m) :
    wp sz W Rd (bfsTwin2c k base (i : Int) (u : Int)) m Q := by
  unfold bfsTwin2c
  rw [if_neg (show ¬ ((u : Int) = -1) by omega)]
  refine wp_rd ((A.ptr (u + 1) : Int) + base) (hR _) (hpat.rowptr (u + 1) (by omega)) ?_
  refine wp_rd ((A.ptr u : Int) + base) (hR _) (hpat.rowptr u (by omega)) ?_
  by_cases h2 : A.ptr (u + 1) = A.ptr u + 2
  · have q : ((A.ptr (u + 1) : Int) + base : Int) = (A.ptr u : Int) + base + 2 := by omega
    rw [if_pos q]
    have i1 : A.InRow u (A.ptr u) := ⟨hum, Nat.le_refl _, by omega⟩
    have i2 : A.InRow u (A.ptr u + 1) := ⟨hum, by omega, by omega⟩
    have e : ((A.ptr u : Int) + base - base : Int) = A.ptr u := by omega
    have e' : ((A.ptr u : Int) + base + 1 - base : Int) = (A.ptr u + 1 : Nat) := by omega
    rw [e, e']
    refine wp_rd ((A.col (A.ptr u) : Int) + base) (hC _) (hpat.colidx _ (i1.lt_nnz wf)) ?_
    refine wp_rd ((A.col (A.ptr u + 1) : Int) + base) (hC _) (hpat.colidx _ (i2.lt_nnz wf)) ?_
    rw [wp_pure]
    split
    · rename_i hc
      refine hQs fun j hj => ?_
      have hc : (((A.col (A.ptr u) : Int) + base - base : Int) = u ∧ ((A.col (A.ptr u + 1) : Int) + base - base : Int) = i) ∨
        (((A.col (A.ptr u + 1) : Int) + base - base : Int) = u ∧ ((A.col (A.ptr u) : Int) + base - base : Int) = i) := hc
      obtain rfl | rfl : j = A.ptr u ∨ j = A.ptr u + 1 := by have := hj.2; omega
      · omega
      · omega
    · exact hQn
  · have q : ¬ ((A.ptr (u + 1) : Int) + base : Int) = (A.ptr u : Int) + base + 2 := by omega
    rw [if_neg q, wp_pure]; exact hQn

theorem wp_bfsTwin2 {m : Mem (CTy R)} (wf : A.WF) (hsq : A.n = A.m) (hnd : NoDup A) (hpat : HoldsPat m k base A) (hR : ∀ i, Rd (.rowptr k) i)
    (hC : ∀ i, Rd (.colidx k) i) {i : Nat} (hi : i < A.m) (h1 : A.ptr (i + 1) = A.ptr i + 2) {Q : Option Int → Mem (CTy R) → Prop}
    (hQn : Q none m) (hQs : ∀ u : Nat, Twin A i u → Q (some (u : Int)) m) :
    wp sz W Rd (bfsTwin2 k base (i : Int) ((A.ptr i : Int) + base)) m Q := by
  unfold bfsTwin2
  have i1 : A.InRow i (A.ptr i) := ⟨hi, Nat.le_refl _, by omega⟩
  have i2 : A.InRow i (A.ptr i + 1) := ⟨hi, by omega, by omega⟩
  have l1 : A.col (A.ptr i) < A.m := by have := wf.col_lt _ (i1.lt_nnz wf); omega
  have l2 : A.col (A.ptr i + 1) < A.m := by have := wf.col_lt _ (i2.lt_nnz wf); omega
  have e : ((A.ptr i : Int) + base - base : Int) = A.ptr i := by omega
  have e' : ((A.ptr i : Int) + base + 1 - base : Int) = (A.ptr i + 1 : Nat) := by omega
  have hne : A.col (A.ptr i) ≠ A.col (A.ptr i + 1) := fun h => by have := hnd i _ _ i1 i2 h; omega
  have row : ∀ j, A.InRow i j → j = A.ptr i ∨ j = A.ptr i + 1 := fun j hj => by have := hj.2; omega
  rw [e, e']
  refine wp_rd ((A.col (A.ptr i) : Int) + base) (hC _) (hpat.colidx _ (i1.lt_nnz wf)) ?_
  by_cases h2 : A.col (A.ptr i) = i
  · have q : ((A.col (A.ptr i) : Int) + base - base : Int) = i := by omega
    rw [if_pos q]
    refine wp_rd ((A.col (A.ptr i + 1) : Int) + base) (hC _) (hpat.colidx _ (i2.lt_nnz wf)) ?_
    have e : ((A.col (A.ptr i + 1) : Int) + base - base : Int) = A.col (A.ptr i + 1) := by omega
    rw [e]
    refine wp_bfsTwin2c wf hpat hR hC l2 hQn fun hu => hQs _ ⟨by omega, l2, ⟨_, i2, rfl⟩, fun j hj => ?_, hu⟩
    rcases row j hj with rfl | rfl
    · exact Or.inl h2
    · exact Or.inr rfl
  · have q : ¬ ((A.col (A.ptr i) : Int) + base - base : Int) = i := by omega
    rw [if_neg q]
    refine wp_rd ((A.col (A.ptr i + 1) : Int) + base) (hC _) (hpat.colidx _ (i2.lt_nnz wf)) ?_
    by_cases h3 : A.col (A.ptr i + 1) = i
    · have q : ((A.col (A.ptr i + 1) : Int) + base - base : Int) = i := by omega
      rw [if_pos q]
      have e : ((A.col (A.ptr i) : Int) + base - base : Int) = A.col (A.ptr i) := by omega
      rw [e]
      refine wp_bfsTwin2c wf hpat hR hC l1 hQn fun hu => hQs _ ⟨h2, l1, ⟨_, i1, rfl⟩, fun j hj => ?_, hu⟩
      rcases row j hj with rfl | rfl
      · exact Or.inr rfl
      · exact Or.inl h3
    · have q : ¬ ((A.col (A.ptr i + 1) : Int) + base - base : Int) = i := by omega
      rw [if_neg q]
      unfold bfsTwin2c
      rw [if_pos rfl, wp_pure]
      exact hQn

theorem wp_bfsTwin {m : Mem (CTy R)} (wf : A.WF) (hsq : A.n = A.m) (hnd : NoDup A) (hpat : HoldsPat m k base A) (hR : ∀ i, Rd (.rowptr k) i)
    (hC : ∀ i, Rd (.colidx k) i) {i : Nat} (hi : i < A.m) (hns : A.ptr (i + 1) = A.ptr i + 1 → A.col (A.ptr i) ≠ i)
    {Q : Option Int → Mem (CTy R) → Prop} (hQn : Q none m) (hQs : ∀ u : Nat, Twin A i u → Q (some (u : Int)) m) :
    wp sz W Rd (bfsTwin k base (i : Int)) m Q := by
  unfold bfsTwin
  refine wp_rd ((A.ptr (i + 1) : Int) + base) (hR _) (hpat.rowptr (i + 1) (by omega)) ?_
  refine wp_rd ((A.ptr i : Int) + base) (hR _) (hpat.rowptr i (by omega)) ?_
  by_cases h1 : A.ptr (i + 1) = A.ptr i + 1
  · have q : ((A.ptr (i + 1) : Int) + base : Int) = (A.ptr i : Int) + base + 1 := by omega
    rw [if_pos q]
    exact wp_bfsTwin1 wf hsq hpat hR hC hi h1 (hns h1) hQn hQs
  · have q : ¬ ((A.ptr (i + 1) : Int) + base : Int) = (A.ptr i : Int) + base + 1 := by omega
    rw [if_neg q]
    by_cases h2 : A.ptr (i + 1) = A.ptr i + 2
    · have q : ((A.ptr (i + 1) : Int) + base : Int) = (A.ptr i : Int) + base + 2 := by omega
      rw [if_pos q]
      exact wp_bfsTwin2 wf hsq hnd hpat hR hC hi h2 hQn hQs
    · have q : ¬ ((A.ptr (i + 1) : Int) + base : Int) = (A.ptr i : Int) + base + 2 := by omega
      rw [if_neg q, wp_pure]
      exact hQn

/-- Scratch arrays of the searches. -/
def BfsScr (a : CArr) : Prop := a = bfsQ 0 ∨ a = bfsQ 1 ∨ a = bufA ∨ a = bfsBits ∨ a = bfsLev

/-- Only the block at `off` of length `len` and the nodes of the component of `s` changed. -/
def CompFrame (A : Csr R) (s off len : Nat) (m m' : Mem (CTy R)) : Prop :=
  ∀ a i, ¬ BfsScr a → ¬ (a = bfsInv ∧ (off : Int) ≤ i ∧ i < (off : Int) + len) → ¬ (a = bfsPrm ∧ ∃ x : Nat, Reaches A s x ∧ i = (x : Int)) → m' a i = m a i

/-- The data of the components in memory. -/
structure CompMem (A : Csr R) (k k' base nc : Nat) (root size start node : Nat → Nat) (m : Mem (CTy R)) : Prop where
  pat : HoldsPat m k base A
  hroot : ∀ c, c < nc → m (.itmp 3) (c : Int) = some (root c : Int)
  hsize : ∀ c, c < nc → m (.itmp 4) (c : Int) = some (size c : Int)
  hstart : ∀ c, c < nc → m (.rowptr k') (c : Int) = some (start c : Int)
  hnode : ∀ c j, c < nc → j < size c → m (.itmp 5) ((start c + j : Nat) : Int) = some (node (start c + j) : Int)

variable {V : Nat → Prop} {nc : Nat} {root size start node : Nat → Nat}

theorem CompMem.frame {s off len : Nat} {m m' : Mem (CTy R)} (h : CompMem A k k' base nc root size start node m) (hf : CompFrame A s off len m m') :
    CompMem A k k' base nc root size start node m' := by
  have key : ∀ a i, ¬ BfsScr a → a ≠ bfsInv → a ≠ bfsPrm → m' a i = m a i :=
    fun a i h1 h2 h3 => hf a i h1 (fun h => h2 h.1) (fun h => h3 h.1)
  have b : ∀ a : CArr, (∀ j, 9 ≤ j → a ≠ .itmp j) → ¬ BfsScr a ∧ a ≠ bfsInv ∧ a ≠ bfsPrm := fun a ha =>
    ⟨by rintro (e | e | e | e | e) <;> exact ha _ (by omega) e, ha _ (by omega), ha _ (by omega)⟩
  have f : ∀ a i, (∀ j, 9 ≤ j → a ≠ .itmp j) → m' a i = m a i := fun a i ha => key a i (b a ha).1 (b a ha).2.1 (b a ha).2.2
  refine ⟨⟨fun i hi => by rw [f _ _ (by simp)]; exact h.pat.rowptr i hi, fun i hi => by rw [f _ _ (by simp)]; exact h.pat.colidx i hi⟩,
    fun c hc => ?_, fun c hc => ?_, fun c hc => ?_, fun c j hc hj => ?_⟩
  · rw [f _ _ (by intro j hj e; injection e with e; omega)]; exact h.hroot c hc
  · rw [f _ _ (by intro j hj e; injection e with e; omega)]; exact h.hsize c hc
  · rw [f _ _ (by simp)]; exact h.hstart c hc
  · rw [f _ _ (by intro j hj e; injection e with e; omega)]; exact h.hnode c j hc hj

/-- The sizes of the arrays used. -/
structure BfsRoom (A : Csr R) (sz : CArr → Int) : Prop where
  q0 : (A.m : Int) ≤ sz (bfsQ 0)
  q1 : (A.m : Int) ≤ sz (bfsQ 1)
  lev : (A.m : Int) ≤ sz bfsLev
  inv : (A.m : Int) ≤ sz bfsInv
  prm : (A.m : Int) ≤ sz bfsPrm

theorem wp_bfsSearchSmall (wf : A.WF) (hsq : A.n = A.m) (hsym : PatSym A) (room : BfsRoom A sz) {c off : Nat} {m0 : Mem (CTy R)}
    (hcm : CompMem A k k' base nc root size start node m0) (hex : IsComponents V (Reaches A) nc root size start node) (hcl : CcClosed A V) (hc : c < nc)
    (hr : root c < A.m) (hoff : off + size c ≤ A.m)
    {Q : Unit → Mem (CTy R) → Prop}
    (hQ : ∀ l m, Placed A (root c) off l m → CompFrame A (root c) off (size c) m0 m → (∀ i, m bfsBits i = m0 bfsBits i) → Q () m) :
    wp sz (fun _ _ => True) (fun _ _ => True) (bfsSearchSmall k base A.m (root c : Int) (start c : Int) (size c : Int) (off : Int)) m0 Q := by
  unfold bfsSearchSmall
  have hlv := room.lev
  have hiv := room.inv
  have hpv := room.prm
  rw [wp_bind]
  refine wp_forN (b := 0) (lo := 0) (hi := size c)
    (fun n _ m => (∀ j, j < n → m bfsLev (node (start c + j) : Int) = some (-1 : Int)) ∧ ∀ a i, ¬ SerL A (root c) a i → m a i = m0 a i)
    (by omega) ⟨fun _ h => by omega, fun _ _ _ => rfl⟩ ?_ ?_ (by omega) (by omega)
  · rintro n _ m _ hn ⟨h1, h2⟩
    rw [Int.add_zero]
    have hnr := (hex.node_mem c n hc hn).2
    have hlt := hnr.lt wf hsq hr
    refine wp_rd (node (start c + n) : Int) trivial ?_ ?_
    · rw [h2 _ _ (by rintro ⟨e, _⟩; injection e with e; omega)]
      have := hcm.hnode c n hc hn
      rwa [show ((start c + n : Nat) : Int) = (start c : Int) + n by push_cast; rfl] at this
    · refine wp_wr1 trivial ⟨by omega, by omega⟩ ⟨?_, ?_⟩
      · intro j hj
        by_cases e : (node (start c + j) : Int) = node (start c + n)
        · rw [e]; exact Mem.get_same _ _ _ _
        · rw [Mem.get_ne _ _ _ _ _ e]
          refine h1 j ?_
          by_contra hc'
          obtain rfl : j = n := by omega
          exact e rfl
      · intro a i hni
        rw [← h2 a i hni]
        rcases Mem.set_cases m bfsLev (node (start c + n) : Int) (-1 : Int) a i with ⟨rfl, rfl⟩ | e
        · exact absurd ⟨rfl, _, hnr, rfl⟩ hni
        · exact e
  · rintro _ m1 ⟨h1, h2⟩
    have hp1 : HoldsPat m1 k base A :=
      ⟨fun i hi => by rw [h2 _ _ (by rintro ⟨e, _⟩; simp at e)]; exact hcm.pat.rowptr i hi,
       fun i hi => by rw [h2 _ _ (by rintro ⟨e, _⟩; simp at e)]; exact hcm.pat.colidx i hi⟩
    rw [wp_bind]
    refine wp_bfsSerial (o := 0) wf hsq hr hp1 ⟨by omega, ?_, ?_, fun _ => trivial, fun _ => trivial⟩ (by omega) ?_ ?_ ?_
    · rintro p a i hp ⟨rfl, a1, a2⟩
      refine ⟨trivial, trivial, ?_⟩
      have := room.q0
      have := room.q1
      obtain rfl | rfl : p = 0 ∨ p = 1 := by omega
      · omega
      · omega
    · rintro a i ⟨rfl, x, hx, rfl⟩
      have := hx.lt wf hsq hr
      exact ⟨trivial, trivial, by omega⟩
    · intro _ l hn hm
      refine ⟨?_, fun _ _ _ => trivial⟩
      have hsub : l ⊆ compNodes size start node c := fun x hx => (compNodes_mem hsym hex hcl hc x).2 (hm x hx)
      have := (List.subperm_of_subset hn hsub).length_le
      rw [compNodes, List.length_map, List.length_range] at this
      omega
    · intro x hx
      have := (compNodes_mem hsym hex hcl hc x).2 hx
      rw [compNodes, List.mem_map] at this
      obtain ⟨j, hj, rfl⟩ := this
      exact h1 j (List.mem_range.1 hj)
    · intro nl vis m2 hd
      have hlen := comp_length hsym hex hcl hc hd.vis_nodup hd.vis_mem
      refine wp_forN (b := 0) (lo := 0) (hi := size c)
        (fun n _ m => (∀ j x : Nat, j < n → vis[j]? = some x → m bfsPrm (x : Int) = some ((off + j : Nat) : Int)) ∧
          ∀ a i, ¬ (a = bfsPrm ∧ ∃ x : Nat, Reaches A (root c) x ∧ i = (x : Int)) → m a i = m2 a i)
        (by omega) ⟨fun _ _ h => by omega, fun _ _ _ => rfl⟩ ?_ ?_ (by omega) (by omega)
      · rintro n _ m _ hn ⟨g1, g2⟩
        rw [Int.add_zero]
        have hnl : n < vis.length := by omega
        have hv : vis[n]? = some vis[n] := List.getElem?_eq_getElem hnl
        have hre := (hd.vis_mem _).1 (List.getElem_mem hnl)
        have hlt := hre.lt wf hsq hr
        refine wp_rd (vis[n] : Int) trivial ?_ ?_
        · rw [g2 _ _ (by rintro ⟨e, _⟩; injection e with e; omega)]
          exact hd.vis_hold rfl n _ hv
        · refine wp_wr1 trivial ⟨by omega, by omega⟩ ⟨?_, ?_⟩
          · intro j x hj hx
            by_cases e : j = n
            · subst e
              rw [hv] at hx
              injection hx with hx
              subst hx
              rw [Mem.get_same]; push_cast; rfl
            · have hjl : j < vis.length := by omega
              have hx' : vis[j] = x := by rw [List.getElem?_eq_getElem hjl] at hx; injection hx
              have : x ≠ vis[n] := fun h => e ((List.Nodup.getElem_inj_iff hd.vis_nodup).1 (hx'.trans h))
              rw [Mem.get_ne _ _ _ _ _ (by omega)]
              exact g1 j x (by omega) hx
          · intro a i hni
            rw [← g2 a i hni]
            rcases Mem.set_cases m bfsPrm (vis[n] : Int) ((off : Int) + n) a i with ⟨rfl, rfl⟩ | e
            · exact absurd ⟨rfl, _, hre, rfl⟩ hni
            · exact e
      · rintro _ m3 ⟨g1, g2⟩
        have gi : ∀ i, m3 bfsInv i = m2 bfsInv i := fun i => g2 _ _ (by rintro ⟨e, _⟩; injection e with e; omega)
        have fr : ∀ a i, ¬ SerQ A 0 0 a i → ¬ SerQ A 0 1 a i → ¬ SerL A (root c) a i → ¬ (a = bfsInv ∧ (off : Int) ≤ i ∧ i < (off : Int) + size c) →
            ¬ (a = bfsPrm ∧ ∃ x : Nat, Reaches A (root c) x ∧ i = (x : Int)) → m3 a i = m0 a i := by
          intro a i a1 a2 a3 a4 a5
          rw [g2 a i a5, hd.frame a i a1 a2 a3 (by rw [hlen]; exact fun h => a4 h.2), h2 a i a3]
        refine hQ vis m3 ⟨hd.vis_nodup, hd.vis_mem, hd.vis_sorted, ?_, ?_⟩ ?_ ?_
        · intro j x hj
          rw [gi]
          have := hd.vis_hold rfl j x hj
          rwa [show ((off + j : Nat) : Int) = (off : Int) + j by push_cast; rfl]
        · intro j x hj
          have hjl := (List.getElem?_eq_some_iff.1 hj).1
          exact g1 j x (by omega) hj
        · intro a i a1 a2 a3
          exact fr a i (fun h => a1 (Or.inl h.1)) (fun h => a1 (Or.inr (Or.inl h.1))) (fun h => a1 (by right; right; right; right; exact h.1)) a2 a3
        · intro i
          refine fr _ i ?_ ?_ ?_ ?_ ?_ <;> · rintro ⟨e, _⟩; injection e with e; omega

theorem wp_bfsSmallComp (wf : A.WF) (hsq : A.n = A.m) (hsym : PatSym A) (hnd : NoDup A) (room : BfsRoom A sz) {c n0 thr : Nat} {m0 : Mem (CTy R)}
    (hcm : CompMem A k k' base nc root size start node m0) (hex : IsComponents V (Reaches A) nc root size start node) (hcl : CcClosed A V) (hc : c < nc)
    (hr : root c < A.m) (hoff : n0 + start c + size c ≤ A.m) (hbit : m0 bfsBits (root c : Int) = some (0 : Int))
    {Q : Unit → Mem (CTy R) → Prop}
    (hQ : ∀ m, (size c < thr → ∃ l, Placed A (root c) (n0 + start c) l m) → CompFrame A (root c) (n0 + start c) (size c) m0 m →
      (∀ i, m bfsBits i = m0 bfsBits i) → Q () m) :
    wp sz (fun _ _ => True) (fun _ _ => True) (bfsSmallComp k k' base A.m thr (n0 : Int) (c : Int)) m0 Q := by
  unfold bfsSmallComp
  have hiv := room.inv
  have hpv := room.prm
  refine wp_rd _ trivial (hcm.hroot c hc) ?_
  refine wp_rd _ trivial (hcm.hstart c hc) ?_
  refine wp_rd _ trivial (hcm.hsize c hc) ?_
  refine wp_rd _ trivial hbit ?_
  by_cases ht : size c < thr
  · have q : ¬ ((thr : Int) ≤ (size c : Int) ∨ (0 : Int) ≠ 0) := by omega
    rw [if_neg q, wp_bind]
    have eoff : ((start c : Int) + n0 : Int) = ((n0 + start c : Nat) : Int) := by push_cast; omega
    rw [eoff]
    generalize n0 + start c = off at *
    -- length of the component
    refine wp_bfsSingle wf hcm.pat (fun _ => trivial) (fun _ => trivial) hr ?_
    intro b hb1 hb2
    cases b with
    | true =>
      rw [if_pos rfl]
      have hre : ∀ x, Reaches A (root c) x ↔ x = root c := by
        intro x
        constructor
        · rintro ⟨d, hw⟩
          induction hw with
          | nil => rfl
          | snoc _ h2 ih => subst ih; exact hb1 rfl _ h2
        · rintro rfl; exact .refl _
      have hlen : size c = 1 := by
        rw [← comp_length hsym hex hcl hc (l := [root c]) (by simp) (fun x => by rw [hre]; simp)]; rfl
      refine wp_wr trivial ⟨by omega, by omega⟩ ?_
      refine wp_wr1 trivial ⟨by omega, by omega⟩ ?_
      refine hQ _ (fun _ => ⟨[root c], by simp, fun x => by rw [hre]; simp, List.pairwise_singleton _ _, ?_, ?_⟩) ?_ ?_
      · intro j x hj
        obtain ⟨hj1, hj2⟩ := List.getElem?_eq_some_iff.1 hj
        obtain rfl : j = 0 := by simp at hj1; omega
        have hj2 : root c = x := hj2
        subst hj2
        rw [Mem.set_other _ _ _ _ _ (by simp), Nat.add_zero, Mem.get_same]
      · intro j x hj
        obtain ⟨hj1, hj2⟩ := List.getElem?_eq_some_iff.1 hj
        obtain rfl : j = 0 := by simp at hj1; omega
        have hj2 : root c = x := hj2
        subst hj2
        rw [Mem.get_same, Nat.add_zero]
      · intro a i _ a2 a3
        rcases Mem.set_cases (m0.set bfsInv (off : Int) (root c : Int)) bfsPrm (root c : Int) (off : Int) a i with ⟨rfl, rfl⟩ | e
        · exact absurd ⟨rfl, _, .refl _, rfl⟩ a3
        · rw [e]
          rcases Mem.set_cases m0 bfsInv (off : Int) (root c : Int) a i with ⟨rfl, rfl⟩ | e
          · exact absurd ⟨rfl, by omega, by omega⟩ a2
          · exact e
      · intro i
        rw [Mem.set_other _ _ _ _ _ (by simp), Mem.set_other _ _ _ _ _ (by simp)]
    | false =>
      rw [if_neg (by simp), wp_bind]
      refine wp_bfsTwin wf hsq hnd hcm.pat (fun _ => trivial) (fun _ => trivial) hr (hb2 rfl) ?_ ?_
      · unfold bfsPlaceTwin
        refine wp_bfsSearchSmall wf hsq hsym room hcm hex hcl hc hr hoff ?_
        intro l m h1 h2 h3
        exact hQ m (fun _ => ⟨l, h1⟩) h2 h3
      · intro u hu
        have hre := hu.reaches
        have hne := hu.ne
        have hlt := hu.lt
        have hlen : size c = 2 := by
          rw [← comp_length hsym hex hcl hc (l := [root c, u]) (by simp; omega) (fun x => by rw [hre]; simp)]; rfl
        unfold bfsPlaceTwin
        refine wp_wr trivial ⟨by omega, by omega⟩ ?_
        refine wp_wr trivial ⟨by omega, by omega⟩ ?_
        refine wp_wr trivial ⟨by omega, by omega⟩ ?_
        refine wp_wr1 trivial ⟨by omega, by omega⟩ ?_
        refine hQ _ (fun _ => ⟨[root c, u], by simp; omega, fun x => by rw [hre]; simp, ?_, ?_, ?_⟩) ?_ ?_
        · refine List.pairwise_cons.2 ⟨?_, List.pairwise_singleton _ _⟩
          intro y _ d e h1 _
          have := h1.unique isDist_zero
          omega
        · intro j x hj
          obtain ⟨hj1, hj2⟩ := List.getElem?_eq_some_iff.1 hj
          rw [Mem.set_other _ _ _ _ _ (by simp), Mem.set_other _ _ _ _ _ (by simp)]
          obtain rfl | rfl : j = 0 ∨ j = 1 := by simp at hj1; omega
          · have hj2 : root c = x := hj2
            subst hj2
            rw [Mem.get_ne _ _ _ _ _ (by push_cast; omega), Nat.add_zero, Mem.get_same]
          · have hj2 : u = x := hj2
            subst hj2
            rw [show ((off + 1 : Nat) : Int) = (off : Int) + 1 by push_cast; rfl, Mem.get_same]
        · intro j x hj
          obtain ⟨hj1, hj2⟩ := List.getElem?_eq_some_iff.1 hj
          obtain rfl | rfl : j = 0 ∨ j = 1 := by simp at hj1; omega
          · have hj2 : root c = x := hj2
            subst hj2
            rw [Mem.get_ne _ _ _ _ _ (by omega), Nat.add_zero, Mem.get_same]
          · have hj2 : u = x := hj2
            subst hj2
            rw [Mem.get_same]; push_cast; rfl
        · intro a i _ a2 a3
          rcases Mem.set_cases (((m0.set bfsInv (off : Int) (root c : Int)).set bfsInv ((off : Int) + 1) (u : Int)).set bfsPrm (root c : Int) (off : Int))
            bfsPrm (u : Int) ((off : Int) + 1) a i with ⟨rfl, rfl⟩ | e
          · exact absurd ⟨rfl, u, (hre u).2 (Or.inr rfl), rfl⟩ a3
          rw [e]
          rcases Mem.set_cases ((m0.set bfsInv (off : Int) (root c : Int)).set bfsInv ((off : Int) + 1) (u : Int))
            bfsPrm (root c : Int) (off : Int) a i with ⟨rfl, rfl⟩ | e
          · exact absurd ⟨rfl, _, .refl _, rfl⟩ a3
          rw [e]
          rcases Mem.set_cases (m0.set bfsInv (off : Int) (root c : Int)) bfsInv ((off : Int) + 1) (u : Int) a i with ⟨rfl, rfl⟩ | e
          · exact absurd ⟨rfl, by omega, by omega⟩ a2
          rw [e]
          rcases Mem.set_cases m0 bfsInv (off : Int) (root c : Int) a i with ⟨rfl, rfl⟩ | e
          · exact absurd ⟨rfl, by omega, by omega⟩ a2
          · exact e
        · intro i
          rw [Mem.set_other _ _ _ _ _ (by simp), Mem.set_other _ _ _ _ _ (by simp), Mem.set_other _ _ _ _ _ (by simp),
            Mem.set_other _ _ _ _ _ (by simp)]
  · have q : ((thr : Int) ≤ (size c : Int) ∨ (0 : Int) ≠ 0) := by omega
    rw [if_pos q, wp_pure]
    exact hQ m0 (fun h => absurd h ht) (fun _ _ _ _ _ => rfl) (fun _ => rfl)

end SpMP
