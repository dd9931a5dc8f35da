import Verif.BipLevel
import Verif.Spec.Bip
/-
bfsBipartite: the loops over the nodes of both sides.
-/

namespace SpMP
open Spec

variable {R : Type} {sz : CArr → Int} {M : Nat → Csr R} {k : Nat → Nat} {base T : Nat}

/-- Numbering of the nodes at positions `off ..`. -/
theorem bipNumber_ok {y : Nat} (hy : y < 2) {off : Nat} {l : List Nat} {m0 : Mem (CTy R)} (hn : l.Nodup) (hq : HoldsQ m0 (32 + y) (off : Int) l)
    (hlt : ∀ x ∈ l, (x : Int) < sz (bipPrm y)) {α : Type} {f : (Nat → Unit) → Script (CTy R) α} {Q : α → Mem (CTy R) → Prop}
    (hQ : ∀ r m, (∀ t x : Nat, l[t]? = some x → m (bipPrm y) (x : Int) = some ((off + t : Nat) : Int)) →
      (∀ a i, ¬ (a = bipPrm y ∧ ∃ x : Nat, x ∈ l ∧ i = (x : Int)) → m a i = m0 a i) → (f r).Ok m Q) :
    (Script.phase sz l.length (bipNumber y (off : Int)) f).Ok m0 Q := by
  refine par_rule (W := fun t a i => a = bipPrm y ∧ ∃ x : Nat, l[t]? = some x ∧ i = (x : Int))
    (R := fun t a i => a = bipInv y ∨ (a = bipPrm y ∧ ∃ x : Nat, l[t]? = some x ∧ i = (x : Int)))
    (Q := fun t _ m => ∀ x : Nat, l[t]? = some x → m (bipPrm y) (x : Int) = some ((off + t : Nat) : Int)) ?_ ?_ ?_
  · rintro t u a i ht hu hne ⟨rfl, x, hx, rfl⟩ (e | ⟨_, z, hz, e⟩)
    · injection e with e; omega
    · obtain rfl : x = z := by omega
      rw [List.getElem?_eq_getElem ht] at hx
      rw [List.getElem?_eq_getElem hu] at hz
      exact hne ((List.Nodup.getElem_inj_iff hn).1 (Option.some.inj (hx.trans hz.symm)))
  · intro t ht
    unfold bipNumber
    have hx : l[t]? = some l[t] := List.getElem?_eq_getElem ht
    have := hlt _ (List.getElem_mem ht)
    refine wp_rd (l[t] : Int) (Or.inl rfl) (hq t _ hx) ?_
    refine wp_wr1 ⟨rfl, _, hx, rfl⟩ ⟨by omega, this⟩ ?_
    intro x hx'
    rw [hx] at hx'
    injection hx' with hx'
    subst hx'
    rw [Mem.get_same]; push_cast; rfl
  · intro r m h1 h2
    refine hQ r m ?_ ?_
    · intro t x hx
      have ht := (List.getElem?_eq_some_iff.mp hx).1
      obtain ⟨mt, h3, h4⟩ := h1 t ht
      rw [← h3 x hx]
      exact h4 _ _ (Or.inr ⟨rfl, x, hx, rfl⟩)
    · intro a i hn
      refine h2 a i ?_
      rintro t ht ⟨rfl, x, hx, rfl⟩
      exact hn ⟨rfl, x, List.mem_of_getElem? hx, rfl⟩

/-- Both matrices store the same entries. -/
def BipSame (M : Nat → Csr R) : Prop :=
  ∀ y, y < 2 → ∀ x j, (M y).InRow x j → ∃ i, (M (1 - y)).InRow ((M y).col j) i ∧ (M (1 - y)).col i = x

/-- Node `x` of side `y` has no entry. -/
def BipEmpty (M : Nat → Csr R) (y x : Nat) : Prop := ∀ j, ¬ (M y).InRow x j

/-- State of the loops over nodes. `iN y` nodes of side `y` have been looked at, `V y` are the marked nodes, `L y` the numbered ones. -/
structure BipSt (M : Nat → Csr R) (k : Nat → Nat) (base : Nat) (m0 : Mem (CTy R)) (iN : Nat → Nat) (L : Nat → List Nat) (V : Nat → Nat → Prop)
    (m : Mem (CTy R)) : Prop where
  pat : ∀ y, y < 2 → HoldsPat m (k y) base (M y)
  one : ∀ y, y < 2 → ∀ x, x < (M y).m → V y x → m (bipBits y) (x : Int) = some (1 : Int)
  zero : ∀ y, y < 2 → ∀ x, x < (M y).m → ¬ V y x → m (bipBits y) (x : Int) = some (0 : Int)
  hold : ∀ y, y < 2 → HoldsQ m (32 + y) 0 (L y)
  perm : ∀ y, y < 2 → ∀ p x : Nat, (L y)[p]? = some x → m (bipPrm y) (x : Int) = some (p : Int)
  nodup : ∀ y, y < 2 → (L y).Nodup
  mem : ∀ y, y < 2 → ∀ x, x ∈ L y ↔ V y x ∨ (x < iN y ∧ BipEmpty M y x)
  lt : ∀ y, y < 2 → ∀ x, V y x → x < (M y).m
  closed : ∀ y, y < 2 → ∀ x j, V y x → (M y).InRow x j → V (1 - y) ((M y).col j)
  edge : ∀ y, y < 2 → ∀ x, V y x → ¬ BipEmpty M y x
  bound : ∀ y, y < 2 → iN y ≤ (M y).m
  done : ∀ y, y < 2 → ∀ x, x < iN y → V y x ∨ BipEmpty M y x
  frame : ∀ a i, (∀ j, a ≠ .itmp j) → m a i = m0 a i

theorem sreach_edge (hS : BipSame M) {c s : Nat} (hc : c < 2) (hne : ¬ BipEmpty M c s) {y x : Nat} (h : SReach M c s y x) : ¬ BipEmpty M y x := by
  obtain ⟨d, rfl, h⟩ := h
  cases h with
  | nil => rw [show (c + 0) % 2 = c by omega]; exact hne
  | snoc h1 h2 =>
    rename_i z d j
    obtain ⟨i, h3, _⟩ := hS _ (by omega) _ _ h2
    intro he
    refine he i ?_
    rw [show (c + (d + 1)) % 2 = 1 - (c + d) % 2 by omega]
    exact h3

theorem sreach_new (hS : BipSame M) {c s : Nat} {V : Nat → Nat → Prop} (hcl : ∀ y, y < 2 → ∀ x j, V y x → (M y).InRow x j → V (1 - y) ((M y).col j))
    (hc : c < 2) (hs : ¬ V c s) {y x : Nat} (h : SReach M c s y x) : ¬ V y x := by
  obtain ⟨d, rfl, h⟩ := h
  induction h with
  | nil => rw [show (c + 0) % 2 = c by omega]; exact hs
  | snoc h1 h2 ih =>
    rename_i z d j
    intro hv
    refine ih ?_
    obtain ⟨i, h3, h4⟩ := hS _ (by omega) _ _ h2
    rw [show (c + (d + 1)) % 2 = 1 - (c + d) % 2 by omega] at hv
    have := hcl _ (by omega) _ _ hv h3
    rw [h4, show 1 - (1 - (c + d) % 2) = (c + d) % 2 by omega] at this
    exact this

theorem sreach_closed {c s : Nat} {y x j : Nat} (hy : y < 2) (h : SReach M c s y x) (hj : (M y).InRow x j) : SReach M c s (1 - y) ((M y).col j) := by
  obtain ⟨d, rfl, h⟩ := h
  exact ⟨d + 1, by omega, .snoc h hj⟩

variable {n : Nat → Nat}

/-- The part of a node that is searched. -/
theorem bipSearch_ok (hM : BipPair M) (hS : BipSame M) (hT : 1 ≤ T) (hn : ∀ y, y < 2 → n y = (M y).m) (hbig : 2 ≤ T * max (n 0) (n 1))
    {m0 m : Mem (CTy R)} {iN : Nat → Nat} {L : Nat → List Nat} {V : Nat → Nat → Prop} (hst : BipSt M k base m0 iN L V m) {c i : Nat} (hc : c < 2)
    (hi : i < (M c).m) (hiN : iN c = i) (hnv : ¬ V c i) (hne : ¬ BipEmpty M c i)
    (hfit : ∀ l : List Nat, l.Nodup → (∀ x ∈ l, ∃ j, (M c).InRow i j ∧ (M c).col j = x) → l.length < max (n 0) (n 1))
    {idx : Nat → Int} (hidx : ∀ y, y < 2 → idx y = (L y).length) :
    (bipNode (bipSize sz n T) k base T n c idx i .search).Ok m (fun idx' m' => ∃ L' V', (∀ y, y < 2 → idx' y = ((L' y).length : Int)) ∧
      BipSt M k base m0 (Function.update iN c (i + 1)) L' V' m') := by
  have hnew : ∀ y x, SReach M c i y x → ¬ V y x := fun y x h => sreach_new hS hst.closed hc hnv h
  have hlt : ∀ y x, SReach M c i y x → x < (M y).m := fun y x h => sreach_lt hM hc hi h
  have hnL : ∀ y, y < 2 → ∀ x, SReach M c i y x → x ∉ L y := by
    intro y hy x h hx
    rcases (hst.mem y hy x).1 hx with h1 | ⟨_, h1⟩
    · exact hnew y x h h1
    · exact sreach_edge hS hc hne h h1
  have hLlt : ∀ y, y < 2 → ∀ x ∈ L y, x < (M y).m := by
    intro y hy x hx
    rcases (hst.mem y hy x).1 hx with h1 | ⟨h1, _⟩
    · exact hst.lt y hy x h1
    · have := hst.bound y hy; omega
  have happ : ∀ y, y < 2 → ∀ l : List Nat, l.Nodup → (∀ x ∈ l, SReach M c i y x) → (L y ++ l).Nodup ∧ (L y).length + l.length ≤ (M y).m := by
    intro y hy l hl hr
    have h1 : (L y ++ l).Nodup := by
      rw [List.nodup_append]
      refine ⟨hst.nodup y hy, hl, fun x hx z hz e => ?_⟩
      subst e; exact hnL y hy x (hr x hz) hx
    refine ⟨h1, ?_⟩
    have := nodup_len_le h1 (n := (M y).m) (fun x hx => by
      rcases List.mem_append.1 hx with hx | hx
      · exact hLlt y hy x hx
      · exact hlt y x (hr x hx))
    rwa [List.length_append] at this
  have hszI : ∀ y, y < 2 → bipSize sz n T (bipInv y) = ((M y).m : Int) ∧ bipSize sz n T (bipPrm y) = ((M y).m : Int) ∧ bipSize sz n T (bipBits y) = ((M y).m : Int) := by
    intro y hy
    rw [← hn y hy]
    rcases (by omega : y = 0 ∨ y = 1) with rfl | rfl <;> exact ⟨rfl, rfl, rfl⟩
  unfold bipNode
  rw [Script.ok_bind]
  refine Script.Ok.mono (bipBfs_ok (Z := V) hM hT hn hbig (fun y hy => by rw [hidx y hy]; omega) hc hi hnew hst.pat hst.one hst.zero hfit ?_ ?_ ?_ ?_) ?_
  · intro p hp
    rcases (by omega : p = 0 ∨ p = 1) with rfl | rfl <;> (show _ ≤ (_ * _ : Int); rw [Int.mul_comm])
  · exact Int.le_refl _
  · intro y hy; rw [(hszI y hy).2.2]
  · intro y hy l hl hr
    have := (happ y hy l hl hr).2
    rw [(hszI y hy).1, hidx y hy]; omega
  rintro nv m1 ⟨vis, hvn, hd⟩
  have hvr : ∀ y, y < 2 → ∀ x ∈ vis y, SReach M c i y x := fun y hy x hx => (hd.vis_mem y hy x).1 hx
  have hvl : ∀ y, y < 2 → (nv y).toNat = (vis y).length := fun y hy => by rw [hvn y hy]; omega
  rw [hvl 0 (by omega), hidx 0 (by omega)]
  have hh0 := hd.vis_hold 0 (by omega)
  rw [hidx 0 (by omega)] at hh0
  have hh1 := hd.vis_hold 1 (by omega)
  rw [hidx 1 (by omega)] at hh1
  refine bipNumber_ok (y := 0) (by omega) (hd.vis_nodup 0 (by omega)) hh0 ?_ ?_
  · intro x hx
    rw [(hszI 0 (by omega)).2.1]
    have := hlt 0 x (hvr 0 (by omega) x hx); omega
  intro _ m2 hp2 hf2
  rw [hvl 1 (by omega), hidx 1 (by omega)]
  refine bipNumber_ok (y := 1) (by omega) (hd.vis_nodup 1 (by omega)) (hh1.congr fun j _ _ => hf2 _ _ (by rintro ⟨e, _⟩; injection e with e; omega)) ?_ ?_
  · intro x hx
    rw [(hszI 1 (by omega)).2.1]
    have := hlt 1 x (hvr 1 (by omega) x hx); omega
  intro _ m3 hp3 hf3
  refine Script.ok_done_of ⟨fun y => L y ++ vis y, fun y x => V y x ∨ SReach M c i y x, ?_, ?_⟩
  · intro y hy
    show idx y + nv y = ((L y ++ vis y).length : Int)
    rw [hidx y hy, hvn y hy, List.length_append]; push_cast; rfl
  have hfr : ∀ a j, a ≠ bipPrm 0 → a ≠ bipPrm 1 → m3 a j = m1 a j := fun a j h1 h2 => by
    rw [hf3 _ _ (fun h => h2 h.1), hf2 _ _ (fun h => h1 h.1)]
  have hupd : ∀ y, Function.update iN c (i + 1) y = if y = c then i + 1 else iN y := fun y => Function.update_apply _ _ _ _
  have hold : ∀ y, y < 2 → HoldsQ m3 (32 + y) 0 (L y ++ vis y) := by
    intro y hy p x hx
    show m3 (bipInv y) _ = _
    rw [hfr _ _ (by intro e; injection e with e; omega) (by intro e; injection e with e; omega)]
    by_cases hp : p < (L y).length
    · rw [List.getElem?_append_left hp] at hx
      rw [hd.frame _ _ (by unfold BipTmp; simp; omega) (by
        rintro ⟨z, hz, e, h1, _⟩
        injection e with e
        obtain rfl : y = z := by omega
        rw [hidx y hy] at h1; omega)]
      exact hst.hold y hy p x hx
    · rw [List.getElem?_append_right (by omega)] at hx
      have := hd.vis_hold y hy _ x hx
      rwa [hidx y hy, show ((L y).length : Int) + ((p - (L y).length : Nat) : Int) = 0 + (p : Int) by omega] at this
  refine ⟨?_, ?_, ?_, hold, ?_, ?_, ?_, ?_, ?_, ?_, ?_, ?_, ?_⟩
  · intro y hy
    refine ⟨fun j hj => ?_, fun j hj => ?_⟩
    · rw [hfr _ _ (by simp) (by simp), hd.frame _ _ (by unfold BipTmp; simp) (by rintro ⟨z, _, e, _⟩; exact absurd e (by simp))]
      exact (hst.pat y hy).rowptr j hj
    · rw [hfr _ _ (by simp) (by simp), hd.frame _ _ (by unfold BipTmp; simp) (by rintro ⟨z, _, e, _⟩; exact absurd e (by simp))]
      exact (hst.pat y hy).colidx j hj
  · intro y hy x hx h
    rw [hfr _ _ (by intro e; injection e with e; omega) (by intro e; injection e with e; omega)]
    exact hd.one y hy x hx h
  · intro y hy x hx h
    rw [hfr _ _ (by intro e; injection e with e; omega) (by intro e; injection e with e; omega)]
    exact hd.zero y hy x hx h
  · intro y hy p x hx
    by_cases hp : p < (L y).length
    · rw [List.getElem?_append_left hp] at hx
      have hxL : x ∈ L y := List.mem_of_getElem? hx
      have hnv : ∀ z, z < 2 → y = z → x ∉ vis z := by
        rintro z hz rfl hxv; exact hnL y hy x (hvr y hy x hxv) hxL
      rw [hf3 _ _ (by
          rintro ⟨e, z, hz, e2⟩
          injection e with e
          obtain rfl : x = z := by omega
          exact hnv 1 (by omega) (by omega) hz),
        hf2 _ _ (by
          rintro ⟨e, z, hz, e2⟩
          injection e with e
          obtain rfl : x = z := by omega
          exact hnv 0 (by omega) (by omega) hz),
        hd.frame _ _ (by unfold BipTmp; simp; omega) (by rintro ⟨z, hz, e, _⟩; injection e with e; omega)]
      exact hst.perm y hy p x hx
    · rw [List.getElem?_append_right (by omega)] at hx
      have hval : m3 (bipPrm y) (x : Int) = some (((L y).length + (p - (L y).length) : Nat) : Int) := by
        rcases (by omega : y = 0 ∨ y = 1) with rfl | rfl
        · rw [hf3 _ _ (by rintro ⟨e, _⟩; injection e with e; omega)]
          exact hp2 _ x hx
        · exact hp3 _ x hx
      rw [hval, show (L y).length + (p - (L y).length) = p by omega]
  · intro y hy; exact (happ y hy _ (hd.vis_nodup y hy) (hvr y hy)).1
  · intro y hy x
    rw [List.mem_append, hst.mem y hy, hd.vis_mem y hy, hupd]
    constructor
    · rintro ((h | ⟨h1, h2⟩) | h)
      · exact Or.inl (Or.inl h)
      · refine Or.inr ⟨?_, h2⟩
        split
        · rename_i e; subst e; omega
        · exact h1
      · exact Or.inl (Or.inr h)
    · rintro ((h | h) | ⟨h1, h2⟩)
      · exact Or.inl (Or.inl h)
      · exact Or.inr h
      · refine Or.inl (Or.inr ⟨?_, h2⟩)
        by_cases e : y = c
        · subst e
          rw [if_pos rfl] at h1
          have : x ≠ i := by rintro rfl; exact hne h2
          omega
        · rwa [if_neg e] at h1
  · rintro y hy x (h | h)
    · exact hst.lt y hy x h
    · exact hlt y x h
  · rintro y hy x j (h | h) hj
    · exact Or.inl (hst.closed y hy x j h hj)
    · exact Or.inr (sreach_closed hy h hj)
  · rintro y hy x (h | h)
    · exact hst.edge y hy x h
    · exact sreach_edge hS hc hne h
  · intro y hy
    rw [hupd]
    split
    · rename_i e; subst e; exact hi
    · exact hst.bound y hy
  · intro y hy x hx
    rw [hupd] at hx
    by_cases e : y = c
    · subst e
      rw [if_pos rfl] at hx
      by_cases e2 : x = i
      · subst e2; exact Or.inl (Or.inr ⟨0, by omega, .nil⟩)
      · rcases hst.done y hy x (by omega) with h | h
        · exact Or.inl (Or.inl h)
        · exact Or.inr h
    · rw [if_neg e] at hx
      rcases hst.done y hy x hx with h | h
      · exact Or.inl (Or.inl h)
      · exact Or.inr h
  · intro a j ha
    rw [hfr _ _ (ha _) (ha _), hd.frame _ _ (by rintro (e | e | e | e | e) <;> exact ha _ e) (by rintro ⟨z, _, e, _⟩; exact ha _ e)]
    exact hst.frame a j ha

/-- Looking at a node: marked, placed at once, or to be searched. -/
theorem bipHead_ok {m0 m : Mem (CTy R)} {iN : Nat → Nat} {L : Nat → List Nat} {V : Nat → Nat → Prop} (hM : BipPair M) (hn : ∀ y, y < 2 → n y = (M y).m)
    (hst : BipSt M k base m0 iN L V m) {c i : Nat} (hc : c < 2) (hi : i < (M c).m) (hiN : iN c = i) {idx : Nat → Int}
    (hidx : ∀ y, y < 2 → idx y = (L y).length) {W Rd : CArr → Int → Prop} (hW : ∀ a j, W a j) (hR : ∀ a j, Rd a j) {Q : BipKind → Mem (CTy R) → Prop}
    (hQ1 : V c i → Q .visited m) (hQ2 : ¬ V c i → ¬ BipEmpty M c i → Q .search m)
    (hQ3 : ∀ m', BipSt M k base m0 (Function.update iN c (i + 1)) (Function.update L c (L c ++ [i])) V m' → Q .single m') :
    wp (bipSize sz n T) W Rd (bipHead (k c) c (idx c) i) m Q := by
  have hszI : ∀ y, y < 2 → bipSize sz n T (bipInv y) = ((M y).m : Int) ∧ bipSize sz n T (bipPrm y) = ((M y).m : Int) := by
    intro y hy
    rw [← hn y hy]
    rcases (by omega : y = 0 ∨ y = 1) with rfl | rfl <;> exact ⟨rfl, rfl⟩
  obtain ⟨hs1, hs2⟩ := hszI c hc
  unfold bipHead
  by_cases hv : V c i
  · refine wp_rd _ (hR _ _) (hst.one c hc i hi hv) ?_
    rw [if_pos (show ((1 : Int) ≠ 0) by decide), wp_pure]
    exact hQ1 hv
  refine wp_rd _ (hR _ _) (hst.zero c hc i hi hv) ?_
  rw [if_neg (show ¬ ((0 : Int) ≠ 0) by decide)]
  refine wp_rd (((M c).ptr (i + 1) : Int) + base) (hR _ _) (by exact_mod_cast (hst.pat c hc).rowptr (i + 1) (by omega)) ?_
  refine wp_rd (((M c).ptr i : Int) + base) (hR _ _) ((hst.pat c hc).rowptr i (by omega)) ?_
  have hmono := (hM.wf c hc).ptr_mono (show i ≤ i + 1 by omega) (show i + 1 ≤ (M c).m by omega)
  by_cases he : (M c).ptr (i + 1) = (M c).ptr i
  · have q : ((((M c).ptr (i + 1) : Int) + base : Int) = ((M c).ptr i : Int) + base) := by omega
    rw [if_pos q]
    have hemp : BipEmpty M c i := fun j hj => by have := hj.2.1; have := hj.2.2; omega
    have hnL : i ∉ L c := by
      intro h
      rcases (hst.mem c hc i).1 h with h | ⟨h, _⟩
      · exact hv h
      · omega
    have hlen : (L c).length < (M c).m := by
      have h1 : (L c ++ [i]).Nodup := by
        rw [List.nodup_append]
        refine ⟨hst.nodup c hc, List.nodup_singleton _, fun x hx z hz e => ?_⟩
        rw [List.mem_singleton] at hz; subst hz; subst e; exact hnL hx
      have := nodup_len_le h1 (n := (M c).m) (fun x hx => by
        rcases List.mem_append.1 hx with hx | hx
        · rcases (hst.mem c hc x).1 hx with h1 | ⟨h1, _⟩
          · exact hst.lt c hc x h1
          · have := hst.bound c hc; omega
        · rw [List.mem_singleton] at hx; omega)
      rw [List.length_append, List.length_singleton] at this
      omega
    have hic := hidx c hc
    refine wp_wr (hW _ _) ⟨by omega, by omega⟩ ?_
    refine wp_wr (hW _ _) ⟨by omega, by omega⟩ ?_
    rw [wp_pure]
    refine hQ3 _ ?_
    generalize hm' : (m.set (bipInv c) (idx c) (i : Int)).set (bipPrm c) (i : Int) (idx c) = m'
    have hfr : ∀ a j, ¬ (a = bipInv c ∧ j = idx c) → ¬ (a = bipPrm c ∧ j = (i : Int)) → m' a j = m a j := by
      intro a j h1 h2
      rw [← hm']
      by_cases e : a = bipPrm c
      · subst e
        rw [Mem.get_ne _ _ _ _ _ (fun e => h2 ⟨rfl, e⟩), Mem.set_other _ _ _ _ _ (by intro e; injection e with e; omega)]
      · rw [Mem.set_other _ _ _ _ _ e]
        by_cases e' : a = bipInv c
        · subst e'; rw [Mem.get_ne _ _ _ _ _ (fun e => h1 ⟨rfl, e⟩)]
        · rw [Mem.set_other _ _ _ _ _ e']
    have hv1 : m' (bipInv c) (idx c) = some (i : Int) := by
      rw [← hm', Mem.set_other _ _ _ _ _ (by intro e; injection e with e; omega), Mem.get_same]
    have hv2 : m' (bipPrm c) (i : Int) = some (idx c) := by rw [← hm', Mem.get_same]
    have hupd : ∀ y, Function.update iN c (i + 1) y = if y = c then i + 1 else iN y := fun y => Function.update_apply _ _ _ _
    have hLc : Function.update L c (L c ++ [i]) c = L c ++ [i] := Function.update_self _ _ _
    have hLo : ∀ y, y ≠ c → Function.update L c (L c ++ [i]) y = L y := fun y hy => Function.update_of_ne hy _ _
    refine ⟨?_, ?_, ?_, ?_, ?_, ?_, ?_, hst.lt, hst.closed, hst.edge, ?_, ?_, ?_⟩
    · intro y hy
      refine ⟨fun j hj => ?_, fun j hj => ?_⟩
      · rw [hfr _ _ (by simp) (by simp)]; exact (hst.pat y hy).rowptr j hj
      · rw [hfr _ _ (by simp) (by simp)]; exact (hst.pat y hy).colidx j hj
    · intro y hy x hx h
      rw [hfr _ _ (by rintro ⟨e, _⟩; injection e with e; omega) (by rintro ⟨e, _⟩; injection e with e; omega)]; exact hst.one y hy x hx h
    · intro y hy x hx h
      rw [hfr _ _ (by rintro ⟨e, _⟩; injection e with e; omega) (by rintro ⟨e, _⟩; injection e with e; omega)]; exact hst.zero y hy x hx h
    · intro y hy p x hx
      show m' (bipInv y) _ = _
      by_cases e : y = c
      · subst e
        rw [hLc] at hx
        by_cases hp : p < (L y).length
        · rw [List.getElem?_append_left hp] at hx
          rw [hfr _ _ (by rintro ⟨_, e⟩; omega) (by rintro ⟨e, _⟩; injection e with e; omega)]
          exact hst.hold y hy p x hx
        · have hpl := (List.getElem?_eq_some_iff.mp hx).1
          rw [List.length_append, List.length_singleton] at hpl
          obtain rfl : p = (L y).length := by omega
          rw [List.getElem?_concat_length] at hx
          injection hx with hx
          subst hx
          rw [show (0 : Int) + ((L y).length : Nat) = idx y by omega]
          exact hv1
      · rw [hLo y e] at hx
        rw [hfr _ _ (by rintro ⟨e', _⟩; injection e' with e'; omega) (by rintro ⟨e', _⟩; injection e' with e'; omega)]
        exact hst.hold y hy p x hx
    · intro y hy p x hx
      by_cases e : y = c
      · subst e
        rw [hLc] at hx
        by_cases hp : p < (L y).length
        · rw [List.getElem?_append_left hp] at hx
          rw [hfr _ _ (by rintro ⟨e, _⟩; injection e with e; omega) (by
            rintro ⟨_, e⟩
            obtain rfl : x = i := by omega
            exact hnL (List.mem_of_getElem? hx))]
          exact hst.perm y hy p x hx
        · have hpl := (List.getElem?_eq_some_iff.mp hx).1
          rw [List.length_append, List.length_singleton] at hpl
          obtain rfl : p = (L y).length := by omega
          rw [List.getElem?_concat_length] at hx
          injection hx with hx
          subst hx
          rw [hv2, hic]
      · rw [hLo y e] at hx
        rw [hfr _ _ (by rintro ⟨e', _⟩; injection e' with e'; omega) (by rintro ⟨e', _⟩; injection e' with e'; omega)]
        exact hst.perm y hy p x hx
    · intro y hy
      by_cases e : y = c
      · subst e; rw [hLc, List.nodup_append]
        refine ⟨hst.nodup y hy, List.nodup_singleton _, fun x hx z hz e => ?_⟩
        rw [List.mem_singleton] at hz; subst hz; subst e; exact hnL hx
      · rw [hLo y e]; exact hst.nodup y hy
    · intro y hy x
      rw [hupd]
      by_cases e : y = c
      · subst e
        rw [hLc, if_pos rfl, List.mem_append, hst.mem y hy, List.mem_singleton]
        constructor
        · rintro ((h | ⟨h1, h2⟩) | h)
          · exact Or.inl h
          · exact Or.inr ⟨by omega, h2⟩
          · subst h; exact Or.inr ⟨by omega, hemp⟩
        · rintro (h | ⟨h1, h2⟩)
          · exact Or.inl (Or.inl h)
          · by_cases e : x = i
            · exact Or.inr e
            · exact Or.inl (Or.inr ⟨by omega, h2⟩)
      · rw [hLo y e, if_neg e]; exact hst.mem y hy x
    · intro y hy
      rw [hupd]
      split
      · rename_i e; subst e; exact hi
      · exact hst.bound y hy
    · intro y hy x hx
      rw [hupd] at hx
      by_cases e : y = c
      · subst e
        rw [if_pos rfl] at hx
        by_cases e2 : x = i
        · subst e2; exact Or.inr hemp
        · exact hst.done y hy x (by omega)
      · rw [if_neg e] at hx; exact hst.done y hy x hx
    · intro a j ha
      rw [hfr _ _ (fun h => ha _ h.1) (fun h => ha _ h.1)]
      exact hst.frame a j ha
  · have q : ¬ ((((M c).ptr (i + 1) : Int) + base : Int) = ((M c).ptr i : Int) + base) := by omega
    rw [if_neg q, wp_pure]
    refine hQ2 hv fun h => h ((M c).ptr i) ⟨hi, Nat.le_refl _, by omega⟩

/-- The nodes of one side. -/
theorem bipNodes_ok (hM : BipPair M) (hS : BipSame M) (hT : 1 ≤ T) (hn : ∀ y, y < 2 → n y = (M y).m) (hbig : 2 ≤ T * max (n 0) (n 1))
    {m0 m : Mem (CTy R)} {iN : Nat → Nat} {L : Nat → List Nat} {V : Nat → Nat → Prop} (hst : BipSt M k base m0 iN L V m) {c : Nat} (hc : c < 2)
    (h0 : iN c = 0) {idx0 : Nat → Int} (hidx : ∀ y, y < 2 → idx0 y = (L y).length)
    (hfit : ∀ i iN' L' V' m', i < (M c).m → iN' (1 - c) = iN (1 - c) → BipSt M k base m0 iN' L' V' m' → ¬ V' c i → ¬ BipEmpty M c i →
      ∀ l : List Nat, l.Nodup → (∀ x ∈ l, ∃ j, (M c).InRow i j ∧ (M c).col j = x) → l.length < max (n 0) (n 1)) :
    ∀ i, i ≤ (M c).m → (bipNodes (bipSize sz n T) k base T n c idx0 i).Ok m (fun idx m' =>
      ∃ L' V', (∀ y, y < 2 → idx y = ((L' y).length : Int)) ∧ BipSt M k base m0 (Function.update iN c i) L' V' m') := by
  intro i
  induction i with
  | zero =>
    intro _
    refine Script.ok_done_of ⟨L, V, hidx, ?_⟩
    rw [← h0, Function.update_eq_self]; exact hst
  | succ i ih =>
    intro hi
    unfold bipNodes
    rw [Script.ok_bind]
    refine Script.Ok.mono (ih (by omega)) ?_
    rintro idx m1 ⟨L1, V1, hid1, hs1⟩
    have hup : Function.update (Function.update iN c i) c (i + 1) = Function.update iN c (i + 1) := Function.update_idem _ _ _
    refine seq_rule ?_
    refine bipHead_ok hM hn hs1 hc hi (Function.update_self _ _ _) hid1 (fun _ _ => trivial) (fun _ _ => trivial) ?_ ?_ ?_
    · intro hv
      refine Script.ok_done_of ⟨L1, V1, hid1, ?_⟩
      rw [← hup]
      have hupd : ∀ y, Function.update (Function.update iN c i) c (i + 1) y = if y = c then i + 1 else (Function.update iN c i) y :=
        fun y => Function.update_apply _ _ _ _
      have hcc : Function.update iN c i c = i := Function.update_self _ _ _
      refine ⟨hs1.pat, hs1.one, hs1.zero, hs1.hold, hs1.perm, hs1.nodup, ?_, hs1.lt, hs1.closed, hs1.edge, ?_, ?_, hs1.frame⟩
      · intro y hy x
        rw [hs1.mem y hy, hupd]
        by_cases e : y = c
        · subst e
          rw [if_pos rfl, hcc]
          constructor
          · rintro (h | ⟨h1, h2⟩)
            · exact Or.inl h
            · exact Or.inr ⟨by omega, h2⟩
          · rintro (h | ⟨h1, h2⟩)
            · exact Or.inl h
            · by_cases e : x = i
              · subst e; exact absurd h2 (hs1.edge y hy x hv)
              · exact Or.inr ⟨by omega, h2⟩
        · rw [if_neg e]
      · intro y hy
        rw [hupd]
        split
        · rename_i e; subst e; exact hi
        · exact hs1.bound y hy
      · intro y hy x hx
        rw [hupd] at hx
        by_cases e : y = c
        · subst e
          rw [if_pos rfl] at hx
          by_cases e2 : x = i
          · subst e2; exact Or.inl hv
          · exact hs1.done y hy x (by rw [hcc]; omega)
        · rw [if_neg e] at hx; exact hs1.done y hy x hx
    · intro hv he
      refine Script.Ok.mono (bipSearch_ok hM hS hT hn hbig hs1 hc hi (Function.update_self _ _ _) hv he
        (hfit i _ L1 V1 m1 hi (Function.update_of_ne (by omega) _ _) hs1 hv he) hid1) ?_
      rintro idx' m2 ⟨L2, V2, h1, h2⟩
      rw [hup] at h2
      exact ⟨L2, V2, h1, h2⟩
    · intro m2 hs2
      rw [hup] at hs2
      refine Script.ok_done_of ⟨_, V1, ?_, hs2⟩
      intro y hy
      by_cases e : y = c
      · subst e; rw [Function.update_self, Function.update_self, List.length_append, hid1 y hy]; simp
      · rw [Function.update_of_ne e, Function.update_of_ne e]; exact hid1 y hy

/-- Every node of a side has been looked at: its permutations. -/
theorem bipSt_perms {m0 m : Mem (CTy R)} {iN : Nat → Nat} {L : Nat → List Nat} {V : Nat → Nat → Prop} (hst : BipSt M k base m0 iN L V m) {y : Nat}
    (hy : y < 2) (hall : iN y = (M y).m) :
    (L y).length = (M y).m ∧ ∃ perm inv, InversePerms (M y).m perm inv ∧ (∀ x : Nat, x < (M y).m → m (bipPrm y) (x : Int) = some (perm x : Int)) ∧
      ∀ p : Nat, p < (M y).m → m (bipInv y) (p : Int) = some (inv p : Int) := by
  have hmem : ∀ x, x ∈ L y ↔ x < (M y).m := by
    intro x
    rw [hst.mem y hy]
    constructor
    · rintro (h | ⟨h, _⟩)
      · exact hst.lt y hy x h
      · omega
    · intro h
      rcases hst.done y hy x (by omega) with h1 | h1
      · exact Or.inl h1
      · exact Or.inr ⟨by omega, h1⟩
  have hlen : (L y).length = (M y).m := by
    have h1 := nodup_len_le (hst.nodup y hy) (fun x hx => (hmem x).1 hx)
    have h2 := (List.subperm_of_subset (List.nodup_range (n := (M y).m)) (fun x hx => (hmem x).2 (List.mem_range.1 hx))).length_le
    rw [List.length_range] at h2
    omega
  refine ⟨hlen, fun x => (L y).idxOf x, fun p => (L y)[p]?.getD 0, ⟨?_, ?_⟩, ?_, ?_⟩
  · intro x hx
    have h1 := List.idxOf_lt_length_iff.2 ((hmem x).2 hx)
    refine ⟨show (L y).idxOf x < _ by omega, ?_⟩
    show (L y)[(L y).idxOf x]?.getD 0 = x
    rw [List.getElem?_eq_getElem h1, List.getElem_idxOf]; rfl
  · intro p hp
    have hpl : p < (L y).length := by omega
    show (L y)[p]?.getD 0 < _ ∧ (L y).idxOf ((L y)[p]?.getD 0) = p
    rw [List.getElem?_eq_getElem hpl]
    exact ⟨(hmem _).1 (List.getElem_mem hpl), (hst.nodup y hy).idxOf_getElem p hpl⟩
  · intro x hx
    have h1 := List.idxOf_lt_length_iff.2 ((hmem x).2 hx)
    exact hst.perm y hy _ x (by rw [List.getElem?_eq_getElem h1, List.getElem_idxOf])
  · intro p hp
    have hpl : p < (L y).length := by omega
    have := hst.hold y hy p _ (List.getElem?_eq_getElem hpl)
    rw [Int.zero_add] at this
    show m (bipInv y) _ = some (((L y)[p]?.getD 0 : Nat) : Int)
    rw [List.getElem?_eq_getElem hpl]
    exact this

/-- bfsBipartite. -/
theorem bfsBipartite_ok (hM : BipPair M) (hS : BipSame M) (hT : 1 ≤ T) (hn : ∀ y, y < 2 → n y = (M y).m) (hbig : 2 ≤ T * max (n 0) (n 1))
    (hfit : ∀ i, i < (M 0).m → ∀ l : List Nat, l.Nodup → (∀ x ∈ l, ∃ j, (M 0).InRow i j ∧ (M 0).col j = x) → l.length < max (n 0) (n 1))
    {m0 : Mem (CTy R)} (hpat : ∀ y, y < 2 → HoldsPat m0 (k y) base (M y)) :
    (bfsBipartite sz k base T n).Ok m0 (fun _ m => (∀ y, y < 2 → ∃ perm inv, InversePerms (M y).m perm inv ∧
        (∀ x : Nat, x < (M y).m → m (bipPrm y) (x : Int) = some (perm x : Int)) ∧ ∀ p : Nat, p < (M y).m → m (bipInv y) (p : Int) = some (inv p : Int)) ∧
      ∀ a i, (∀ j, a ≠ .itmp j) → m a i = m0 a i) := by
  have clear : ∀ (y : Nat), y < 2 → ∀ (m : Mem (CTy R)) {f : (Nat → Unit) → Script (CTy R) Unit} {Q : Unit → Mem (CTy R) → Prop},
      (∀ r m', (∀ x : Nat, x < (M y).m → m' (bipBits y) (x : Int) = some (0 : Int)) → (∀ a i, a ≠ bipBits y → m' a i = m a i) → (f r).Ok m' Q) →
      (Script.phase (bipSize sz n T) (n y) (fun i => Prog.write (ty := CTy R) (bipBits y) (i : Int) (0 : Int)) f).Ok m Q := by
    intro y hy m f Q hQ
    have hsz : bipSize sz n T (bipBits y) = (n y : Int) := by
      rcases (by omega : y = 0 ∨ y = 1) with rfl | rfl <;> rfl
    refine par_rule (W := fun t a i => a = bipBits y ∧ i = (t : Int)) (R := fun t a i => a = bipBits y ∧ i = (t : Int))
      (Q := fun t _ m' => m' (bipBits y) (t : Int) = some (0 : Int)) ?_ ?_ ?_
    · rintro t u a i _ _ hne ⟨_, rfl⟩ ⟨_, e⟩; exact hne (by omega)
    · intro t ht
      exact wp_wr1 ⟨rfl, rfl⟩ ⟨by omega, by omega⟩ (Mem.get_same _ _ _ _)
    · intro r m' h1 h2
      refine hQ r m' ?_ ?_
      · intro x hx
        obtain ⟨mt, h3, h4⟩ := h1 x (by rw [hn y hy]; exact hx)
        rw [← h3]; exact h4 _ _ ⟨rfl, rfl⟩
      · intro a i ha; exact h2 a i (fun t _ h => ha h.1)
  unfold bfsBipartite
  dsimp only
  refine clear 0 (by omega) m0 fun _ m1 hz0 hf1 => ?_
  refine clear 1 (by omega) m1 fun _ m2 hz1 hf2 => ?_
  have hst : BipSt M k base m0 (fun _ => 0) (fun _ => []) (fun _ _ => False) m2 := by
    refine ⟨?_, fun y hy x hx h => h.elim, ?_, ?_, ?_, fun _ _ => List.nodup_nil, ?_, fun _ _ _ h => h.elim, fun _ _ _ _ h => h.elim, fun _ _ _ h => h.elim,
      fun y hy => Nat.zero_le _, fun y hy x hx => by omega, ?_⟩
    · intro y hy
      exact ⟨fun j hj => by rw [hf2 _ _ (by simp), hf1 _ _ (by simp)]; exact (hpat y hy).rowptr j hj,
        fun j hj => by rw [hf2 _ _ (by simp), hf1 _ _ (by simp)]; exact (hpat y hy).colidx j hj⟩
    · intro y hy x hx _
      rcases (by omega : y = 0 ∨ y = 1) with rfl | rfl
      · rw [hf2 _ _ (by simp)]; exact hz0 x hx
      · exact hz1 x hx
    · intro y hy p x hx; simp at hx
    · intro y hy p x hx; simp at hx
    · intro y hy x; simp
    · intro a i ha; rw [hf2 _ _ (ha _), hf1 _ _ (ha _)]
  have hc0 := hn 0 (by omega)
  have hc1 := hn 1 (by omega)
  rw [Script.ok_bind]
  refine Script.Ok.mono (bipNodes_ok hM hS hT hn hbig hst (by omega) rfl (fun _ _ => rfl) (fun i _ _ _ _ hi _ _ _ _ => hfit i hi) (n 0) (by omega)) ?_
  rintro idx m3 ⟨L3, V3, hid3, hs3⟩
  rw [Script.ok_bind]
  refine Script.Ok.mono (bipNodes_ok hM hS hT hn hbig hs3 (c := 1) (by omega) (Function.update_of_ne (by omega) _ _) hid3 ?_ (n 1) (by omega)) ?_
  · intro i iN' L' V' m' hi hiN hs' hv he
    exfalso
    have hiN : iN' 0 = n 0 := by rw [show (0 : Nat) = 1 - 1 from rfl, hiN]; exact Function.update_self _ _ _
    refine he fun j hj => hv ?_
    obtain ⟨i', h1, h2⟩ := hS 1 (by omega) _ _ hj
    have h3 := hs'.done 0 (by omega) ((M 1).col j) (by have h := h1.1; rw [hiN, hc0]; exact h)
    rcases h3 with h3 | h3
    · have := hs'.closed 0 (by omega) _ _ h3 h1
      rw [h2] at this
      exact this
    · exact (h3 i' h1).elim
  rintro idx m4 ⟨L4, V4, hid4, hs4⟩
  have hp0 := bipSt_perms hs4 (y := 0) (by omega) (by rw [Function.update_of_ne (by omega), Function.update_self, hc0])
  have hp1 := bipSt_perms hs4 (y := 1) (by omega) (by rw [Function.update_self, hc1])
  refine seq_rule ?_
  rw [wp_bind, wp_assert]
  refine ⟨by rw [hid4 0 (by omega), hp0.1, hc0], ?_⟩
  rw [wp_assert]
  refine ⟨by rw [hid4 1 (by omega), hp1.1, hc1], Script.ok_done_of ⟨?_, hs4.frame⟩⟩
  intro y hy
  rcases (by omega : y = 0 ∨ y = 1) with rfl | rfl
  · exact hp0.2
  · exact hp1.2

end SpMP
