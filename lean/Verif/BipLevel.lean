import Verif.BipExpand
import Verif.BipPure
import Verif.BfsLevel
/-
The bipartite search: copy of the queues, the loop over levels.
-/

namespace SpMP
open Spec

variable {R : Type} {sz : CArr → Int} {A : Csr R} {M : Nat → Csr R} {k : Nat → Nat} {base T mx sd : Nat}

def BpW (sd : Nat) (b : Int) (P : Nat → Int) (t : Nat) (a : CArr) (i : Int) : Prop := a = bipInv sd ∧ b + P t ≤ i ∧ i < b + P (t + 1)
def BpR (sd : Nat) (b : Int) (P : Nat → Int) (t : Nat) (a : CArr) (i : Int) : Prop := a ≠ bipInv sd ∨ BpW sd b P t a i

theorem bipCopyPart_ok (wf : A.WF) (hT : 1 ≤ T) {p : Nat} (hp : p < 2) {Qs : Nat → List Nat} {qt nz : Nat → Int} {m1 : Mem (CTy R)}
    (hlt : ∀ t, ∀ u ∈ Qs t, u < A.m) (hqt : ∀ t, qt t = ((Qs t).length : Int)) (hnz : ∀ t, nz t = wS A.ptr (bfsEp A) (Qs t))
    (hq : ∀ t, t < T → HoldsQ m1 (10 + p) ((t : Int) * mx) (Qs t)) (hr : ∀ t, t < T → Qs t ≠ [] → HoldsRP m1 A.ptr (bfsEp A) ((t : Int) * mx) (Qs t))
    {b : Int} (hb : 0 ≤ b) (hsz : b + ((List.range T).flatMap Qs).length ≤ sz (bipInv sd))
    {α : Type} {K : (Nat → (Int × Int) × (Int × Int)) → Script (CTy R) α} {Q : α → Mem (CTy R) → Prop}
    (hk : ∀ r m, (∀ t, t < T → PartRel T qt (psum nz) (fun t k => wS A.ptr (bfsEp A) ((Qs t).take k)) t (r t)) →
      HoldsQ m (32 + sd) b ((List.range T).flatMap Qs) →
      (∀ a i, ¬ (a = (bipInv sd) ∧ b ≤ i ∧ i < b + ((List.range T).flatMap Qs).length) → m a i = m1 a i) → (K r).Ok m Q) :
    (Script.phase sz T (fun tid => do
      bipCopy mx p sd b qt (psum qt) tid
      bfsPart T mx qt (psum nz) tid) K).Ok m1 Q := by
  have hq0 : ∀ t, 0 ≤ qt t := fun t => by rw [hqt]; omega
  have hP : ∀ {a b : Nat}, a ≤ b → psum qt a ≤ psum qt b := fun h => psum_mono hq0 h
  have hfq : qt = fun t => ((Qs t).length : Int) := funext hqt
  have htot : (((List.range T).flatMap Qs).length : Int) = psum qt T := by rw [flatMap_length_psum, hfq]
  have hc := bfs_cutOk (T := T) wf hlt hqt hnz
  refine par_rule (W := BpW sd b (psum qt)) (R := BpR sd b (psum qt))
    (Q := fun t r mt => PartRel T qt (psum nz) (fun t k => wS A.ptr (bfsEp A) ((Qs t).take k)) t r ∧
      ∀ x s : Nat, (Qs t)[x]? = some s → mt (bipInv sd) (b + psum qt t + x) = some (s : Int)) ?_ ?_ ?_
  · rintro t u a i _ _ hne ⟨rfl, h1, h2⟩ h3
    rcases h3 with h3 | ⟨_, h3, h4⟩
    · exact h3 rfl
    · rcases Nat.lt_or_gt_of_ne hne with h | h
      · have := hP (show t + 1 ≤ u from h); omega
      · have := hP (show u + 1 ≤ t from h); omega
  · intro t ht
    rw [wp_bind]
    have hS : psum qt (t + 1) = psum qt t + qt t := rfl
    have h0 := hP (Nat.zero_le t)
    have h00 : psum qt 0 = 0 := rfl
    have hl := hP (show t + 1 ≤ T from ht)
    unfold bipCopy
    refine wp_forN (b := 0) (lo := 0) (hi := (Qs t).length)
      (fun x _ m => (∀ a i, a ≠ (bipInv sd) → m a i = m1 a i) ∧
        ∀ y s : Nat, y < x → (Qs t)[y]? = some s → m (bipInv sd) (b + psum qt t + y) = some (s : Int)) (by omega) ?_ ?_ ?_ (by omega) (by rw [hqt]; omega)
    · exact ⟨fun _ _ _ => rfl, fun y s h => by omega⟩
    · rintro x _ m _ hx ⟨h1, h2⟩
      rw [Int.add_zero]
      have hv : m (bfsQ p) ((t : Int) * mx + x) = some (((Qs t)[x] : Nat) : Int) := by
        rw [h1 _ _ (by intro e; injection e with e; omega)]
        exact hq t ht x _ (List.getElem?_eq_getElem hx)
      refine wp_rd _ (Or.inl (by intro e; injection e with e; omega)) hv ?_
      have hqx := hqt t
      refine wp_wr1 ⟨rfl, by omega, by omega⟩ ⟨by omega, by omega⟩ ⟨?_, ?_⟩
      · intro a i ha; rw [Mem.set_other _ _ _ _ _ ha]; exact h1 a i ha
      · intro y s hy hs
        by_cases e : y = x
        · subst e
          rw [List.getElem?_eq_getElem hx] at hs
          injection hs with hs
          rw [Mem.get_same, hs]
        · rw [Mem.get_ne _ _ _ _ _ (by omega)]; exact h2 y s (by omega) hs
    · rintro _ m ⟨h1, h2⟩
      refine wp_bfsPart hc hT hq0 (fun i => Or.inl (by intro e; injection e with e; omega)) ?_ ?_
      · intro u k hu _ hk
        rw [h1 _ _ (by intro e; injection e with e; omega)]
        rw [hqt] at hk
        exact hr u hu (fun e => by rw [e] at hk; simp at hk; omega) k (by omega)
      · intro r hr
        exact ⟨hr, fun x s hs => h2 x s (List.getElem?_eq_some_iff.mp hs).1 hs⟩
  · intro r m h1 h2
    refine hk r m (fun t ht => (h1 t ht).elim fun _ h => h.1.1) ?_ ?_
    · intro p' s hs
      have hpl := (List.getElem?_eq_some_iff.mp hs).1
      have hex : ∀ n, n ≤ T → (p' : Int) < psum qt n → ∃ t, t < n ∧ psum qt t ≤ p' ∧ (p' : Int) < psum qt (t + 1) := by
        intro n
        induction n with
        | zero => intro _ h; have : psum qt 0 = 0 := rfl; omega
        | succ n ih =>
          intro hn h
          by_cases h1 : (p' : Int) < psum qt n
          · obtain ⟨t, a, b⟩ := ih (by omega) h1; exact ⟨t, by omega, b⟩
          · exact ⟨n, by omega, by omega, h⟩
      obtain ⟨t, ht, ha, hb'⟩ := hex T (Nat.le_refl _) (by omega)
      have hS : psum qt (t + 1) = psum qt t + qt t := rfl
      obtain ⟨x, hx⟩ := Int.eq_ofNat_of_zero_le (show 0 ≤ (p' : Int) - psum qt t by omega)
      have hxl : x < (Qs t).length := by have := hqt t; omega
      rw [flatMap_getElem_psum Qs (t := t) (x := x) ht hxl (by rw [← hfq]; omega)] at hs
      obtain ⟨mt, ⟨_, k2⟩, k3⟩ := h1 t ht
      have := k2 x s hs
      rw [show b + psum qt t + (x : Int) = b + (p' : Int) by omega] at this
      rw [← this]
      exact k3 _ _ (Or.inr ⟨rfl, by omega, by omega⟩)
    · intro a i hn
      refine h2 a i ?_
      rintro t ht ⟨rfl, h3, h4⟩
      have := hP (Nat.zero_le t)
      have h00 : psum qt 0 = 0 := rfl
      have := hP (show t + 1 ≤ T from ht)
      exact hn ⟨rfl, by omega, by omega⟩


/-- Arrays the search writes, apart from the inverse permutations. -/
def BipTmp (a : CArr) : Prop := a = bfsQ 0 ∨ a = bfsQ 1 ∨ a = bufA ∨ a = bipBits 0 ∨ a = bipBits 1

theorem bipTmp_bits {y : Nat} (hy : y < 2) : BipTmp (bipBits y) := by
  rcases (by omega : y = 0 ∨ y = 1) with rfl | rfl
  · exact Or.inr (Or.inr (Or.inr (Or.inl rfl)))
  · exact Or.inr (Or.inr (Or.inr (Or.inr rfl)))

theorem bipTmp_q {y : Nat} (hy : y < 2) : BipTmp (bfsQ y) := by
  rcases (by omega : y = 0 ∨ y = 1) with rfl | rfl
  · exact Or.inl rfl
  · exact Or.inr (Or.inl rfl)

/-- The two matrices: consistent, of transposed shapes. -/
structure BipPair (M : Nat → Csr R) : Prop where
  wf : ∀ y, y < 2 → (M y).WF
  shape : ∀ y, y < 2 → (M y).n = (M (1 - y)).m

/-- Positions of the visited nodes of both sides. -/
def InVis (off : Nat → Int) (vis : Nat → List Nat) (a : CArr) (i : Int) : Prop :=
  ∃ y, y < 2 ∧ a = bipInv y ∧ off y ≤ i ∧ i < off y + (vis y).length

/-- The head of the loop over levels. `Z y` are the nodes of side `y` marked before the search, `vis y` those of the finished levels. -/
structure BipHead (M : Nat → Csr R) (k : Nat → Nat) (base T mx c : Nat) (off : Nat → Int) (s : Nat) (Z : Nat → Nat → Prop)
    (m0 : Mem (CTy R)) (lev : Nat) (qt nz : Nat → Int) (Qs : Nat → List Nat) (vis : Nat → List Nat) (m : Mem (CTy R)) : Prop where
  pat : ∀ y, y < 2 → HoldsPat m (k y) base (M y)
  qt_eq : ∀ t, qt t = ((Qs t).length : Int)
  nz_eq : ∀ t, nz t = wS (M (bipSide c lev)).ptr (bfsEp (M (bipSide c lev))) (Qs t)
  team : ∀ t, T ≤ t → Qs t = []
  queue : ∀ t, t < T → HoldsQ m (10 + lev % 2) ((t : Int) * mx) (Qs t)
  sums : ∀ t, t < T → Qs t ≠ [] → HoldsRP m (M (bipSide c lev)).ptr (bfsEp (M (bipSide c lev))) ((t : Int) * mx) (Qs t)
  nodup : ((List.range T).flatMap Qs).Nodup
  mem : ∀ x, x ∈ (List.range T).flatMap Qs ↔ IsSD M c s x lev
  one : ∀ y, y < 2 → ∀ x, x < (M y).m → (Z y x ∨ SNear M c s lev y x) → m (bipBits y) (x : Int) = some (1 : Int)
  zero : ∀ y, y < 2 → ∀ x, x < (M y).m → ¬ (Z y x ∨ SNear M c s lev y x) → m (bipBits y) (x : Int) = some (0 : Int)
  vis_hold : ∀ y, y < 2 → HoldsQ m (32 + y) (off y) (vis y)
  vis_nodup : ∀ y, y < 2 → (vis y).Nodup
  vis_mem : ∀ y, y < 2 → ∀ x, x ∈ vis y ↔ ∃ d, d < lev ∧ (c + d) % 2 = y ∧ IsSD M c s x d
  vis_len : lev ≤ (vis 0).length + (vis 1).length
  frame : ∀ a i, ¬ BipTmp a → ¬ InVis off vis a i → m a i = m0 a i

/-- What the search leaves. -/
structure BipDone (M : Nat → Csr R) (c : Nat) (off : Nat → Int) (s : Nat) (Z : Nat → Nat → Prop) (m0 : Mem (CTy R)) (vis : Nat → List Nat)
    (m : Mem (CTy R)) : Prop where
  one : ∀ y, y < 2 → ∀ x, x < (M y).m → (Z y x ∨ SReach M c s y x) → m (bipBits y) (x : Int) = some (1 : Int)
  zero : ∀ y, y < 2 → ∀ x, x < (M y).m → ¬ (Z y x ∨ SReach M c s y x) → m (bipBits y) (x : Int) = some (0 : Int)
  vis_hold : ∀ y, y < 2 → HoldsQ m (32 + y) (off y) (vis y)
  vis_nodup : ∀ y, y < 2 → (vis y).Nodup
  vis_mem : ∀ y, y < 2 → ∀ x, x ∈ vis y ↔ SReach M c s y x
  frame : ∀ a i, ¬ BipTmp a → ¬ InVis off vis a i → m a i = m0 a i

theorem sreach_lt (hM : BipPair M) {c s : Nat} (hc : c < 2) (hs : s < (M c).m) {y x : Nat} (h : SReach M c s y x) : x < (M y).m := by
  obtain ⟨d, rfl, h⟩ := h
  exact h.lt hM.wf hM.shape hc hs

theorem nodup_len_le {n : Nat} {l : List Nat} (hn : l.Nodup) (h : ∀ x ∈ l, x < n) : l.length ≤ n := by
  have := (List.subperm_of_subset hn (fun x hx => List.mem_range.2 (h x hx))).length_le
  rwa [List.length_range] at this

theorem bipLoop_ok (hM : BipPair M) (hT : 1 ≤ T) {off : Nat → Int} (hoff : ∀ y, y < 2 → 0 ≤ off y) {c s : Nat} (hc : c < 2) (hs : s < (M c).m)
    {Z : Nat → Nat → Prop} (hZ : ∀ y x, SReach M c s y x → ¬ Z y x) {m0 : Mem (CTy R)} (hmx : ∀ y, y < 2 → (M y).m ≤ mx)
    (hfit : ∀ l : List Nat, l.Nodup → (∀ x ∈ l, ∃ j, (M c).InRow s j ∧ (M c).col j = x) → l.length < mx)
    (hq : ∀ p, p < 2 → (T : Int) * mx ≤ sz (bfsQ p)) (hrp : (T : Int) * mx ≤ sz bufA)
    (hbits : ∀ y, y < 2 → ((M y).m : Int) ≤ sz (bipBits y))
    (hinv : ∀ y, y < 2 → ∀ l : List Nat, l.Nodup → (∀ x ∈ l, SReach M c s y x) → off y + l.length ≤ sz (bipInv y)) :
    ∀ (fuel lev : Nat) (qt nz nv : Nat → Int) (Qs : Nat → List Nat) (vis : Nat → List Nat) (m : Mem (CTy R)), (M 0).m + (M 1).m + 2 ≤ fuel + lev →
      (∀ y, y < 2 → nv y = (vis y).length) → BipHead M k base T mx c off s Z m0 lev qt nz Qs vis m →
      (bipLoop sz k base T mx c off fuel lev qt nz nv).Ok m
        (fun r m' => ∃ vis', (∀ y, y < 2 → r y = ((vis' y).length : Int)) ∧ BipDone M c off s Z m0 vis' m') := by
  intro fuel
  induction fuel with
  | zero =>
    intro lev qt nz nv Qs vis m hf _ hh
    have h1 := hh.vis_len
    have h2 : ∀ y, y < 2 → (vis y).length ≤ (M y).m := fun y hy => nodup_len_le (hh.vis_nodup y hy) (fun x hx => by
      obtain ⟨d, _, h4, h⟩ := (hh.vis_mem y hy x).1 hx; exact sreach_lt hM hc hs ⟨d, h4, h.1⟩)
    have := h2 0 (by omega)
    have := h2 1 (by omega)
    omega
  | succ fuel ih =>
    intro lev qt nz nv Qs vis m hf hnv hh
    have hfq : qt = fun t => ((Qs t).length : Int) := funext hh.qt_eq
    have htot : (((List.range T).flatMap Qs).length : Int) = psum qt T := by rw [flatMap_length_psum, hfq]
    have hsl : bipSide c lev < 2 := Nat.mod_lt _ (by omega)
    have hsl' : bipSide c (lev + 1) < 2 := Nat.mod_lt _ (by omega)
    have hss : bipSide c (lev + 1) = 1 - bipSide c lev := by unfold bipSide; omega
    have hlt : ∀ t, ∀ u ∈ Qs t, u < (M (bipSide c lev)).m := by
      intro t u hu
      by_cases ht : t < T
      · have := (hh.mem u).1 (by rw [List.mem_flatMap]; exact ⟨t, List.mem_range.2 ht, hu⟩)
        exact this.1.lt hM.wf hM.shape hc hs
      · rw [hh.team t (by omega)] at hu; simp at hu
    unfold bipLoop
    dsimp only
    by_cases hemp : psum qt T = 0
    · rw [if_pos hemp]
      refine Script.ok_done_of ?_
      have hnil : (List.range T).flatMap Qs = [] := List.eq_nil_of_length_eq_zero (by omega)
      have hem : ∀ x, ¬ IsSD M c s x lev := fun x hx => by have := (hh.mem x).2 hx; rw [hnil] at this; simp at this
      refine ⟨vis, hnv, ⟨fun y hy x hx h => hh.one y hy x hx (by rwa [snear_of_empty hem]),
        fun y hy x hx h => hh.zero y hy x hx (by rwa [snear_of_empty hem]), hh.vis_hold, hh.vis_nodup, ?_, hh.frame⟩⟩
      intro y hy x
      rw [hh.vis_mem y hy]
      constructor
      · rintro ⟨d, _, h1, h⟩; exact ⟨d, h1, h.1⟩
      · intro h
        obtain ⟨d, _, h2, h3⟩ := (snear_of_empty hem).2 h
        exact ⟨d, sd_lt_of_empty hem d x h3, h2, h3⟩
    rw [if_neg hemp]
    have hpar : 1 - (lev + 1) % 2 = lev % 2 := by omega
    rw [hpar]
    have hsums := hh.sums
    have hnze := hh.nz_eq
    generalize hS : bipSide c lev = S at *
    generalize hS' : bipSide c (lev + 1) = S' at *
    have hS0 : (c + lev) % 2 = S := hS
    have hS0' : (c + (lev + 1)) % 2 = S' := hS'
    have hdis : ∀ x ∈ vis S, x ∉ (List.range T).flatMap Qs := by
      intro x hx hx'
      obtain ⟨d, hd, h1, h⟩ := (hh.vis_mem S hsl x).1 hx
      have := h.unique ((hh.mem x).1 hx') (by omega); omega
    have hnd : (vis S ++ (List.range T).flatMap Qs).Nodup := by
      rw [List.nodup_append]
      refine ⟨hh.vis_nodup S hsl, hh.nodup, fun x hx y hy e => ?_⟩
      subst e; exact hdis x hx hy
    have hrc : ∀ x ∈ vis S ++ (List.range T).flatMap Qs, SReach M c s S x := by
      intro x hx
      rcases List.mem_append.1 hx with hx | hx
      · obtain ⟨d, _, h1, h⟩ := (hh.vis_mem S hsl x).1 hx; exact ⟨d, h1, h.1⟩
      · exact ⟨lev, hS0, ((hh.mem x).1 hx).1⟩
    have hcap := hinv S hsl _ hnd hrc
    rw [List.length_append] at hcap
    have hnvS := hnv S hsl
    have hoS := hoff S hsl
    refine bipCopyPart_ok (hM.wf S hsl) hT (by omega) hlt hh.qt_eq hnze hh.queue hsums (by omega) (by omega) ?_
    intro r m1 hpr hv1 hf1
    obtain ⟨hreg, hcov⟩ := part_tile (Qs := Qs) (bfs_cutOk (hM.wf S hsl) hlt hh.qt_eq hnze) hT hh.qt_eq hpr
    have hf1' : ∀ a i, a ≠ bipInv S → m1 a i = m a i := fun a i h => hf1 a i (fun h' => h h'.1)
    have hBx : ∀ y, y < 2 → ∀ x, x < (M y).m → ((Z y x ∨ SNear M c s lev y x) → m1 (bipBits y) (x : Int) = some (1 : Int)) ∧
        (¬ (Z y x ∨ SNear M c s lev y x) → m1 (bipBits y) (x : Int) = some (0 : Int)) := by
      intro y hy x hx
      rw [hf1' _ _ (by intro e; injection e with e; omega)]
      exact ⟨hh.one y hy x hx, hh.zero y hy x hx⟩
    have hpat1 : ∀ y, y < 2 → HoldsPat m1 (k y) base (M y) := fun y hy =>
      ⟨fun i hi => by rw [hf1' _ _ (by simp)]; exact (hh.pat y hy).rowptr i hi, fun i hi => by rw [hf1' _ _ (by simp)]; exact (hh.pat y hy).colidx i hi⟩
    refine bipExpand_ok (B := fun x => Z S' x ∨ SNear M c s lev S' x) (Qs := Qs) (hM.wf S hsl) (by rw [hM.shape S hsl, hss]) (hpat1 S hsl) (hpat1 S' hsl')
      (by omega) (hq _ (by omega)) hrp (hbits S' hsl') (by omega) (by omega)
      (fun t ht => (hh.queue t ht).congr (fun i _ _ => hf1' _ _ (by intro e; injection e with e; omega))) ?_ (fun t _ => hlt t)
      (fun x hx h => (hBx S' hsl' x hx).1 h) (fun x hx h => (hBx S' hsl' x hx).2 h) hreg hcov ?_
    · -- room
      intro l hl hx
      by_cases h0 : lev = 0
      · subst h0
        refine hfit l hl fun x hxl => ?_
        obtain ⟨_, _, u, j, h1, h2, h3⟩ := hx x hxl
        have := isSD_zero_iff.1 ((hh.mem u).1 h1)
        subst this
        have hSc : S = c := by omega
        rw [hSc] at h2 h3
        exact ⟨j, h2, h3⟩
      · -- some node of side S' is near
        have hex : ∃ z, z < (M S').m ∧ SNear M c s lev S' z := by
          obtain ⟨u, hu⟩ : ∃ u, u ∈ (List.range T).flatMap Qs := by
            rcases hQ : (List.range T).flatMap Qs with _ | ⟨u, l⟩
            · rw [hQ] at htot; simp at htot; omega
            · exact ⟨u, by simp⟩
          have hd := (hh.mem u).1 hu
          obtain ⟨l', rfl⟩ : ∃ l', lev = l' + 1 := ⟨lev - 1, by omega⟩
          obtain ⟨_, z, _, hz, _⟩ := isSD_succ_iff.1 hd
          have hside : (c + l') % 2 = S' := by omega
          exact ⟨z, by rw [← hside]; exact hz.1.lt hM.wf hM.shape hc hs, l', by omega, hside, hz⟩
        obtain ⟨z, hz1, hz2⟩ := hex
        have h1 : (z :: l).Nodup := List.nodup_cons.2 ⟨fun hm => (hx z hm).2.1 (Or.inr hz2), hl⟩
        have h2 := nodup_len_le h1 (n := (M S').m) (fun x hxl => by
          rcases List.mem_cons.1 hxl with rfl | hxl
          · exact hz1
          · exact (hx x hxl).1)
        have := hmx S' hsl'
        rw [List.length_cons] at h2
        omega
    intro q g m2 hqv hqg hgn hgl hgm hg1 hg0 hf2
    have hgd : ∀ x, x ∈ (List.range T).flatMap g ↔ IsSD M c s x (lev + 1) := by
      intro x
      rw [hgm, isSD_succ_iff, hS0', hS0]
      constructor
      · rintro ⟨h1, u, j, h2, h3, h4⟩
        exact ⟨fun h => h1 (Or.inr h), u, j, (hh.mem u).1 h2, h3, h4⟩
      · rintro ⟨h1, u, j, h2, h3, h4⟩
        refine ⟨?_, u, j, (hh.mem u).2 h2, h3, h4⟩
        rintro (h | h)
        · refine hZ S' x ⟨lev + 1, hS0', ?_⟩ h
          have := SideWalk.snoc h2.1 (j := j) (by rw [hS0]; exact h3)
          rwa [hS0, h4] at this
        · exact h1 h
    have hgnear : ∀ x, (Z S' x ∨ SNear M c s (lev + 1) S' x) ↔ ((Z S' x ∨ SNear M c s lev S' x) ∨ x ∈ (List.range T).flatMap g) := by
      intro x; rw [snear_succ, hgd, or_assoc]
      simp only [hS0', true_and]
    have hSnear : ∀ x, SNear M c s (lev + 1) S x ↔ SNear M c s lev S x := by
      intro x; rw [snear_succ]
      constructor
      · rintro (h | ⟨h, _⟩)
        · exact h
        · omega
      · exact Or.inl
    let g' : Nat → List Nat := fun t => if t < T then g t else []
    have hg' : ∀ t, t < T → g' t = g t := fun t ht => if_pos ht
    have hflat : (List.range T).flatMap g' = (List.range T).flatMap g :=
      List.flatMap_congr fun t ht => hg' t (List.mem_range.1 ht)
    have hinvA : ∀ y i, y < 2 → m2 (bipInv y) i = m1 (bipInv y) i := fun y i _ =>
      hf2 _ _ (by intro e; injection e with e; omega) (by intro e; injection e with e; omega) (by intro e; injection e with e; omega)
    let vis' : Nat → List Nat := Function.update vis S (vis S ++ (List.range T).flatMap Qs)
    have hvS : vis' S = vis S ++ (List.range T).flatMap Qs := Function.update_self _ _ _
    have hvO : ∀ y, y ≠ S → vis' y = vis y := fun y hy => Function.update_of_ne hy _ _
    have hlen : (vis' S).length = (vis S).length + ((List.range T).flatMap Qs).length := by rw [hvS, List.length_append]
    refine ih (lev + 1) _ _ _ g' vis' m2 (by omega) ?_ ?_
    · intro y hy
      by_cases e : y = S
      · subst e; rw [Function.update_self, hlen]; push_cast; omega
      · rw [Function.update_of_ne e, hvO y e]; exact hnv y hy
    · have hpat2 : ∀ y, y < 2 → HoldsPat m2 (k y) base (M y) := fun y hy =>
        ⟨fun i hi => by rw [hf2 _ _ (by simp) (by simp) (by simp)]; exact (hpat1 y hy).rowptr i hi,
          fun i hi => by rw [hf2 _ _ (by simp) (by simp) (by simp)]; exact (hpat1 y hy).colidx i hi⟩
      refine ⟨hpat2, ?_, ?_, ?_, ?_, ?_, ?_, ?_, ?_, ?_, ?_, ?_, ?_, ?_, ?_⟩
      · intro t
        show (if t < T then _ else _) = ((if t < T then g t else [] : List Nat).length : Int)
        by_cases ht : t < T
        · rw [if_pos ht, if_pos ht]; exact (hqv t ht).1
        · rw [if_neg ht, if_neg ht]; rfl
      · intro t
        rw [hS']
        show (if t < T then _ else _) = wS (M S').ptr (bfsEp (M S')) (if t < T then g t else [])
        by_cases ht : t < T
        · rw [if_pos ht, if_pos ht]; exact (hqv t ht).2
        · rw [if_neg ht, if_neg ht]; rfl
      · intro t ht; exact if_neg (by omega)
      · intro t ht; rw [hg' t ht]; exact (hqg t ht).1
      · intro t ht _; rw [hS', hg' t ht]; exact (hqg t ht).2
      · rw [hflat]; exact hgn
      · intro x; rw [hflat]; exact hgd x
      · intro y hy x hx h
        by_cases e : y = S'
        · subst e; exact hg1 x hx ((hgnear x).1 h)
        · obtain rfl : y = S := by omega
          rw [hf2 _ _ (by intro e; injection e with e; omega) (by intro e; injection e with e; omega) (by intro e; injection e with e; omega)]
          exact (hBx y hy x hx).1 (by rwa [hSnear] at h)
      · intro y hy x hx h
        by_cases e : y = S'
        · subst e; exact hg0 x hx (fun h' => h ((hgnear x).2 h'))
        · obtain rfl : y = S := by omega
          rw [hf2 _ _ (by intro e; injection e with e; omega) (by intro e; injection e with e; omega) (by intro e; injection e with e; omega)]
          exact (hBx y hy x hx).2 (by rwa [hSnear] at h)
      · intro y hy x z hx
        show m2 (bipInv y) _ = _
        rw [hinvA y _ hy]
        by_cases e : y = S
        · subst e
          rw [hvS] at hx
          have hx' := (List.getElem?_eq_some_iff.mp hx).1
          rw [List.length_append] at hx'
          by_cases hxl : x < (vis y).length
          · rw [List.getElem?_append_left hxl] at hx
            rw [hf1 _ _ (by rintro ⟨_, h, _⟩; omega)]
            exact hh.vis_hold y hy x z hx
          · rw [List.getElem?_append_right (by omega)] at hx
            have := hv1 _ z hx
            rwa [show off y + nv y + ((x - (vis y).length : Nat) : Int) = off y + (x : Int) by omega] at this
        · rw [hvO y e] at hx
          rw [hf1' _ _ (by intro e'; injection e' with e'; omega)]
          exact hh.vis_hold y hy x z hx
      · intro y hy
        by_cases e : y = S
        · subst e; rw [hvS]; exact hnd
        · rw [hvO y e]; exact hh.vis_nodup y hy
      · intro y hy x
        by_cases e : y = S
        · subst e
          rw [hvS, List.mem_append, hh.vis_mem y hy, hh.mem]
          constructor
          · rintro (⟨d, h1, h2⟩ | h)
            · exact ⟨d, by omega, h2⟩
            · exact ⟨lev, by omega, hS0, h⟩
          · rintro ⟨d, h1, h2, h3⟩
            by_cases e : d = lev
            · subst e; exact Or.inr h3
            · exact Or.inl ⟨d, by omega, h2, h3⟩
        · rw [hvO y e, hh.vis_mem y hy]
          constructor
          · rintro ⟨d, h1, h2⟩; exact ⟨d, by omega, h2⟩
          · rintro ⟨d, h1, h2, h3⟩
            exact ⟨d, by have : d ≠ lev := fun e' => e (by subst e'; omega); omega, h2, h3⟩
      · have := hh.vis_len
        have h1 : ∀ y, y < 2 → y ≠ S → (vis' y).length = (vis y).length := fun y _ e => by rw [hvO y e]
        rcases (by omega : S = 0 ∨ S = 1) with e | e
        · have h2 := h1 1 (by omega) (by omega)
          rw [e] at hlen; omega
        · have h2 := h1 0 (by omega) (by omega)
          rw [e] at hlen; omega
      · intro a i h1 h2
        have h3 : ¬ InVis off vis a i := by
          rintro ⟨y, hy, rfl, h3, h4⟩
          refine h2 ⟨y, hy, rfl, h3, ?_⟩
          by_cases e : y = S
          · subst e; rw [hlen]; push_cast; omega
          · rw [hvO y e]; exact h4
        rw [hf2 _ _ ?_ ?_ ?_]
        · rw [hf1 _ _ (by rintro ⟨rfl, h4, h5⟩; exact h2 ⟨S, hsl, rfl, by omega, by rw [hlen]; push_cast; omega⟩)]
          exact hh.frame a i h1 h3
        · rintro rfl; exact h1 (bipTmp_q (by omega))
        · rintro rfl; exact h1 (Or.inr (Or.inr (Or.inl rfl)))
        · rintro rfl; exact h1 (bipTmp_bits hsl')

/-- The search. -/
theorem bipBfs_ok (hM : BipPair M) (hT : 1 ≤ T) {n : Nat → Nat} (hn : ∀ y, y < 2 → n y = (M y).m) (hbig : 2 ≤ T * max (n 0) (n 1)) {off : Nat → Int}
    (hoff : ∀ y, y < 2 → 0 ≤ off y) {c s : Nat} (hc : c < 2) (hs : s < (M c).m) {Z : Nat → Nat → Prop} (hZ : ∀ y x, SReach M c s y x → ¬ Z y x)
    {m0 : Mem (CTy R)} (hpat : ∀ y, y < 2 → HoldsPat m0 (k y) base (M y))
    (hone : ∀ y, y < 2 → ∀ x, x < (M y).m → Z y x → m0 (bipBits y) (x : Int) = some (1 : Int))
    (hzero : ∀ y, y < 2 → ∀ x, x < (M y).m → ¬ Z y x → m0 (bipBits y) (x : Int) = some (0 : Int))
    (hfit : ∀ l : List Nat, l.Nodup → (∀ x ∈ l, ∃ j, (M c).InRow s j ∧ (M c).col j = x) → l.length < max (n 0) (n 1))
    (hq : ∀ p, p < 2 → (T : Int) * (max (n 0) (n 1) : Nat) ≤ sz (bfsQ p)) (hrp : (T : Int) * (max (n 0) (n 1) : Nat) ≤ sz bufA)
    (hbits : ∀ y, y < 2 → ((M y).m : Int) ≤ sz (bipBits y))
    (hinv : ∀ y, y < 2 → ∀ l : List Nat, l.Nodup → (∀ x ∈ l, SReach M c s y x) → off y + l.length ≤ sz (bipInv y)) :
    (bipBfs sz k base T n c off (s : Int)).Ok m0
      (fun r m' => ∃ vis, (∀ y, y < 2 → r y = ((vis y).length : Int)) ∧ BipDone M c off s Z m0 vis m') := by
  have hmx : ∀ y, y < 2 → (M y).m ≤ max (n 0) (n 1) := by
    intro y hy
    rw [← hn y hy]
    rcases (by omega : y = 0 ∨ y = 1) with rfl | rfl
    · exact Nat.le_max_left _ _
    · exact Nat.le_max_right _ _
  have hn0 := hn 0 (by omega)
  have hn1 := hn 1 (by omega)
  unfold bipBfs
  generalize max (n 0) (n 1) = mx at *
  have hbig' : (2 : Int) ≤ (T : Int) * mx := by exact_mod_cast hbig
  have hq0 := hq 0 (by omega)
  have hbc := hbits c hc
  refine seq_rule ?_
  unfold bipStart
  have hb0 : m0 (bipBits c) (s : Int) = some (0 : Int) := hzero c hc s hs (hZ c s ⟨0, by omega, .nil⟩)
  refine wp_rd _ trivial hb0 ?_
  refine wp_wr trivial ⟨by omega, by omega⟩ ?_
  refine wp_wr trivial ⟨by omega, by omega⟩ ?_
  refine wp_wr trivial ⟨by omega, by omega⟩ ?_
  generalize hm1 : ((m0.set (bipBits c) (s : Int) (1 : Int)).set (bfsQ 0) 0 (s : Int)).set bufA 0 (0 : Int) = m1
  have hfr : ∀ a i, ¬ BipTmp a → m1 a i = m0 a i := by
    intro a i h
    rw [← hm1, Mem.set_other _ _ _ _ _ (fun e => h (Or.inr (Or.inr (Or.inl e)))), Mem.set_other _ _ _ _ _ (fun e => h (Or.inl e)),
      Mem.set_other _ _ _ _ _ (fun e => h (by rw [e]; exact bipTmp_bits hc))]
  have hnr : ∀ j, ¬ BipTmp (.rowptr j) := by intro j; simp [BipTmp]
  have hnc : ∀ j, ¬ BipTmp (.colidx j) := by intro j; simp [BipTmp]
  refine wp_rd (((M c).ptr (s + 1) : Int) + base) trivial (by rw [hfr _ _ (hnr _)]; exact_mod_cast (hpat c hc).rowptr (s + 1) (by omega)) ?_
  refine wp_rd (((M c).ptr s : Int) + base) trivial (by rw [hfr _ _ (hnr _)]; exact (hpat c hc).rowptr s (by omega)) ?_
  have hv : (((M c).ptr (s + 1) : Int) + base - (((M c).ptr s : Int) + base) : Int) = wS (M c).ptr (bfsEp (M c)) [s] := by
    have : wS (M c).ptr (bfsEp (M c)) [s] = rowWork (M c).ptr (bfsEp (M c)) s := by simp [wS]
    rw [this, bfs_work]; omega
  rw [hv]
  refine wp_wr trivial ⟨by omega, by omega⟩ ?_
  rw [wp_pure]
  generalize hm2 : m1.set bufA 1 (wS (M c).ptr (bfsEp (M c)) [s]) = m2
  have hfr2 : ∀ a i, ¬ BipTmp a → m2 a i = m0 a i := by
    intro a i h
    rw [← hm2, Mem.set_other _ _ _ _ _ (fun e => h (Or.inr (Or.inr (Or.inl e))))]; exact hfr a i h
  let Qs : Nat → List Nat := fun t => if t = 0 then [s] else []
  have hflat : (List.range T).flatMap Qs = [s] := by
    obtain ⟨T', rfl⟩ : ∃ T', T = T' + 1 := ⟨T - 1, by omega⟩
    rw [List.range_succ_eq_map, List.flatMap_cons, List.flatMap_map]
    show [s] ++ _ = _
    rw [List.flatMap_eq_nil_iff.2 (fun t _ => if_neg (by omega))]; rfl
  have hbs : ∀ y x : Nat, y < 2 → m2 (bipBits y) (x : Int) = if y = c ∧ x = s then some (1 : Int) else m0 (bipBits y) (x : Int) := by
    intro y x hy
    rw [← hm2, Mem.set_other _ _ _ _ _ (by intro e; injection e with e; omega), ← hm1,
      Mem.set_other _ _ _ _ _ (by intro e; injection e with e; omega), Mem.set_other _ _ _ _ _ (by intro e; injection e with e; omega)]
    by_cases e : y = c ∧ x = s
    · obtain ⟨rfl, rfl⟩ := e; rw [if_pos ⟨rfl, rfl⟩, Mem.get_same]
    · rw [if_neg e]
      by_cases e1 : y = c
      · subst e1; rw [Mem.get_ne _ _ _ _ _ (by intro e2; exact e ⟨rfl, by omega⟩)]
      · rw [Mem.set_other _ _ _ _ _ (by intro e; injection e with e; omega)]
  have hsc : bipSide c 0 = c := by unfold bipSide; omega
  refine bipLoop_ok hM hT hoff hc hs hZ hmx hfit hq hrp hbits hinv (n 0 + n 1 + 2) 0 _ _ _ Qs (fun _ => []) m2 (by omega) (fun _ _ => rfl) ?_
  refine ⟨fun y hy => ⟨fun i hi => ?_, fun i hi => ?_⟩, ?_, ?_, ?_, ?_, ?_, ?_, ?_, ?_, ?_, ?_, ?_, ?_, ?_, ?_⟩
  · rw [hfr2 _ _ (hnr _)]; exact (hpat y hy).rowptr i hi
  · rw [hfr2 _ _ (hnc _)]; exact (hpat y hy).colidx i hi
  · intro t
    show (if t < T then (if t = 0 then (1 : Int) else 0) else 0) = ((if t = 0 then [s] else [] : List Nat).length : Int)
    by_cases e : t = 0
    · subst e; rw [if_pos (by omega)]; rfl
    · rw [if_neg e, if_neg e]; split <;> rfl
  · intro t
    rw [hsc]
    show (if t < T then (if t = 0 then _ else (0 : Int)) else 0) = wS (M c).ptr (bfsEp (M c)) (if t = 0 then [s] else [])
    by_cases e : t = 0
    · subst e; rw [if_pos (by omega), if_pos rfl, if_pos rfl]
    · rw [if_neg e, if_neg e]; split <;> rfl
  · intro t ht; exact if_neg (by omega)
  · intro t ht
    show HoldsQ m2 10 _ (if t = 0 then [s] else [])
    by_cases e : t = 0
    · subst e
      rw [if_pos rfl]
      intro x y hx
      obtain rfl : x = 0 := by have := (List.getElem?_eq_some_iff.mp hx).1; simpa using this
      have hx : s = y := by simpa using hx
      subst hx
      rw [show ((0 : Nat) : Int) * mx + ((0 : Nat) : Int) = 0 by simp, ← hm2, Mem.set_other _ _ _ _ _ (by simp), ← hm1,
        Mem.set_other _ _ _ _ _ (by simp)]
      exact Mem.get_same _ _ _ _
    · rw [if_neg e]; intro x y hx; simp at hx
  · intro t ht hne
    rw [hsc]
    show HoldsRP m2 _ _ _ (if t = 0 then [s] else [])
    by_cases e : t = 0
    · subst e
      rw [if_pos rfl]
      intro x hx
      rcases (by simp at hx; omega : x = 0 ∨ x = 1) with rfl | rfl
      · rw [show ((0 : Nat) : Int) * mx + ((0 : Nat) : Int) = 0 by simp, ← hm2, Mem.get_ne _ _ _ _ _ (by decide), ← hm1]
        exact Mem.get_same _ _ _ _
      · rw [show ((0 : Nat) : Int) * mx + ((1 : Nat) : Int) = 1 by simp, ← hm2]
        exact Mem.get_same _ _ _ _
    · exact absurd (if_neg e) hne
  · rw [hflat]; exact List.nodup_singleton _
  · intro x; rw [hflat, List.mem_singleton, isSD_zero_iff]
  · intro y hy x hx h
    rw [hbs y x hy]
    by_cases e : y = c ∧ x = s
    · rw [if_pos e]
    · rw [if_neg e]
      rcases h with h | h
      · exact hone y hy x hx h
      · exact absurd ((snear_zero hc).1 h) e
  · intro y hy x hx h
    have e : ¬ (y = c ∧ x = s) := fun e => h (Or.inr ((snear_zero hc).2 e))
    rw [hbs y x hy, if_neg e]
    exact hzero y hy x hx (fun h' => h (Or.inl h'))
  · intro y hy x z hx; simp at hx
  · intro y hy; exact List.nodup_nil
  · intro y hy x
    constructor
    · intro h; simp at h
    · rintro ⟨d, h, _⟩; omega
  · exact Nat.zero_le _
  · intro a i h _; exact hfr2 a i h

end SpMP
