import Verif.BfsBlocks
import Verif.Spec.Rcm
/-
The order in which Cuthill–McKee places the nodes of a component.
-/

namespace SpMP
open Spec

variable {R : Type} {A : Csr R} {s : Nat}

/-- In the list `out`, the node at `p` is the first with an entry in the column of the node at `q`. -/
def FirstAt (A : Csr R) (out : List Nat) (q p : Nat) : Prop :=
  ∃ u x, out[p]? = some u ∧ out[q]? = some x ∧ Stores A u x ∧ ∀ p' u', p' < p → out[p']? = some u' → ¬ Stores A u' x

/-- `F` gives the first neighbours, all before position `r`; the nodes come in the order of these and of their degrees. -/
structure CmFirst (A : Csr R) (out : List Nat) (r : Nat) (F : Nat → Nat) : Prop where
  first : ∀ q, 0 < q → q < out.length → F q < q ∧ F q < r ∧ FirstAt A out q (F q)
  order : ∀ q q' x x', 0 < q → q < q' → out[q]? = some x → out[q']? = some x' → F q ≤ F q' ∧ (F q = F q' → degree A x ≤ degree A x')

/-- `out` are the nodes placed when the children of the first `r` of them have been placed. -/
structure CmList (A : Csr R) (s : Nat) (D : Nat → Nat) (out : List Nat) (r : Nat) : Prop where
  nodup : out.Nodup
  reach : ∀ x ∈ out, Reaches A s x
  zero : out[0]? = some s
  sorted : out.Pairwise fun x y => D x ≤ D y
  closed : ∀ p u, p < r → out[p]? = some u → ∀ x, Stores A u x → x ∈ out
  firsts : ∃ F, CmFirst A out r F

theorem FirstAt.append {out C : List Nat} {q p : Nat} (h : FirstAt A out q p) : FirstAt A (out ++ C) q p := by
  obtain ⟨u, x, h1, h2, h3, h4⟩ := h
  have l1 := (List.getElem?_eq_some_iff.1 h1).1
  have l2 := (List.getElem?_eq_some_iff.1 h2).1
  refine ⟨u, x, by rw [List.getElem?_append_left l1]; exact h1, by rw [List.getElem?_append_left l2]; exact h2, h3, fun p' u' hp hu => ?_⟩
  rw [List.getElem?_append_left (by omega)] at hu
  exact h4 p' u' hp hu

theorem cmList_init : ∀ {D : Nat → Nat}, CmList A s D [s] 0 := by
  intro D
  refine ⟨List.nodup_singleton _, ?_, rfl, List.pairwise_singleton _ _, fun p _ h => by omega, fun _ => 0, ?_, ?_⟩
  · intro x hx; rw [List.mem_singleton.1 hx]; exact .refl _
  · intro q h1 h2; simp at h2; omega
  · intro q q' x x' h1 h2 h3 h4
    have := (List.getElem?_eq_some_iff.1 h3).1
    simp at this; omega

/-- Placing the children `C` of the node at position `r`. -/
theorem CmList.step {D : Nat → Nat} (hD : ∀ x, Reaches A s x → IsDist A s x (D x)) {out C : List Nat} {r u : Nat} (h : CmList A s D out r)
    (hu : out[r]? = some u) (hnear : ∀ x, Reaches A s x → D x ≤ D u → x ∈ out) (htop : ∀ x ∈ out, D x ≤ D u + 1)
    (hC : C.Nodup) (hmem : ∀ x, x ∈ C ↔ x ∉ out ∧ Stores A u x) (hdeg : C.Pairwise fun x y => degree A x ≤ degree A y) :
    CmList A s D (out ++ C) (r + 1) ∧ ∀ x ∈ C, D x = D u + 1 := by
  have hur : Reaches A s u := h.reach u (List.mem_of_getElem? hu)
  have hrl := (List.getElem?_eq_some_iff.1 hu).1
  have hCr : ∀ x ∈ C, Reaches A s x := by
    intro x hx
    obtain ⟨j, h1, rfl⟩ := ((hmem x).1 hx).2
    exact hur.trans (.edge h1)
  have hCD : ∀ x ∈ C, D x = D u + 1 := by
    intro x hx
    have h1 : ¬ D x ≤ D u := fun hle => ((hmem x).1 hx).1 (hnear x (hCr x hx) hle)
    obtain ⟨j, h2, rfl⟩ := ((hmem x).1 hx).2
    have := (hD _ (hCr _ hx)).2 _ (.snoc (hD u hur).1 h2)
    omega
  refine ⟨⟨?_, ?_, ?_, ?_, ?_, ?_⟩, hCD⟩
  · rw [List.nodup_append]
    refine ⟨h.nodup, hC, fun a ha b hb e => ?_⟩
    subst e
    exact ((hmem a).1 hb).1 ha
  · intro x hx
    rcases List.mem_append.1 hx with hx | hx
    · exact h.reach x hx
    · exact hCr x hx
  · rw [List.getElem?_append_left (by omega)]; exact h.zero
  · rw [List.pairwise_append]
    refine ⟨h.sorted, ?_, ?_⟩
    · refine List.Pairwise.imp_of_mem (R := fun _ _ => True) ?_ (List.pairwise_of_forall fun _ _ => trivial)
      intro a b ha hb _
      rw [hCD a ha, hCD b hb]
    · intro a ha b hb
      rw [hCD b hb]; exact htop a ha
  · intro p v hp hv x hx
    by_cases e : p = r
    · subst e
      rw [List.getElem?_append_left hrl, hu] at hv
      obtain rfl : u = v := by simpa using hv
      by_cases hxo : x ∈ out
      · exact List.mem_append_left _ hxo
      · exact List.mem_append_right _ ((hmem x).2 ⟨hxo, hx⟩)
    · rw [List.getElem?_append_left (by omega)] at hv
      exact List.mem_append_left _ (h.closed p v (by omega) hv x hx)
  · obtain ⟨F, hF⟩ := h.firsts
    refine ⟨fun q => if q < out.length then F q else r, ?_, ?_⟩
    · intro q h1 h2
      by_cases hq : q < out.length
      · rw [if_pos hq]
        obtain ⟨a, b, c⟩ := hF.first q h1 hq
        exact ⟨a, by omega, c.append⟩
      · rw [if_neg hq]
        refine ⟨by omega, by omega, u, (out ++ C)[q], ?_, List.getElem?_eq_getElem h2, ?_, ?_⟩
        · rw [List.getElem?_append_left hrl]; exact hu
        · rw [List.getElem_append_right (by omega)]
          exact ((hmem _).1 (List.getElem_mem _)).2
        · intro p' u' hp hu' hst
          rw [List.getElem?_append_left (by omega)] at hu'
          rw [List.getElem_append_right (by omega)] at hst
          exact ((hmem _).1 (List.getElem_mem _)).1 (h.closed p' u' hp hu' _ hst)
    · intro q q' x x' h1 h2 h3 h4
      by_cases hq' : q' < out.length
      · rw [if_pos hq', if_pos (show q < out.length by omega)]
        rw [List.getElem?_append_left hq'] at h4
        rw [List.getElem?_append_left (by omega)] at h3
        exact hF.order q q' x x' h1 h2 h3 h4
      · rw [if_neg hq']
        by_cases hq : q < out.length
        · rw [if_pos hq]
          have := (hF.first q h1 hq).2.1
          exact ⟨by omega, fun e => by omega⟩
        · rw [if_neg hq]
          refine ⟨Nat.le_refl _, fun _ => ?_⟩
          rw [List.getElem?_append_right (by omega)] at h3 h4
          obtain ⟨l3, e3⟩ := List.getElem?_eq_some_iff.1 h3
          obtain ⟨l4, e4⟩ := List.getElem?_eq_some_iff.1 h4
          have := List.pairwise_iff_getElem.1 hdeg _ _ l3 l4 (by omega)
          rw [e3, e4] at this
          exact this

/-- A list sorted by level starts with the nodes of the lower levels. -/
theorem CmList.pos_lt {D : Nat → Nat} {out N : List Nat} {r l j x : Nat} (h : CmList A s D out r) (hN : ∀ x, Reaches A s x → x ∈ N)
    (hj : out[j]? = some x) (hx : D x < l) : j < N.countP (fun y => decide (D y < l)) := by
  obtain ⟨hl, he⟩ := List.getElem?_eq_some_iff.1 hj
  have hs : (out.take (j + 1)).Subperm (N.filter fun y => decide (D y < l)) := by
    refine List.subperm_of_subset (h.nodup.sublist (List.take_sublist _ _)) ?_
    intro y hy
    obtain ⟨i, hi, rfl⟩ := List.getElem_of_mem hy
    rw [List.length_take] at hi
    rw [List.getElem_take, List.mem_filter]
    refine ⟨hN _ (h.reach _ (List.getElem_mem _)), ?_⟩
    rw [decide_eq_true_iff]
    by_cases e : i = j
    · subst e; rw [he]; exact hx
    · have := List.pairwise_iff_getElem.1 h.sorted i j (by omega) hl (by omega)
      rw [he] at this; omega
  have := hs.length_le
  rw [List.length_take, ← List.countP_eq_length_filter] at this
  omega

theorem CmList.length_eq {D : Nat → Nat} {out N : List Nat} {r l : Nat} (h : CmList A s D out r) (hnd : N.Nodup) (hN : ∀ x, x ∈ N ↔ Reaches A s x)
    (hm : ∀ x, Reaches A s x → (x ∈ out ↔ D x < l)) : out.length = N.countP (fun y => decide (D y < l)) := by
  have hp : out.Perm (N.filter fun y => decide (D y < l)) := by
    rw [List.perm_ext_iff_of_nodup h.nodup (hnd.filter _)]
    intro x
    rw [List.mem_filter, hN, decide_eq_true_iff]
    exact ⟨fun hx => ⟨h.reach x hx, (hm x (h.reach x hx)).1 hx⟩, fun hx => (hm x hx.1).2 hx.2⟩
  rw [hp.length_eq, List.countP_eq_length_filter]

/-- The nodes at the end of a walk are at least as many as the levels. -/
theorem dist_lt_length {N : List Nat} (hN : ∀ x, Reaches A s x → x ∈ N) {x d : Nat} (h : IsDist A s x d) : d < N.length := by
  have hex : ∀ e, ∃ y, e ≤ d → IsDist A s y e := by
    intro e
    by_cases he : e ≤ d
    · have key : ∀ n, n ≤ d → ∃ y, IsDist A s y (d - n) := by
        intro n
        induction n with
        | zero => intro _; exact ⟨x, h⟩
        | succ n ih =>
          intro hn
          obtain ⟨y, hy⟩ := ih (by omega)
          rw [show d - n = (d - (n + 1)) + 1 by omega] at hy
          obtain ⟨_, u, _, hu, _⟩ := isDist_succ_iff.1 hy
          exact ⟨u, hu⟩
      obtain ⟨y, hy⟩ := key (d - e) (by omega)
      rw [show d - (d - e) = e by omega] at hy
      exact ⟨y, fun _ => hy⟩
    · exact ⟨0, fun h => absurd h he⟩
  choose f hf using hex
  have hs : ((List.range (d + 1)).map f).Subperm N := by
    refine List.subperm_of_subset ?_ ?_
    · rw [List.nodup_map_iff_inj_on List.nodup_range]
      intro a ha b hb e
      rw [List.mem_range] at ha hb
      have h1 := hf a (by omega)
      have h2 := hf b (by omega)
      rw [← e] at h2
      exact h1.unique h2
    · intro y hy
      obtain ⟨e, he, rfl⟩ := List.mem_map.1 hy
      rw [List.mem_range] at he
      exact hN _ ⟨_, (hf e (by omega)).1⟩
  have := hs.length_le
  simp at this
  omega

/-- A component placed from the end of the permutation: node `j` of `l` is at position m - (off + j) - 1. -/
structure RPlaced (A : Csr R) (s : Nat) (off : Nat) (l : List Nat) (m : Mem (CTy R)) : Prop where
  nodup : l.Nodup
  mem : ∀ x, x ∈ l ↔ Reaches A s x
  sorted : DistSorted A s l
  firsts : ∃ F, CmFirst A l l.length F
  inv : ∀ j x : Nat, l[j]? = some x → m bfsInv ((A.m : Int) - ((off + j : Nat) : Int) - 1) = some (x : Int)
  perm : ∀ j x : Nat, l[j]? = some x → m bfsPrm (x : Int) = some ((A.m : Int) - ((off + j : Nat) : Int) - 1 : Int)

theorem RPlaced.congr {off : Nat} {l : List Nat} {m m' : Mem (CTy R)} (h : RPlaced A s off l m)
    (h1 : ∀ i : Int, (A.m : Int) - off - l.length ≤ i → i < (A.m : Int) - off → m' bfsInv i = m bfsInv i)
    (h2 : ∀ x : Nat, Reaches A s x → m' bfsPrm (x : Int) = m bfsPrm (x : Int)) : RPlaced A s off l m' := by
  refine ⟨h.nodup, h.mem, h.sorted, h.firsts, fun j x hj => ?_, fun j x hj => ?_⟩
  · have hlt : j < l.length := (List.getElem?_eq_some_iff.1 hj).1
    rw [h1 _ (by omega) (by omega)]; exact h.inv j x hj
  · rw [h2 x ((h.mem x).1 (List.mem_of_getElem? hj))]; exact h.perm j x hj

/-- Blocks placed from the end make a reverse Cuthill–McKee numbering. -/
theorem Blocks.rcm {N : Nat} {src off : Nat → Nat} {L : Nat → List Nat} (wf : A.WF) (hsq : A.n = A.m) (hsym : PatSym A)
    (h : Blocks A N src off L) (hsorted : ∀ b, b < N → DistSorted A (src b) (L b)) (hfirst : ∀ b, b < N → ∃ F, CmFirst A (L b) (L b).length F)
    {perm inv : Nat → Nat} (hinv : ∀ b j x, b < N → (L b)[j]? = some x → inv (A.m - 1 - (off b + j)) = x)
    (hperm : ∀ b j x, b < N → (L b)[j]? = some x → perm x = A.m - 1 - (off b + j)) : IsRcmNumbering A perm inv := by
  have hlt : ∀ b j x, b < N → (L b)[j]? = some x → off b + j < A.m := by
    intro b j x hb hj
    have := (List.getElem?_eq_some_iff.1 hj).1
    have := h.le wf hsq hsym hb
    omega
  have hbfs : IsBfsNumbering A (fun x => A.m - 1 - perm x) (fun p => inv (A.m - 1 - p)) := by
    refine h.numbering wf hsq hsym hsorted (fun b j x hb hj => hinv b j x hb hj) (fun b j x hb hj => ?_)
    have := hlt b j x hb hj
    show A.m - 1 - perm x = _
    rw [hperm b j x hb hj]; omega
  have at_ : ∀ p, p < A.m → ∃ b j, b < N ∧ p = off b + j ∧ (L b)[j]? = some (inv (A.m - 1 - p)) := by
    intro p hp
    obtain ⟨b, j, h1, h2, h3⟩ := h.find wf hsq hsym hp
    refine ⟨b, j, h1, h3, ?_⟩
    have := hinv b j _ h1 (List.getElem?_eq_getElem h2)
    rw [h3, this]
    exact List.getElem?_eq_getElem h2
  have same : ∀ b c j j' x y : Nat, b < N → c < N → (L b)[j]? = some x → (L c)[j']? = some y → Reaches A x y → b = c := by
    intro b c j j' x y hb hc hx hy hr
    by_contra hne
    exact h.apart b c hb hc hne ((((h.mem b hb x).1 (List.mem_of_getElem? hx)).trans hr).trans
      (((h.mem c hc y).1 (List.mem_of_getElem? hy)).symm hsym))
  -- first neighbours in the list are first neighbours in the numbering
  have lift : ∀ b j f, b < N → j < (L b).length → f < (L b).length → FirstAt A (L b) j f →
      FirstNbr A (fun p => inv (A.m - 1 - p)) (off b + j) (off b + f) := by
    intro b j f hb hj hf hfa
    obtain ⟨u, x, h1, h2, h3, h4⟩ := hfa
    have e1 := hinv b f u hb h1
    have e2 := hinv b j x hb h2
    refine ⟨by show Stores A (inv _) (inv _); rw [e1, e2]; exact h3, ?_⟩
    intro g hg hst
    have hg' : Stores A (inv (A.m - 1 - g)) x := by rw [← e2]; exact hst
    have := hlt b f u hb h1
    obtain ⟨c, i, hc, hgi, hi⟩ := at_ g (by omega)
    have hr : Reaches A (inv (A.m - 1 - g)) x := by obtain ⟨q, hq, rfl⟩ := hg'; exact .edge hq
    obtain rfl := same c b i j _ _ hc hb hi h2 hr
    exact h4 i _ (by omega) hi hg'
  have uniq : ∀ (ord : Nat → Nat) q f g, FirstNbr A ord q f → FirstNbr A ord q g → f = g := by
    intro ord q f g h1 h2
    rcases Nat.lt_trichotomy f g with hh | hh | hh
    · exact absurd h1.1 (h2.2 f hh)
    · exact hh
    · exact absurd h2.1 (h1.2 g hh)
  refine ⟨⟨fun x hx => ?_, fun p hp => ?_⟩, { hbfs with earlier := ?_, children := ?_ }⟩
  · obtain ⟨b, hb, hr⟩ := h.cover x hx
    obtain ⟨j, hj, he⟩ := List.getElem_of_mem ((h.mem b hb x).2 hr)
    have hj' : (L b)[j]? = some x := List.getElem?_eq_some_iff.2 ⟨hj, he⟩
    have h1 := hperm b j x hb hj'
    have h2 := hinv b j x hb hj'
    have := hlt b j x hb hj'
    rw [h1]; exact ⟨by omega, h2⟩
  · obtain ⟨b, j, hb, he, hj⟩ := at_ (A.m - 1 - p) (by omega)
    rw [show A.m - 1 - (A.m - 1 - p) = p by omega] at hj
    have := hperm b j _ hb hj
    exact ⟨((h.mem b hb _).1 (List.mem_of_getElem? hj)).lt wf hsq (h.lt b hb), by rw [this]; omega⟩
  · intro p q hpq hq hr
    obtain ⟨b, j, hb, he, hj⟩ := at_ q hq
    obtain ⟨c, i, hc, he', hi⟩ := at_ p (by omega)
    obtain rfl := same c b i j _ _ hc hb hi hj hr
    obtain ⟨F, hF⟩ := hfirst c hc
    have hjl := (List.getElem?_eq_some_iff.1 hj).1
    obtain ⟨a1, a2, a3⟩ := hF.first j (by omega) hjl
    refine ⟨off c + F j, by omega, ?_⟩
    rw [he]
    exact lift c j (F j) hc hjl a2 a3
  · intro p q f g hpq hq hr hfp hf hg
    obtain ⟨b, j, hb, he, hj⟩ := at_ q hq
    obtain ⟨c, i, hc, he', hi⟩ := at_ p (by omega)
    obtain rfl := same c b i j _ _ hc hb hi hj hr
    obtain ⟨F, hF⟩ := hfirst c hc
    have hjl := (List.getElem?_eq_some_iff.1 hj).1
    have hil := (List.getElem?_eq_some_iff.1 hi).1
    -- position 0 of a block has no earlier neighbour
    have hi0 : 0 < i := by
      rcases Nat.eq_zero_or_pos i with e0 | e0
      · exfalso
        obtain ⟨c', i', hc', hfi, hi'⟩ := at_ f (by omega)
        have hr' : Reaches A (inv (A.m - 1 - f)) (inv (A.m - 1 - p)) := by
          have := hf.1
          obtain ⟨t, ht, hte⟩ := this
          have e := Reaches.edge ht
          rw [hte] at e
          exact e
        obtain rfl := same c' c i' i _ _ hc' hc hi' hi hr'
        omega
      · exact e0
    obtain ⟨a1, a2, a3⟩ := hF.first j (by omega) hjl
    obtain ⟨b1, b2, b3⟩ := hF.first i hi0 hil
    have k1 := lift c j (F j) hc hjl a2 a3
    have k2 := lift c i (F i) hc hil b2 b3
    rw [← he] at k1
    rw [← he'] at k2
    have q1 := uniq _ _ _ _ hg k1
    have q2 := uniq _ _ _ _ hf k2
    have o := hF.order i j _ _ hi0 (by omega) hi hj
    exact ⟨by omega, fun e => o.2 (by omega)⟩

end SpMP
