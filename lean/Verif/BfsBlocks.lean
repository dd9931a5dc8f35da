import Verif.BfsSer
import Verif.CompMain
/-
Components placed in consecutive blocks of positions make a breadth-first numbering.
-/

namespace SpMP
open Spec

variable {R : Type} {A : Csr R}

theorem Spec.Walk.append {x y : Nat} {d e : Nat} {s : Nat} (h : Walk A s x d) (h' : Walk A x y e) : Walk A s y (d + e) := by
  induction h' with
  | nil => exact h
  | snoc _ h2 ih => exact Walk.snoc ih h2

theorem Spec.Reaches.refl (x : Nat) : Reaches A x x := ⟨0, .nil⟩

theorem Spec.Reaches.trans {x y z : Nat} (h : Reaches A x y) (h' : Reaches A y z) : Reaches A x z := by
  obtain ⟨d, h⟩ := h
  obtain ⟨e, h'⟩ := h'
  exact ⟨_, h.append h'⟩

theorem Spec.Reaches.edge {x j : Nat} (h : A.InRow x j) : Reaches A x (A.col j) := ⟨1, .snoc .nil h⟩

theorem Spec.Reaches.symm (hsym : PatSym A) {x y : Nat} (h : Reaches A x y) : Reaches A y x := by
  obtain ⟨d, h⟩ := h
  induction h with
  | nil => exact .refl _
  | snoc h1 h2 ih =>
    obtain ⟨i, h3, h4⟩ := hsym _ _ h2
    have : Reaches A (A.col _) (A.col i) := .edge h3
    rw [h4] at this
    exact this.trans ih

theorem Spec.Reaches.lt (wf : A.WF) (hsq : A.n = A.m) {x y : Nat} (hx : x < A.m) (h : Reaches A x y) : y < A.m := by
  obtain ⟨d, h⟩ := h
  exact h.lt wf hx hsq

/-- Inside a set closed under the entries, the classes of `Linked` are the sets of reachable nodes. -/
theorem linked_iff_reaches (hsym : PatSym A) {V : Nat → Prop} (hcl : CcClosed A V) {x y : Nat} (hx : V x) :
    Linked A V x y ↔ Reaches A x y := by
  constructor
  · intro h
    clear hx
    induction h with
    | refl x => exact .refl x
    | edge _ h _ => exact .edge h
    | symm _ ih => exact ih.symm hsym
    | trans _ _ ih1 ih2 => exact ih1.trans ih2
  · rintro ⟨d, h⟩
    have : V y ∧ Linked A V x y := by
      induction h with
      | nil => exact ⟨hx, .refl x⟩
      | snoc _ h2 ih => exact ⟨hcl _ _ ih.1 h2, ih.2.trans (.edge ih.1 h2 (hcl _ _ ih.1 h2))⟩
    exact this.2

theorem dist_head {s : Nat} {l : List Nat} (hl : DistSorted A s l) (hm : ∀ x, x ∈ l ↔ Reaches A s x) (h0 : 0 < l.length) : l[0] = s := by
  obtain ⟨i, hi, he⟩ := List.getElem_of_mem ((hm s).2 (.refl s))
  by_cases e : i = 0
  · subst e; exact he
  · have hp := List.pairwise_iff_getElem.1 hl 0 i h0 hi (by omega)
    obtain ⟨d, hd⟩ := ((hm l[0]).1 (List.getElem_mem h0)).dist
    have := hp d 0 hd (by rw [he]; exact isDist_zero)
    obtain rfl : d = 0 := by omega
    exact isDist_zero_iff.1 hd

/-- `N` blocks: block `b` lists what `src b` reaches; positions follow each other. -/
structure Blocks (A : Csr R) (N : Nat) (src off : Nat → Nat) (L : Nat → List Nat) : Prop where
  lt : ∀ b, b < N → src b < A.m
  nodup : ∀ b, b < N → (L b).Nodup
  mem : ∀ b, b < N → ∀ x, x ∈ L b ↔ Reaches A (src b) x
  apart : ∀ b c, b < N → c < N → b ≠ c → ¬ Reaches A (src b) (src c)
  cover : ∀ x, x < A.m → ∃ b, b < N ∧ Reaches A (src b) x
  off_zero : off 0 = 0
  off_next : ∀ b, b + 1 < N → off (b + 1) = off b + (L b).length

theorem Blocks.flat {N : Nat} {src off : Nat → Nat} {L : Nat → List Nat} (wf : A.WF) (hsq : A.n = A.m) (hsym : PatSym A)
    (h : Blocks A N src off L) : ((List.range N).flatMap L).length = A.m := by
  have hnd : ((List.range N).flatMap L).Nodup := by
    rw [List.nodup_flatMap]
    refine ⟨fun b hb => h.nodup b (List.mem_range.1 hb), ?_⟩
    refine List.Pairwise.imp_of_mem (R := fun x y => x ≠ y) ?_ (List.nodup_range (n := N))
    intro b c hb hc hne x hx hy
    refine h.apart b c (List.mem_range.1 hb) (List.mem_range.1 hc) hne ?_
    exact ((h.mem b (List.mem_range.1 hb) x).1 hx).trans (((h.mem c (List.mem_range.1 hc) x).1 hy).symm hsym)
  have hp : ((List.range N).flatMap L).Perm (List.range A.m) := by
    rw [List.perm_ext_iff_of_nodup hnd List.nodup_range]
    intro x
    rw [List.mem_flatMap, List.mem_range]
    constructor
    · rintro ⟨b, hb, hx⟩
      exact ((h.mem b (List.mem_range.1 hb) x).1 hx).lt wf hsq (h.lt b (List.mem_range.1 hb))
    · intro hx
      obtain ⟨b, hb, hr⟩ := h.cover x hx
      exact ⟨b, List.mem_range.2 hb, (h.mem b hb x).2 hr⟩
  rw [hp.length_eq, List.length_range]

theorem Blocks.off_psum {N : Nat} {src off : Nat → Nat} {L : Nat → List Nat} (h : Blocks A N src off L) :
    ∀ b, b < N → (off b : Int) = psum (fun t => ((L t).length : Int)) b := by
  intro b
  induction b with
  | zero => intro _; rw [h.off_zero]; rfl
  | succ b ih => intro hb; rw [h.off_next b hb]; have := ih (by omega); show _ = psum _ b + _; push_cast; omega

theorem Blocks.le {N : Nat} {src off : Nat → Nat} {L : Nat → List Nat} (wf : A.WF) (hsq : A.n = A.m) (hsym : PatSym A)
    (h : Blocks A N src off L) {b : Nat} (hb : b < N) : off b + (L b).length ≤ A.m := by
  have h1 := h.flat wf hsq hsym
  have h2 := flatMap_length_psum L N
  have h3 : psum (fun t => ((L t).length : Int)) (b + 1) ≤ psum (fun t => ((L t).length : Int)) N :=
    psum_mono (fun _ => by omega) (by omega)
  have h4 : psum (fun t => ((L t).length : Int)) (b + 1) = psum (fun t => ((L t).length : Int)) b + (L b).length := rfl
  have h5 := h.off_psum b hb
  omega

theorem Blocks.off_mono {N : Nat} {src off : Nat → Nat} {L : Nat → List Nat} (h : Blocks A N src off L) {b c : Nat} (hbc : b < c) (hc : c < N) :
    off b + (L b).length ≤ off c := by
  have h3 : psum (fun t => ((L t).length : Int)) (b + 1) ≤ psum (fun t => ((L t).length : Int)) c :=
    psum_mono (fun _ => by omega) (by omega)
  have h4 : psum (fun t => ((L t).length : Int)) (b + 1) = psum (fun t => ((L t).length : Int)) b + (L b).length := rfl
  have h5 := h.off_psum b (by omega)
  have h6 := h.off_psum c hc
  omega

theorem Blocks.find {N : Nat} {src off : Nat → Nat} {L : Nat → List Nat} (wf : A.WF) (hsq : A.n = A.m) (hsym : PatSym A)
    (h : Blocks A N src off L) {p : Nat} (hp : p < A.m) : ∃ b j, b < N ∧ j < (L b).length ∧ p = off b + j := by
  have key : ∀ n, n ≤ N → (p : Int) < psum (fun t => ((L t).length : Int)) n → ∃ b j, b < n ∧ j < (L b).length ∧ p = off b + j := by
    intro n
    induction n with
    | zero => intro _ hh; simp [psum] at hh; omega
    | succ n ih =>
      intro hn hlt
      by_cases hc : (p : Int) < psum (fun t => ((L t).length : Int)) n
      · obtain ⟨b, j, h1, h2⟩ := ih (by omega) hc
        exact ⟨b, j, by omega, h2⟩
      · have h4 : psum (fun t => ((L t).length : Int)) (n + 1) = psum (fun t => ((L t).length : Int)) n + (L n).length := rfl
        have h5 := h.off_psum n hn
        exact ⟨n, p - off n, by omega, by omega, by omega⟩
  have h1 := h.flat wf hsq hsym
  have h2 := flatMap_length_psum L N
  exact key N (Nat.le_refl _) (by omega)

/-- Blocks determine a breadth-first numbering. -/
theorem Blocks.numbering {N : Nat} {src off : Nat → Nat} {L : Nat → List Nat} (wf : A.WF) (hsq : A.n = A.m) (hsym : PatSym A)
    (h : Blocks A N src off L) (hsorted : ∀ b, b < N → DistSorted A (src b) (L b)) {perm inv : Nat → Nat}
    (hinv : ∀ b j x, b < N → (L b)[j]? = some x → inv (off b + j) = x) (hperm : ∀ b j x, b < N → (L b)[j]? = some x → perm x = off b + j) :
    IsBfsNumbering A perm inv := by
  have at_ : ∀ {p}, p < A.m → ∃ b j, b < N ∧ ∃ hj : j < (L b).length, p = off b + j ∧ inv p = (L b)[j] ∧ Reaches A (src b) (inv p) := by
    intro p hp
    obtain ⟨b, j, h1, h2, h3⟩ := h.find wf hsq hsym hp
    have he : inv p = (L b)[j] := by rw [h3]; exact hinv b j _ h1 (List.getElem?_eq_getElem h2)
    exact ⟨b, j, h1, h2, h3, he, by rw [he]; exact (h.mem b h1 _).1 (List.getElem_mem h2)⟩
  have same : ∀ {b c x y}, b < N → c < N → Reaches A (src b) x → Reaches A (src c) y → Reaches A x y → b = c := by
    intro b c x y hb hc h1 h2 h3
    by_contra hne
    exact h.apart b c hb hc hne ((h1.trans h3).trans (h2.symm hsym))
  refine ⟨?_, ?_, ?_, ?_⟩
  · intro x hx
    obtain ⟨b, hb, hr⟩ := h.cover x hx
    obtain ⟨j, hj, he⟩ := List.getElem_of_mem ((h.mem b hb x).2 hr)
    have hg : (L b)[j]? = some x := by rw [List.getElem?_eq_getElem hj, he]
    rw [hperm b j x hb hg, hinv b j x hb hg]
    have := h.le wf hsq hsym hb
    exact ⟨by omega, rfl⟩
  · intro p hp
    obtain ⟨b, j, hb, hj, h3, he, hr⟩ := at_ hp
    refine ⟨hr.lt wf hsq (h.lt b hb), ?_⟩
    rw [hperm b j (inv p) hb (by rw [List.getElem?_eq_getElem hj, he]), h3]
  · intro p q r hpq hqr hr hre
    obtain ⟨b, j, hb, hj, h1, h2, h3⟩ := at_ (show p < A.m by omega)
    obtain ⟨c, i, hc, hi, h4, h5, h6⟩ := at_ (show q < A.m by omega)
    obtain ⟨d, l, hd, hl, h7, h8, h9⟩ := at_ hr
    obtain rfl := same hb hd h3 h9 hre
    have hbc : b = c := by
      rcases Nat.lt_trichotomy b c with g | g | g
      · have := h.off_mono g hc; omega
      · exact g
      · have := h.off_mono g hb; omega
    subst hbc
    exact (h3.symm hsym).trans h6
  · intro p hp
    obtain ⟨b, j, hb, hj, h1, h2, h3⟩ := at_ hp
    have hpos : 0 < (L b).length := by omega
    have hs : inv (off b) = src b := by
      have := hinv b 0 _ hb (List.getElem?_eq_getElem hpos)
      rw [Nat.add_zero] at this
      rw [this]
      exact dist_head (hsorted b hb) (h.mem b hb) hpos
    refine ⟨off b, by omega, by rw [hs]; exact h3, ?_, ?_⟩
    · intro q hq hre
      obtain ⟨c, i, hc, hi, h4, h5, h6⟩ := at_ hq
      obtain rfl := same hb hc h3 h6 hre
      omega
    · intro q d e hq hre hd he
      rw [hs] at hd he
      obtain ⟨c, i, hc, hi, h4, h5, h6⟩ := at_ (show q < A.m by omega)
      obtain rfl := same hb hc h3 h6 hre
      by_cases e1 : i = j
      · subst e1
        rw [h5] at hd
        rw [h2] at he
        exact Nat.le_of_eq (hd.unique he)
      · have hp := List.pairwise_iff_getElem.1 (hsorted b hb) i j hi hj (by omega)
        exact hp d e (by rw [← h5]; exact hd) (by rw [← h2]; exact he)

/-- What was placed for the component of `s` at `off`: `inversePerm` holds `l`, `perm` its inverse. -/
structure Placed (A : Csr R) (s : Nat) (off : Nat) (l : List Nat) (m : Mem (CTy R)) : Prop where
  nodup : l.Nodup
  mem : ∀ x, x ∈ l ↔ Reaches A s x
  sorted : DistSorted A s l
  inv : ∀ j x : Nat, l[j]? = some x → m bfsInv ((off + j : Nat) : Int) = some (x : Int)
  perm : ∀ j x : Nat, l[j]? = some x → m bfsPrm (x : Int) = some ((off + j : Nat) : Int)

theorem Placed.congr {s off : Nat} {l : List Nat} {m m' : Mem (CTy R)} (h : Placed A s off l m)
    (h1 : ∀ i : Int, (off : Int) ≤ i → i < (off : Int) + l.length → m' bfsInv i = m bfsInv i)
    (h2 : ∀ x : Nat, Reaches A s x → m' bfsPrm (x : Int) = m bfsPrm (x : Int)) : Placed A s off l m' := by
  refine ⟨h.nodup, h.mem, h.sorted, fun j x hj => ?_, fun j x hj => ?_⟩
  · have hlt : j < l.length := (List.getElem?_eq_some_iff.1 hj).1
    rw [h1 _ (by omega) (by omega)]; exact h.inv j x hj
  · rw [h2 x ((h.mem x).1 (List.mem_of_getElem? hj))]; exact h.perm j x hj

/-- The nodes of component `c`, as listed by the component arrays. -/
def compNodes (size start node : Nat → Nat) (c : Nat) : List Nat := (List.range (size c)).map fun j => node (start c + j)

variable {V : Nat → Prop} {nc : Nat} {root size start node : Nat → Nat}

theorem compNodes_mem (hsym : PatSym A) (h : IsComponents V (Reaches A) nc root size start node) (hcl : CcClosed A V) {c : Nat} (hc : c < nc) (x : Nat) :
    x ∈ compNodes size start node c ↔ Reaches A (root c) x := by
  unfold compNodes
  rw [List.mem_map]
  constructor
  · rintro ⟨j, hj, rfl⟩; exact (h.node_mem c j hc (List.mem_range.1 hj)).2
  · intro hr
    have hx : V x := by
      obtain ⟨d, hr⟩ := hr
      induction hr with
      | nil => exact h.root_mem c hc
      | snoc _ h2 ih => exact hcl _ _ ih h2
    obtain ⟨d, j, hd, hj, he⟩ := h.cover x hx
    have e : Reaches A (root c) (root d) := by
      have := (h.node_mem d j hd hj).2
      rw [he] at this
      exact hr.trans (this.symm hsym)
    have l1 := h.root_least c _ hc (h.root_mem d hd) e
    have l2 := h.root_least d _ hd (h.root_mem c hc) (e.symm hsym)
    have hdc : c = d := by
      rcases Nat.lt_trichotomy c d with g | g | g
      · have := h.root_incr c d g hd; omega
      · exact g
      · have := h.root_incr d c g hc; omega
    subst hdc
    exact ⟨j, List.mem_range.2 hj, he⟩

theorem compNodes_nodup (h : IsComponents V (Reaches A) nc root size start node) {c : Nat} (hc : c < nc) : (compNodes size start node c).Nodup := by
  unfold compNodes
  rw [List.nodup_map_iff_inj_on List.nodup_range]
  intro i hi j hj e
  rw [List.mem_range] at hi hj
  by_contra hne
  rcases Nat.lt_or_ge i j with g | g
  · have := h.node_incr c i j hc g hj; omega
  · have := h.node_incr c j i hc (by omega) hi; omega

theorem comp_length (hsym : PatSym A) (h : IsComponents V (Reaches A) nc root size start node) (hcl : CcClosed A V) {c : Nat} (hc : c < nc)
    {l : List Nat} (hn : l.Nodup) (hm : ∀ x, x ∈ l ↔ Reaches A (root c) x) : l.length = size c := by
  have hp : l.Perm (compNodes size start node c) :=
    (List.perm_ext_iff_of_nodup hn (compNodes_nodup h hc)).2 fun x => by rw [hm, compNodes_mem hsym h hcl hc]
  rw [hp.length_eq]
  simp [compNodes]

/-- The first component and the others are blocks. -/
theorem comp_blocks (hm : 0 < A.m) (hV : ∀ x, V x ↔ x < A.m ∧ ¬ Reaches A 0 x) (hsym : PatSym A)
    (h : IsComponents V (Reaches A) nc root size start node) (hcl : CcClosed A V) {L : Nat → List Nat} (h0 : (L 0).Nodup) (h0m : ∀ x, x ∈ L 0 ↔ Reaches A 0 x)
    (hL : ∀ c, c < nc → (L (c + 1)).Nodup ∧ ∀ x, x ∈ L (c + 1) ↔ Reaches A (root c) x) :
    Blocks A (nc + 1) (fun b => if b = 0 then 0 else root (b - 1)) (fun b => if b = 0 then 0 else (L 0).length + start (b - 1)) L := by
  refine ⟨?_, ?_, ?_, ?_, ?_, rfl, ?_⟩
  · intro b hb
    by_cases e : b = 0
    · rw [if_pos e]; exact hm
    · rw [if_neg e]; exact ((hV _).1 (h.root_mem (b - 1) (by omega))).1
  · intro b hb
    by_cases e : b = 0
    · subst e; exact h0
    · have := (hL (b - 1) (by omega)).1
      rwa [show b - 1 + 1 = b by omega] at this
  · intro b hb
    by_cases e : b = 0
    · subst e; exact h0m
    · have := (hL (b - 1) (by omega)).2
      rw [show b - 1 + 1 = b by omega] at this
      simpa only [if_neg e] using this
  · intro b c hb hc hne hr
    by_cases e : b = 0
    · rw [if_pos e, if_neg (show c ≠ 0 by omega)] at hr
      exact ((hV _).1 (h.root_mem (c - 1) (by omega))).2 hr
    · rw [if_neg e] at hr
      by_cases e' : c = 0
      · rw [if_pos e'] at hr
        exact ((hV _).1 (h.root_mem (b - 1) (by omega))).2 (hr.symm hsym)
      · rw [if_neg e'] at hr
        have l1 := h.root_least (b - 1) _ (by omega) (h.root_mem (c - 1) (by omega)) hr
        have l2 := h.root_least (c - 1) _ (by omega) (h.root_mem (b - 1) (by omega)) (hr.symm hsym)
        rcases Nat.lt_trichotomy b c with g | g | g
        · have := h.root_incr (b - 1) (c - 1) (by omega) (by omega); omega
        · exact hne g
        · have := h.root_incr (c - 1) (b - 1) (by omega) (by omega); omega
  · intro x hx
    by_cases hr : Reaches A 0 x
    · exact ⟨0, by omega, hr⟩
    · obtain ⟨c, j, hc, hj, he⟩ := h.cover x ((hV x).2 ⟨hx, hr⟩)
      refine ⟨c + 1, by omega, ?_⟩
      rw [if_neg (by omega), Nat.add_sub_cancel]
      have := (h.node_mem c j hc hj).2
      rwa [he] at this
  · intro b hb
    rw [if_neg (show b + 1 ≠ 0 by omega), Nat.add_sub_cancel]
    by_cases e : b = 0
    · subst e; rw [if_pos rfl, h.start_zero]; omega
    · rw [if_neg e]
      have h1 := h.start_next (b - 1) (by omega)
      have h2 := hL (b - 1) (by omega)
      rw [show b - 1 + 1 = b by omega] at h1 h2
      rw [h1, ← comp_length hsym h hcl (show b - 1 < nc by omega) h2.1 h2.2]
      omega

end SpMP
