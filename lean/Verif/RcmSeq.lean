import Verif.RcmPlace
/-
The Cuthill–McKee order of a component as a function of the source and of the sorting function: the list that results from placing
the children of one position after the other. Used to describe the pipelined placing of large components.
-/

namespace SpMP
open Spec

variable {R : Type} {A : Csr R} {s : Nat}

/-- A component with its source, distances `D`, nodes `N` and the sorting function. -/
structure CmCtx (A : Csr R) (s : Nat) (D : Nat → Nat) (N : List Nat) (srt : List (Int × Int) → List (Int × Int)) : Prop where
  wf : A.WF
  sq : A.n = A.m
  src : s < A.m
  dist : ∀ x, Reaches A s x → IsDist A s x (D x)
  nodup : N.Nodup
  mem : ∀ x, x ∈ N ↔ Reaches A s x
  sorts : SortsByKey srt

/-- The children of `u` among its first `n` entries, in the order of the row. -/
def cmCol (A : Csr R) (D : Nat → Nat) (out : List Nat) (u : Nat) : Nat → List Nat
  | 0 => []
  | n + 1 =>
    if D (A.col (A.ptr u + n)) = D u + 1 ∧ A.col (A.ptr u + n) ∉ out ∧ A.col (A.ptr u + n) ∉ cmCol A D out u n then
      cmCol A D out u n ++ [A.col (A.ptr u + n)]
    else cmCol A D out u n

/-- A list of nodes sorted by degree with `srt`. -/
def cmSorted (A : Csr R) (srt : List (Int × Int) → List (Int × Int)) (G : List Nat) : List Nat :=
  (srt (G.map fun x : Nat => ((degree A x : Int), (x : Int)))).map fun p => p.2.toNat

/-- The children of `u`, in the order in which they are placed. -/
def cmKids (A : Csr R) (D : Nat → Nat) (srt : List (Int × Int) → List (Int × Int)) (out : List Nat) (u : Nat) : List Nat :=
  cmSorted A srt (cmCol A D out u (degree A u))

/-- The nodes placed when the children of the first `r` positions have been placed. -/
def cmOuts (A : Csr R) (s : Nat) (D : Nat → Nat) (srt : List (Int × Int) → List (Int × Int)) : Nat → List Nat
  | 0 => [s]
  | r + 1 => cmOuts A s D srt r ++ (match (cmOuts A s D srt r)[r]? with | some u => cmKids A D srt (cmOuts A s D srt r) u | none => [])

theorem cmCol_nodup {D : Nat → Nat} {out : List Nat} {u : Nat} : ∀ n, (cmCol A D out u n).Nodup := by
  intro n
  induction n with
  | zero => exact List.nodup_nil
  | succ n ih =>
    unfold cmCol
    split
    · next h =>
      rw [List.nodup_append]
      exact ⟨ih, List.nodup_singleton _, fun a ha b hb e => h.2.2 (by rw [← List.mem_singleton.1 hb, ← e]; exact ha)⟩
    · exact ih

theorem cmCol_mem {D : Nat → Nat} {out : List Nat} {u x : Nat} : ∀ n,
    x ∈ cmCol A D out u n ↔ ∃ i, i < n ∧ A.col (A.ptr u + i) = x ∧ D x = D u + 1 ∧ x ∉ out := by
  intro n
  induction n with
  | zero => simp [cmCol]
  | succ n ih =>
    unfold cmCol
    split
    · next h =>
      rw [List.mem_append, List.mem_singleton, ih]
      constructor
      · rintro (⟨i, h1, h2⟩ | rfl)
        · exact ⟨i, by omega, h2⟩
        · exact ⟨n, by omega, rfl, h.1, h.2.1⟩
      · rintro ⟨i, h1, h2, h3⟩
        by_cases e : i = n
        · subst e; exact Or.inr h2.symm
        · exact Or.inl ⟨i, by omega, h2, h3⟩
    · next h =>
      rw [ih]
      constructor
      · rintro ⟨i, h1, h2⟩; exact ⟨i, by omega, h2⟩
      · rintro ⟨i, h1, h2, h3, h4⟩
        by_cases e : i = n
        · subst e
          subst h2
          by_contra hc
          exact h ⟨h3, h4, fun hm => hc (ih.1 hm)⟩
        · exact ⟨i, by omega, h2, h3, h4⟩

theorem cmSorted_spec {srt : List (Int × Int) → List (Int × Int)} (hsrt : SortsByKey srt) (A : Csr R) (G : List Nat) :
    (cmSorted A srt G).Perm G ∧ ((cmSorted A srt G).Pairwise fun x y => degree A x ≤ degree A y) ∧
      (srt (G.map fun x : Nat => ((degree A x : Int), (x : Int)))).map Prod.snd = (cmSorted A srt G).map fun x : Nat => (x : Int) := by
  obtain ⟨G', h1, h2, h3⟩ := sorted_children hsrt A G
  have : cmSorted A srt G = G' := by
    unfold cmSorted
    have e : (srt (G.map fun x : Nat => ((degree A x : Int), (x : Int)))).map (fun p => p.2.toNat) =
        ((srt (G.map fun x : Nat => ((degree A x : Int), (x : Int)))).map Prod.snd).map Int.toNat := by
      rw [List.map_map]; rfl
    rw [e, h3, List.map_map]
    show G'.map (fun x : Nat => Int.toNat (x : Int)) = G'
    simp
  rw [this]; exact ⟨h1, h2, h3⟩

variable {D : Nat → Nat} {N : List Nat} {srt : List (Int × Int) → List (Int × Int)}

theorem Spec.Stores.reaches {u x : Nat} (h : Stores A u x) (hu : Reaches A s u) : Reaches A s x := by
  obtain ⟨j, h1, rfl⟩ := h
  exact hu.trans (.edge h1)

theorem CmCtx.dist_le (h : CmCtx A s D N srt) {u x : Nat} (hu : Reaches A s u) (hx : Stores A u x) : D x ≤ D u + 1 := by
  have hr := hx.reaches hu
  obtain ⟨j, h1, rfl⟩ := hx
  exact (h.dist _ hr).2 _ (.snoc (h.dist u hu).1 h1)

theorem CmCtx.lt (h : CmCtx A s D N srt) {x : Nat} (hx : Reaches A s x) : x < A.m := hx.lt h.wf h.sq h.src

/-- Lower nodes are placed before the children of `u` are. -/
theorem CmCtx.near (h : CmCtx A s D N srt) {out : List Nat} {r u : Nat} (hl : CmList A s D out r) (hu : out[r]? = some u) :
    ∀ x, Reaches A s x → D x ≤ D u → x ∈ out := by
  have key : ∀ d x, Reaches A s x → D x = d → d ≤ D u → x ∈ out := by
    intro d
    induction d with
    | zero =>
      intro x hx hd _
      have := h.dist x hx
      rw [hd, isDist_zero_iff] at this
      rw [this]; exact List.mem_of_getElem? hl.zero
    | succ d ih =>
      intro x hx hd hle
      have h1 := h.dist x hx
      rw [hd] at h1
      obtain ⟨_, y, j, hy, hj, e⟩ := isDist_succ_iff.1 h1
      have hyr : Reaches A s y := ⟨_, hy.1⟩
      have hyd : D y = d := (h.dist y hyr).unique hy
      obtain ⟨p, hp, hpe⟩ := List.getElem_of_mem (ih y hyr hyd (by omega))
      obtain ⟨hr, hre⟩ := List.getElem?_eq_some_iff.1 hu
      have hpr : p < r := by
        by_contra hc
        rcases Nat.lt_or_ge r p with h2 | h2
        · have := List.pairwise_iff_getElem.1 hl.sorted r p hr hp h2
          rw [hre, hpe] at this; omega
        · obtain rfl : p = r := by omega
          rw [hre] at hpe; subst hpe; omega
      exact hl.closed p y hpr (List.getElem?_eq_some_iff.2 ⟨hp, hpe⟩) x ⟨j, hj, e⟩
  intro x hx hle
  exact key _ x hx rfl hle

/-- Nothing is placed beyond the level of the children of `u`. -/
theorem CmCtx.top (h : CmCtx A s D N srt) {out : List Nat} {r u : Nat} (hl : CmList A s D out r) (hu : out[r]? = some u) :
    ∀ x ∈ out, D x ≤ D u + 1 := by
  intro x hx
  obtain ⟨q, hq, hqe⟩ := List.getElem_of_mem hx
  obtain ⟨hr, hre⟩ := List.getElem?_eq_some_iff.1 hu
  obtain ⟨F, hF⟩ := hl.firsts
  rcases Nat.eq_zero_or_pos q with e | e
  · subst e
    have := hl.zero
    rw [List.getElem?_eq_getElem hq, hqe] at this
    obtain rfl : x = s := by simpa using this
    have : D x = 0 := (h.dist x (.refl x)).unique isDist_zero
    omega
  · obtain ⟨h1, h2, v, y, h3, h4, h5, _⟩ := hF.first q e hq
    rw [List.getElem?_eq_getElem hq, hqe] at h4
    obtain rfl : x = y := by simpa using h4
    obtain ⟨hf, hfe⟩ := List.getElem?_eq_some_iff.1 h3
    have h6 := h.dist_le (hl.reach v (List.mem_of_getElem? h3)) h5
    have h7 := List.pairwise_iff_getElem.1 hl.sorted (F q) r hf hr h2
    rw [hfe, hre] at h7
    omega

theorem CmCtx.kids_mem (h : CmCtx A s D N srt) {out : List Nat} {u : Nat} (hu : Reaches A s u) (hnear : ∀ x, Reaches A s x → D x ≤ D u → x ∈ out)
    (x : Nat) : x ∈ cmKids A D srt out u ↔ x ∉ out ∧ Stores A u x := by
  have hum := h.lt hu
  unfold cmKids
  rw [(cmSorted_spec h.sorts A _).1.mem_iff, cmCol_mem]
  have hpm := h.wf.ptr_mono (show u ≤ u + 1 by omega) (show u + 1 ≤ A.m by omega)
  constructor
  · rintro ⟨i, h1, h2, h3, h4⟩
    unfold degree at h1
    exact ⟨h4, A.ptr u + i, ⟨hum, by omega, by omega⟩, h2⟩
  · rintro ⟨h1, j, ⟨_, h2, h3⟩, h4⟩
    unfold degree
    refine ⟨j - A.ptr u, by omega, by rw [show A.ptr u + (j - A.ptr u) = j by omega]; exact h4, ?_, h1⟩
    have hx : Stores A u x := ⟨j, ⟨hum, h2, h3⟩, h4⟩
    have h5 := h.dist_le hu hx
    have h6 : ¬ D x ≤ D u := fun hle => h1 (hnear x (hx.reaches hu) hle)
    omega

/-- The placed nodes are a beginning of the Cuthill–McKee order. -/
theorem CmCtx.outs (h : CmCtx A s D N srt) : ∀ r, r ≤ N.length → CmList A s D (cmOuts A s D srt r) r ∧ (r < N.length → r < (cmOuts A s D srt r).length) := by
  intro r
  induction r with
  | zero => intro hr; exact ⟨cmList_init, fun _ => by simp [cmOuts]⟩
  | succ r ih =>
    intro hr
    obtain ⟨h1, h2⟩ := ih (by omega)
    have hlen := h2 (by omega)
    have hu := List.getElem?_eq_getElem hlen
    generalize (cmOuts A s D srt r)[r] = u at hu
    have hnear := h.near h1 hu
    have hur := h1.reach u (List.mem_of_getElem? hu)
    have hstep := (h1.step h.dist hu hnear (h.top h1 hu) (C := cmKids A D srt (cmOuts A s D srt r) u)
      ((cmSorted_spec h.sorts A _).1.nodup_iff.2 (cmCol_nodup _)) (h.kids_mem hur hnear) (cmSorted_spec h.sorts A _).2.1).1
    have he : cmOuts A s D srt (r + 1) = cmOuts A s D srt r ++ cmKids A D srt (cmOuts A s D srt r) u := by
      show _ ++ _ = _
      rw [hu]
    rw [he]
    refine ⟨hstep, fun hlt => ?_⟩
    by_contra hc
    have hle : (cmOuts A s D srt r ++ cmKids A D srt (cmOuts A s D srt r) u).length = r + 1 := by
      have : (cmOuts A s D srt r).length ≤ (cmOuts A s D srt r ++ cmKids A D srt (cmOuts A s D srt r) u).length := by simp
      omega
    generalize cmOuts A s D srt r ++ cmKids A D srt (cmOuts A s D srt r) u = out at hstep hle
    -- the placed nodes are closed, so they are all
    have hall : ∀ d x, Walk A s x d → x ∈ out := by
      intro d x hw
      induction hw with
      | nil => exact List.mem_of_getElem? hstep.zero
      | snoc _ hj ih2 =>
        obtain ⟨p, hp, hpe⟩ := List.getElem_of_mem ih2
        exact hstep.closed p _ (by omega) (List.getElem?_eq_some_iff.2 ⟨hp, hpe⟩) _ ⟨_, hj, rfl⟩
    have := (List.subperm_of_subset h.nodup (fun x hx => by obtain ⟨d, hd⟩ := (h.mem x).1 hx; exact hall d x hd)).length_le
    omega

theorem cmOuts_prefix {r r' : Nat} (hr : r ≤ r') : cmOuts A s D srt r <+: cmOuts A s D srt r' := by
  induction hr with
  | refl => exact List.prefix_refl _
  | step _ ih => exact ih.trans (List.prefix_append _ _)

/-- The whole order. -/
def cmAll (A : Csr R) (s : Nat) (D : Nat → Nat) (N : List Nat) (srt : List (Int × Int) → List (Int × Int)) : List Nat := cmOuts A s D srt N.length

theorem CmCtx.outs_subperm (h : CmCtx A s D N srt) {r : Nat} (hr : r ≤ N.length) : (cmOuts A s D srt r).Subperm N :=
  List.subperm_of_subset (h.outs r hr).1.nodup (fun x hx => (h.mem x).2 ((h.outs r hr).1.reach x hx))

theorem CmCtx.all_length (h : CmCtx A s D N srt) : (cmAll A s D N srt).length = N.length := by
  have h1 := (h.outs_subperm (Nat.le_refl _)).length_le
  unfold cmAll
  rcases Nat.eq_zero_or_pos N.length with e | e
  · have := (h.mem s).2 (.refl s)
    rw [List.length_eq_zero_iff.1 e] at this
    cases this
  · have h2 := (h.outs (N.length - 1) (by omega)).2 (by omega)
    have h3 := (cmOuts_prefix (A := A) (s := s) (D := D) (srt := srt) (show N.length - 1 ≤ N.length by omega)).length_le
    omega

theorem CmCtx.all_list (h : CmCtx A s D N srt) : CmList A s D (cmAll A s D N srt) N.length := (h.outs _ (Nat.le_refl _)).1

theorem CmCtx.all_mem (h : CmCtx A s D N srt) (x : Nat) : x ∈ cmAll A s D N srt ↔ Reaches A s x := by
  have hp : (cmAll A s D N srt).Perm N := (h.outs_subperm (Nat.le_refl _)).perm_of_length_le (Nat.le_of_eq h.all_length.symm)
  rw [hp.mem_iff, h.mem]

/-- Number of nodes on levels below `l`. -/
def cmPf (D : Nat → Nat) (N : List Nat) (l : Nat) : Nat := N.countP (fun y => decide (D y < l))

theorem cmPf_mono {l l' : Nat} (h : l ≤ l') : cmPf D N l ≤ cmPf D N l' := by
  unfold cmPf
  refine List.countP_mono_left fun x _ hx => ?_
  simp only [decide_eq_true_eq] at *
  omega

theorem cmPf_le {l : Nat} : cmPf D N l ≤ N.length := List.countP_le_length

theorem cmPf_zero : cmPf D N 0 = 0 := by simp [cmPf]

/-- Positions and levels. -/
theorem CmCtx.pos_iff (h : CmCtx A s D N srt) {j x : Nat} (hj : (cmAll A s D N srt)[j]? = some x) (l : Nat) : D x < l ↔ j < cmPf D N l := by
  refine ⟨fun hx => h.all_list.pos_lt (fun x hx => (h.mem x).2 hx) hj hx, fun hlt => ?_⟩
  by_contra hc
  obtain ⟨hjl, hje⟩ := List.getElem?_eq_some_iff.1 hj
  have hp : (cmAll A s D N srt).Perm N := (h.outs_subperm (Nat.le_refl _)).perm_of_length_le (Nat.le_of_eq h.all_length.symm)
  have hcount : cmPf D N l = (cmAll A s D N srt).countP (fun y => decide (D y < l)) := (hp.countP_eq _).symm
  have hz : ((cmAll A s D N srt).drop j).countP (fun y => decide (D y < l)) = 0 := by
    rw [List.countP_eq_zero]
    intro y hy
    obtain ⟨i, hi, rfl⟩ := List.getElem_of_mem hy
    rw [List.length_drop] at hi
    rw [List.getElem_drop]
    simp only [decide_eq_true_eq]
    rcases Nat.eq_zero_or_pos i with e | e
    · subst e; simp only [Nat.add_zero]; rw [hje]; exact hc
    · have := List.pairwise_iff_getElem.1 h.all_list.sorted j (j + i) hjl (by omega) (by omega)
      rw [hje] at this; omega
  have hsplit := List.countP_append (p := fun y => decide (D y < l)) (l₁ := (cmAll A s D N srt).take j) (l₂ := (cmAll A s D N srt).drop j)
  rw [List.take_append_drop, hz] at hsplit
  have : ((cmAll A s D N srt).take j).countP (fun y => decide (D y < l)) ≤ ((cmAll A s D N srt).take j).length := List.countP_le_length
  rw [List.length_take] at this
  omega

theorem CmCtx.level_iff (h : CmCtx A s D N srt) {j x l : Nat} (hj : (cmAll A s D N srt)[j]? = some x) :
    D x = l ↔ cmPf D N l ≤ j ∧ j < cmPf D N (l + 1) := by
  have h1 := h.pos_iff hj l
  have h2 := h.pos_iff hj (l + 1)
  omega

theorem CmCtx.outs_get (h : CmCtx A s D N srt) {r j : Nat} (hr : r ≤ N.length) (hj : j < (cmOuts A s D srt r).length) :
    (cmOuts A s D srt r)[j]? = (cmAll A s D N srt)[j]? := by
  obtain ⟨t, ht⟩ := cmOuts_prefix (A := A) (s := s) (D := D) (srt := srt) hr
  show _ = (cmOuts A s D srt N.length)[j]?
  rw [← ht, List.getElem?_append_left hj]

/-- A node is placed by the time position `r` is reached iff it is among the first nodes. -/
theorem CmCtx.outs_mem (h : CmCtx A s D N srt) {r j x : Nat} (hr : r ≤ N.length) (hj : (cmAll A s D N srt)[j]? = some x) :
    x ∈ cmOuts A s D srt r ↔ j < (cmOuts A s D srt r).length := by
  constructor
  · intro hx
    obtain ⟨i, hi, hie⟩ := List.getElem_of_mem hx
    have h1 := h.outs_get hr hi
    rw [List.getElem?_eq_getElem hi, hie] at h1
    obtain ⟨hjl, hje⟩ := List.getElem?_eq_some_iff.1 hj
    obtain ⟨hil, hile⟩ := List.getElem?_eq_some_iff.1 h1.symm
    have : i = j := (List.nodup_iff_injective_get.1 h.all_list.nodup |> fun hinj => by
      have := @hinj ⟨i, hil⟩ ⟨j, hjl⟩ (by simp [hile, hje])
      simpa using this)
    omega
  · intro hlt
    have h1 := h.outs_get hr hlt
    rw [hj] at h1
    exact List.mem_of_getElem? h1

/-- When a level starts to be expanded, exactly the nodes up to this level are placed. -/
theorem CmCtx.outs_start (h : CmCtx A s D N srt) (l : Nat) : (cmOuts A s D srt (cmPf D N l)).length = cmPf D N (l + 1) := by
  have hle : cmPf D N l ≤ N.length := cmPf_le
  obtain ⟨h1, h2⟩ := h.outs (cmPf D N l) hle
  refine h1.length_eq h.nodup h.mem ?_
  intro x hx
  rcases Nat.lt_or_ge (cmPf D N l) N.length with hlt | hge
  · have hr := h2 hlt
    have hu := List.getElem?_eq_getElem hr
    generalize (cmOuts A s D srt (cmPf D N l))[cmPf D N l] = u at hu
    have hu' : (cmAll A s D N srt)[cmPf D N l]? = some u := by rw [← h.outs_get hle hr]; exact hu
    constructor
    · intro hxo
      obtain ⟨q, hq, hqe⟩ := List.getElem_of_mem hxo
      obtain ⟨F, hF⟩ := h1.firsts
      rcases Nat.eq_zero_or_pos q with e | e
      · subst e
        have := h1.zero
        rw [List.getElem?_eq_getElem hq, hqe] at this
        obtain rfl : x = s := by simpa using this
        have : D x = 0 := (h.dist x (.refl x)).unique isDist_zero
        omega
      · obtain ⟨g1, g2, v, y, g3, g4, g5, _⟩ := hF.first q e hq
        rw [List.getElem?_eq_getElem hq, hqe] at g4
        obtain rfl : x = y := by simpa using g4
        have hvl := (List.getElem?_eq_some_iff.1 g3).1
        rw [h.outs_get hle hvl] at g3
        have := (h.pos_iff g3 l).2 g2
        have g6 := h.dist_le ((h.all_mem v).1 (List.mem_of_getElem? g3)) g5
        omega
    · intro hd
      have : ¬ D u < l := fun hc => absurd ((h.pos_iff hu' l).1 hc) (Nat.lt_irrefl _)
      exact h.near h1 hu x hx (by omega)
  · have he : cmPf D N l = N.length := by omega
    have hall : ∀ y, Reaches A s y → y ∈ cmAll A s D N srt ∧ D y < l := by
      intro y hy
      have hm := (h.all_mem y).2 hy
      obtain ⟨j, hj, hje⟩ := List.getElem_of_mem hm
      refine ⟨hm, (h.pos_iff (List.getElem?_eq_some_iff.2 ⟨hj, hje⟩) l).2 ?_⟩
      rw [h.all_length] at hj; omega
    rw [he]
    exact ⟨fun _ => by have := (hall x hx).2; omega, fun _ => (hall x hx).1⟩

theorem CmCtx.outs_bounds (h : CmCtx A s D N srt) {l r : Nat} (h1 : cmPf D N l ≤ r) (h2 : r ≤ cmPf D N (l + 1)) :
    cmPf D N (l + 1) ≤ (cmOuts A s D srt r).length ∧ (cmOuts A s D srt r).length ≤ cmPf D N (l + 2) := by
  have a := (cmOuts_prefix (A := A) (s := s) (D := D) (srt := srt) h1).length_le
  have b := (cmOuts_prefix (A := A) (s := s) (D := D) (srt := srt) h2).length_le
  rw [h.outs_start] at a b
  exact ⟨a, b⟩

end SpMP
