import Verif.SchedExec
/-
Execution of a level schedule with a barrier after every task
(/repo/test/trsv_test.cpp:126-185 forwardSolveWithBarrier, backwardSolveWithBarrier; gs_test.cpp:114-183).
-/

set_option linter.unusedSectionVars false

namespace SpMP
open Spec

variable {R : Type} {S : Schedule} [Races CArr]

/-- Row loop of one task. -/
def runRows (body : Nat → Prog (CTy R) Unit) : List Nat → Prog (CTy R) Unit
  | [] => pure ()
  | r :: rs => do
    body r
    runRows body rs

/-- `n` phases starting with phase `l`: in each, every thread runs the rows of its task of that phase, then waits at
the barrier. -/
def barrierFrom (sz : CArr → Int) (T : Nat) (rowsAt : Nat → Nat → List Nat) (body : Nat → Prog (CTy R) Unit) :
    Nat → Nat → Script (CTy R) Unit
  | _, 0 => .done ()
  | l, n + 1 => .phase sz T (fun t => runRows body (rowsAt l t)) fun _ => barrierFrom sz T rowsAt body (l + 1) n

theorem sweep_char {V : Type} {f : Nat → (Nat → V) → V} {ord pos : Nat → Nat} {m : Nat} {y0 : Nat → V}
    (hord : ∀ k, k < m → ord k < m ∧ pos (ord k) = k) (hpos : ∀ r, r < m → pos r < m ∧ ord (pos r) = r) :
    ∀ k, k ≤ m → ∀ c, sweep f ord k y0 c =
      if c < m ∧ pos c < k then f c (sweep f ord (pos c) y0) else y0 c := by
  intro k
  induction k with
  | zero => intro _ c; simp [sweep]
  | succ k ih =>
    intro hk c
    simp only [sweep, updV]
    by_cases hc : c = ord k
    · subst hc
      have := hord k (by omega)
      rw [if_pos rfl, if_pos ⟨this.1, by omega⟩, this.2]
    · rw [if_neg hc, ih (by omega) c]
      by_cases h1 : c < m
      · have h2 : pos c ≠ k := by
          intro h; exact hc (by rw [← h]; exact (hpos c h1).2.symm)
        by_cases h3 : pos c < k
        · rw [if_pos ⟨h1, h3⟩, if_pos ⟨h1, by omega⟩]
        · rw [if_neg (by omega), if_neg (by omega)]
      · rw [if_neg (by omega), if_neg (by omega)]

/-- The kernel function depends only on the row's own entry and its stored neighbours. -/
def Local {V : Type} (m : Nat) (nbr : Nat → Nat → Prop) (f : Nat → (Nat → V) → V) : Prop :=
  ∀ r y y', r < m → y r = y' r → (∀ c, nbr r c → y c = y' c) → f r y = f r y'

theorem withY_ext {m0 : Mem (CTy R)} {n : Nat} {y y' : Nat → R} (h : ∀ i, i < n → y i = y' i) :
    withY m0 n y = withY m0 n y' := by
  funext a i
  by_cases hv1 : a = .vec 1
  · subst hv1
    simp only [withY]
    split
    · next h' => rw [h _ (by omega)]
    · rfl
  · rw [withY_other _ _ _ hv1, withY_other _ _ _ hv1]

theorem barrier_exec {sz : CArr → Int} {m0 : Mem (CTy R)} {T L m n : Nat} {nbr : Nat → Nat → Prop}
    {body : Nat → Prog (CTy R) Unit} {f : Nat → (Nat → R) → R} {ord pos ph : Nat → Nat} {y0 : Nat → R}
    {rowsAt : Nat → Nat → List Nat}
    (hmn : m ≤ n)
    (hord : ∀ k, k < m → ord k < m ∧ pos (ord k) = k) (hpos : ∀ r, r < m → pos r < m ∧ ord (pos r) = r)
    (hk : IsKernel sz m0 m n nbr body f) (hloc : Local m nbr f)
    (hrows : ∀ l t r, l < L → t < T → r ∈ rowsAt l t → r < m ∧ ph r = l)
    (hcover : ∀ r, r < m → ph r < L ∧ ∃ t, t < T ∧ r ∈ rowsAt (ph r) t)
    (hnodup : ∀ l t, l < L → t < T → (rowsAt l t).Nodup)
    (hdisj : ∀ l t u r, l < L → t < T → u < T → r ∈ rowsAt l t → r ∈ rowsAt l u → t = u)
    (hdep : ∀ q r, q < m → r < m → pos q < pos r → (nbr r q ∨ nbr q r) → ph q < ph r)
    (hy : ∀ i : Nat, i < n → m0 (.vec 1) (i : Int) = some (y0 i)) :
    (barrierFrom sz T rowsAt body 0 L).Ok m0 (fun _ m' => m' = withY m0 n (sweep f ord m y0)) := by
  have hch := sweep_char (f := f) (y0 := y0) hord hpos
  -- value of a row when its neighbours hold the right values
  have hval : ∀ r y, r < m → (y r = y0 r) → (∀ c, c ≠ r → nbr r c → y c = if c < m ∧ pos c < pos r then
      sweep f ord m y0 c else y0 c) → f r y = sweep f ord m y0 r := by
    intro r y hr h1 h2
    rw [hch m (Nat.le_refl _) r, if_pos ⟨hr, (hpos r hr).1⟩]
    refine hloc r _ _ hr ?_ ?_
    · rw [hch _ (Nat.le_of_lt (hpos r hr).1), if_neg (by omega), h1]
    · intro c hc
      rw [hch _ (Nat.le_of_lt (hpos r hr).1)]
      by_cases he : c = r
      · subst he; rw [if_neg (by omega), h1]
      · rw [h2 c he hc]
        by_cases h3 : c < m ∧ pos c < pos r
        · rw [if_pos h3, if_pos h3, hch m (Nat.le_refl _) c, if_pos ⟨h3.1, (hpos c h3.1).1⟩]
        · rw [if_neg h3, if_neg h3]
  have main : ∀ k l mm, l + k = L →
      mm = withY m0 n (fun c => if c < m ∧ ph c < l then sweep f ord m y0 c else y0 c) →
      (barrierFrom sz T rowsAt body l k).Ok mm (fun _ m' => m' = withY m0 n (sweep f ord m y0)) := by
    intro k
    induction k with
    | zero =>
      rintro l mm hl rfl
      show withY m0 n _ = _
      refine withY_ext ?_
      intro i hi
      by_cases him : i < m
      · rw [if_pos ⟨him, by have := (hcover i him).1; omega⟩]
      · rw [if_neg (by omega), hch m (Nat.le_refl _) i, if_neg (by omega)]
    | succ k ih =>
      rintro l mm hl rfl
      refine par_rule
        (W := fun t a i => ∃ r, r ∈ rowsAt l t ∧ rowW r a i)
        (R := fun t a i => ∃ r, r ∈ rowsAt l t ∧ rowR nbr r a i)
        (Q := fun t _ m' => m' = withY m0 n (fun c => if c ∈ rowsAt l t then sweep f ord m y0 c else
          if c < m ∧ ph c < l then sweep f ord m y0 c else y0 c)) ?_ ?_ ?_
        (by rintro t a i _ ⟨r, h1, h2, h3⟩; exact ⟨r, h1, Or.inr ⟨h2, r, h3, Or.inl rfl⟩⟩)
      · rintro t u a i ht hu htu ⟨q, hq, rfl, rfl⟩ h
        have hq1 := hrows l t q (by omega) ht hq
        have key : ∀ r, r ∈ rowsAt l u → r ≠ q → nbr r q → False := by
          intro r hr hne hn
          have hr1 := hrows l u r (by omega) hu hr
          rcases Nat.lt_trichotomy (pos q) (pos r) with h1 | h1 | h1
          · have := hdep q r hq1.1 hr1.1 h1 (Or.inl hn); omega
          · have e1 := (hpos q hq1.1).2
            have e2 := (hpos r hr1.1).2
            rw [h1] at e1; exact hne (e2.symm.trans e1)
          · have := hdep r q hr1.1 hq1.1 h1 (Or.inr hn); omega
        obtain ⟨r, hr, h1⟩ := h
        rcases h1 with ⟨h1, _⟩ | ⟨_, c, h1, h2⟩
        · exact h1 rfl
        · have e : c = q := by omega
          subst e
          by_cases he : c = r
          · subst he; exact htu (hdisj l t u c (by omega) ht hu hq hr)
          · exact key r hr (fun h => he h.symm) (h2.resolve_left he)
      · intro t ht
        have hnd := hnodup l t (by omega) ht
        have loop : ∀ rs done, rowsAt l t = done ++ rs →
            wp sz (fun a i => ∃ r, r ∈ rowsAt l t ∧ rowW r a i) (fun a i => ∃ r, r ∈ rowsAt l t ∧ rowR nbr r a i)
              (runRows body rs)
              (withY m0 n (fun c => if c ∈ done then sweep f ord m y0 c else
                if c < m ∧ ph c < l then sweep f ord m y0 c else y0 c))
              (fun _ m' => m' = withY m0 n (fun c => if c ∈ rowsAt l t then sweep f ord m y0 c else
                if c < m ∧ ph c < l then sweep f ord m y0 c else y0 c)) := by
          intro rs
          induction rs with
          | nil =>
            intro done hd
            unfold runRows
            rw [wp_pure, hd, List.append_nil]
          | cons r rs ihr =>
            intro done hd
            have hrm : r ∈ rowsAt l t := by rw [hd]; simp
            have hr1 := hrows l t r (by omega) ht hrm
            have hrd : r ∉ done := by
              intro hc
              rw [hd] at hnd
              have := (List.nodup_append.1 hnd).2.2 r hc r (by simp)
              exact this rfl
            unfold runRows
            rw [wp_bind]
            refine wp_mono (wp_relax (hk r hr1.1 _) ?_ ?_) ?_
            · intro a i h; exact ⟨r, hrm, h⟩
            · intro a i h; exact ⟨r, hrm, h⟩
            · rintro _ m' rfl
              have hv : f r (fun c => if c ∈ done then sweep f ord m y0 c else
                  if c < m ∧ ph c < l then sweep f ord m y0 c else y0 c) = sweep f ord m y0 r := by
                refine hval r _ hr1.1 ?_ ?_
                · show (if r ∈ done then _ else _) = _
                  rw [if_neg hrd, if_neg (by omega)]
                · intro c hne hn
                  show (if c ∈ done then _ else _) = _
                  by_cases hcm : c < m
                  · have hph : ph c ≠ l := by
                      intro hpc
                      rcases Nat.lt_trichotomy (pos c) (pos r) with h1 | h1 | h1
                      · have := hdep c r hcm hr1.1 h1 (Or.inl hn); omega
                      · have e1 := (hpos c hcm).2
                        have e2 := (hpos r hr1.1).2
                        rw [h1] at e1; exact hne (e1.symm.trans e2)
                      · have := hdep r c hr1.1 hcm h1 (Or.inr hn); omega
                    have hcd : c ∉ done := by
                      intro hc
                      have := hrows l t c (by omega) ht (by rw [hd]; exact List.mem_append_left _ hc)
                      exact hph this.2
                    rw [if_neg hcd]
                    rcases Nat.lt_trichotomy (pos c) (pos r) with h1 | h1 | h1
                    · have := hdep c r hcm hr1.1 h1 (Or.inl hn)
                      rw [if_pos ⟨hcm, by omega⟩, if_pos ⟨hcm, h1⟩]
                    · have e1 := (hpos c hcm).2
                      have e2 := (hpos r hr1.1).2
                      rw [h1] at e1; exact absurd (e1.symm.trans e2) hne
                    · have := hdep r c hr1.1 hcm h1 (Or.inr hn)
                      rw [if_neg (by omega), if_neg (by omega)]
                  · have hcd : c ∉ done := by
                      intro hc
                      have := hrows l t c (by omega) ht (by rw [hd]; exact List.mem_append_left _ hc)
                      exact hcm this.1
                    rw [if_neg hcd, if_neg (by omega), if_neg (by omega)]
              rw [hv]
              have := ihr (done ++ [r]) (by rw [hd]; simp)
              have e : withY m0 n (updV (fun c => if c ∈ done then sweep f ord m y0 c else
                  if c < m ∧ ph c < l then sweep f ord m y0 c else y0 c) r (sweep f ord m y0 r)) =
                  withY m0 n (fun c => if c ∈ done ++ [r] then sweep f ord m y0 c else
                  if c < m ∧ ph c < l then sweep f ord m y0 c else y0 c) := by
                refine withY_ext ?_
                intro i _
                simp only [updV, List.mem_append, List.mem_singleton]
                by_cases hi : i = r
                · subst hi; simp
                · simp [hi]
              rw [e]; exact this
        have := loop (rowsAt l t) [] (by simp)
        simpa using this
      · intro _ m' hq hf
        refine ih (l + 1) m' (by omega) ?_
        funext a i
        by_cases hv1 : a = .vec 1
        · subst hv1
          by_cases hi : 0 ≤ i ∧ i < m
          · obtain ⟨c, rfl⟩ := Int.eq_ofNat_of_zero_le hi.1
            have hcm : c < m := by omega
            rw [withY_vec _ _ _ (by omega)]
            by_cases hph : ph c = l
            · obtain ⟨_, t, ht, hct⟩ := hcover c hcm
              rw [hph] at hct
              obtain ⟨mt, h4, h5⟩ := hq t ht
              rw [h5 _ _ ⟨c, hct, Or.inr ⟨rfl, c, rfl, Or.inl rfl⟩⟩]
              have h4 : mt = _ := h4
              rw [h4, withY_vec _ _ _ (by omega), if_pos hct, if_pos ⟨hcm, by omega⟩]
            · rw [hf _ _ ?_, withY_vec _ _ _ (by omega)]
              · by_cases h1 : ph c < l
                · rw [if_pos ⟨hcm, h1⟩, if_pos ⟨hcm, by omega⟩]
                · rw [if_neg (by omega), if_neg (by omega)]
              · rintro t ht ⟨r, hr, _, he⟩
                have e : c = r := by omega
                subst e
                exact hph (hrows l t c (by omega) ht hr).2
          · rw [hf _ _ ?_]
            · simp only [withY]
              split
              · next h => rw [if_neg (by omega), if_neg (by omega)]
              · rfl
            · rintro t ht ⟨r, hr, _, he⟩
              have := (hrows l t r (by omega) ht hr).1
              omega
        · rw [hf a i (by rintro t _ ⟨r, _, h, _⟩; exact hv1 h), withY_other _ _ _ hv1, withY_other _ _ _ hv1]
  refine main L 0 m0 (by omega) ?_
  funext a i
  by_cases hv1 : a = .vec 1
  · subst hv1
    simp only [withY]
    split
    · next h =>
      obtain ⟨j, rfl⟩ := Int.eq_ofNat_of_zero_le h.1
      rw [hy j (by omega)]; simp
    · rfl
  · rw [withY_other _ _ _ hv1]

section
variable [Sub R] [Mul R] [Add R]

theorem rowUpdate_local (A : Csr R) (b idg : Nat → R) (u : Update) (rev : Bool) :
    Local A.m A.Nbr (rowUpdate A b idg u rev) := by
  intro r y y' hr h1 h2
  have hres : ∀ l : List Nat, (∀ j, j ∈ l → A.InRow r j) → ∀ s : R,
      l.foldl (fun s j => s - A.val j * y (A.col j)) s = l.foldl (fun s j => s - A.val j * y' (A.col j)) s := by
    intro l
    induction l with
    | nil => intros; rfl
    | cons j l ih =>
      intro hl s
      simp only [List.foldl_cons]
      rw [h2 (A.col j) ⟨j, hl j (by simp), rfl⟩]
      exact ih (fun j' h => hl j' (by simp [h])) _
  unfold rowUpdate residual
  rw [hres _ ?_, h1]
  intro j hj
  have hj : j ∈ rowPos A r := by
    cases rev
    · simpa using hj
    · simpa using hj
  unfold rowPos at hj
  rw [List.mem_range'_1] at hj
  exact ⟨hr, hj.1, by omega⟩

end

end SpMP
