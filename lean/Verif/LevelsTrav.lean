import Verif.LevelsMem
/-
Traversal of a level, by thread 0 alone and by the team.
-/

namespace SpMP
open Spec

set_option linter.unusedSectionVars false

variable {R : Type} [Races CArr]

section
variable {sz : CArr → Int} {m : Mem (CTy R)} {base : Nat} {A : Csr R} {dp ep : Nat → Nat} {hasExt : Bool} {T : Nat}

/-- The rows named by the entries right of the diagonal of row `r`, up to position `j`. -/
def upTo (A : Csr R) (dp : Nat → Nat) (r j : Nat) : List Nat :=
  ((List.range' (dp r + 1) (j - (dp r + 1))).map A.col).filter fun c => decide (c < A.m)

theorem upTo_start (A : Csr R) (dp : Nat → Nat) (r : Nat) : upTo A dp r (dp r + 1) = [] := by simp [upTo]

theorem upTo_end (A : Csr R) (dp ep : Nat → Nat) (r : Nat) : upTo A dp r (ep r) = upL A dp ep r := rfl

theorem upTo_snoc (A : Csr R) (dp : Nat → Nat) {r j : Nat} (h : dp r + 1 ≤ j) :
    upTo A dp r (j + 1) = upTo A dp r j ++ if A.col j < A.m then [A.col j] else [] := by
  unfold upTo
  rw [show j + 1 - (dp r + 1) = j - (dp r + 1) + 1 by omega, List.range'_1_concat, List.map_append, List.filter_append,
    show dp r + 1 + (j - (dp r + 1)) = j by omega]
  congr 1
  by_cases h : A.col j < A.m <;> simp [h]

theorem upTo_count_le (A : Csr R) (dp ep : Nat → Nat) {r j : Nat} (hj : j ≤ ep r) (h : dp r + 1 ≤ j) (s : Nat) :
    (upTo A dp r j).count s ≤ (upL A dp ep r).count s := by
  unfold upTo upL
  have : (List.range' (dp r + 1) (ep r - (dp r + 1))) = List.range' (dp r + 1) (j - (dp r + 1)) ++ List.range' j (ep r - j) := by
    have := List.range'_append_1 (s := dp r + 1) (m := j - (dp r + 1)) (n := ep r - j)
    rw [show dp r + 1 + (j - (dp r + 1)) = j by omega, show j - (dp r + 1) + (ep r - j) = ep r - (dp r + 1) by omega] at this
    exact this.symm
  rw [this, List.map_append, List.filter_append, List.count_append]
  omega

theorem upL_lt {r s : Nat} (h : s ∈ upL A dp ep r) : s < A.m := by
  unfold upL at h
  simpa using (List.mem_filter.mp h).2

/-! ### Serial -/

/-- State of the serial traversal after the edges to the rows `E`; the rows `q` were found. -/
structure SerInv (m : Mem (CTy R)) (base : Nat) (A : Csr R) (dp ep : Nat → Nat) (hasExt : Bool) (T : Nat) (n0 : Nat → Nat) (hi : Nat)
    (E q : List Nat) (m' : Mem (CTy R)) : Prop where
  mat : LvMem m' base A dp ep hasExt
  np : ∀ s : Nat, s < A.m → m' bufA (npOff T A.m + s) = some ((n0 s : Int) - E.count s)
  hq : HoldsQ m' 21 hi q
  rp : HoldsRP m' dp ep (rOff T A.m 0) q
  nodup : q.Nodup
  mem : ∀ s, s ∈ q ↔ s < A.m ∧ 0 < n0 s ∧ E.count s = n0 s
  frame : ∀ a i, a ≠ bufA → a ≠ revA → m' a i = m a i
  rev : ∀ i : Int, i < hi → m' revA i = m revA i

theorem wp_serRow {n0 : Nat → Nat} {lo hi : Nat} {r : Nat} (hs : SplitRows A dp ep) (hwf : A.WF) (hT : 1 ≤ T) (hr : r < A.m)
    (hszb : 4 * (lvMx T A.m : Int) + A.m ≤ sz bufA) (hszr : (A.m : Int) ≤ sz revA)
    (hroom : ∀ q : List Nat, q.Nodup → (∀ s ∈ q, s < A.m ∧ 0 < n0 s) → hi + q.length ≤ A.m)
    {E q : List Nat} {m' : Mem (CTy R)} (h : SerInv m base A dp ep hasExt T n0 hi E q m')
    (hcnt : ∀ s, s < A.m → (E ++ upL A dp ep r).count s ≤ n0 s) (hlo : lo = dp r + 1)
    {Q : Int → Mem (CTy R) → Prop}
    (hQ : ∀ q' m2, SerInv m base A dp ep hasExt T n0 hi (E ++ upL A dp ep r) q' m2 → Q (q'.length : Int) m2) :
    wp sz (fun _ _ => True) (fun _ _ => True) (Prog.forUp ((dp r : Int) + base + 1) ((ep r : Int) + base) (q.length : Int) fun j k => do
      let c ← Prog.read (ty := CTy R) (.colidx 0) (j - base)
      let succ := c - base
      if succ ≥ A.m then pure k else do
        let v ← Prog.read (ty := CTy R) bufA (npOff T A.m + succ)
        Prog.write (ty := CTy R) bufA (npOff T A.m + succ) (v - 1)
        Prog.assert (v - 1 ≥ 0)
        if v - 1 = 0 then do
          pushRow hasExt 21 (hi : Int) (rOff T A.m 0) k succ
          pure (k + 1)
        else pure k) m' Q := by
  have hb := hs.bounds r hr
  have g2 : (A.m : Int) ≤ lvMx T A.m ∧ 1 ≤ (lvMx T A.m : Int) := by have := lvMx_ge (T := T) (m := A.m) hT; omega
  have g3 := rOff_zero (T := T) (m := A.m)
  have g4 := npOff_eq (T := T) (m := A.m)
  have g5 : sz bufA = sz (.itmp 20) := rfl
  have g6 : sz revA = sz (.itmp 21) := rfl
  refine wp_forN (b := base) (lo := lo) (hi := ep r)
    (fun j k m2 => ∃ q' : List Nat, k = (q'.length : Int) ∧ SerInv m base A dp ep hasExt T n0 hi (E ++ upTo A dp r j) q' m2) (by omega) ?_ ?_ ?_
    (by omega) rfl
  · refine ⟨q, rfl, ?_⟩
    rw [hlo, upTo_start, List.append_nil]; exact h
  · rintro j k m2 h1 h2 ⟨q', rfl, hI⟩
    rw [upTo_snoc A dp (by omega)]
    have hjn : j < A.nnz := Nat.lt_of_lt_of_le (show j < A.ptr (r + 1) by omega) (hwf.ptr_le_nnz (by omega))
    have hcol : m2 (.colidx 0) ((j : Int) + base - base) = some ((A.col j : Int) + base) := by
      rw [Int.add_sub_cancel]; exact hI.mat.pat.colidx j hjn
    refine wp_rd _ trivial hcol ?_
    dsimp only
    have hsub : ((A.col j : Int) + base - base : Int) = A.col j := by omega
    rw [hsub]
    by_cases hlt : A.col j < A.m
    · have hnge : ¬ ((A.col j : Int) ≥ A.m) := by omega
      rw [if_neg hnge, if_pos hlt, ← List.append_assoc]
      generalize hEE : E ++ upTo A dp r j = E1 at hI ⊢
      generalize hss : A.col j = s at hlt ⊢
      have hc1 : (E1 ++ [s]).count s ≤ n0 s := by
        refine Nat.le_trans ?_ (hcnt s hlt)
        have h3 := upTo_count_le A dp ep (r := r) (j := j + 1) (by omega) (by omega) s
        rw [upTo_snoc A dp (by omega), hss, if_pos hlt] at h3
        rw [← hEE]
        simp only [List.count_append] at h3 ⊢
        omega
      have hc2 : (E1 ++ [s]).count s = E1.count s + 1 := by rw [List.count_append]; simp
      have hc3 : ∀ x, x ≠ s → (E1 ++ [s]).count x = E1.count x := by
        intro x hx; rw [List.count_append]; simp [Ne.symm hx]
      refine wp_rd _ trivial (hI.np s hlt) ?_
      refine wp_wr trivial ⟨by omega, by omega⟩ ?_
      rw [wp_bind, wp_assert]
      refine ⟨?_, ?_⟩
      · show (n0 s : Int) - E1.count s - 1 ≥ 0
        omega
      generalize hm3 : m2.set bufA (npOff T A.m + s) ((n0 s : Int) - E1.count s - 1) = m3
      have hfr : ∀ a i, ¬ (a = bufA ∧ i = npOff T A.m + s) → m3 a i = m2 a i := by
        intro a i hne
        rw [← hm3]
        rcases Mem.set_cases m2 bufA (npOff T A.m + s) ((n0 s : Int) - E1.count s - 1) a i with ⟨rfl, rfl⟩ | h3
        · exact absurd ⟨rfl, rfl⟩ hne
        · exact h3
      have hmat : LvMem m3 base A dp ep hasExt := hI.mat.congr (fun a i ha => hfr a i (by rintro ⟨rfl, _⟩; simp [MatCell] at ha))
      have hnp : ∀ x : Nat, x < A.m → m3 bufA (npOff T A.m + x) = some ((n0 x : Int) - (E1 ++ [s]).count x) := by
        intro x hx
        by_cases hxs : x = s
        · subst hxs
          rw [← hm3, Mem.get_same, hc2]
          have : (n0 x : Int) - E1.count x - 1 = (n0 x : Int) - ((E1.count x + 1 : Nat) : Int) := by omega
          exact congrArg some this
        · rw [hfr _ _ (by rintro ⟨_, h5⟩; omega), hc3 x hxs]; exact hI.np x hx
      have hql : ∀ x : List Nat, x.Nodup → (∀ s ∈ x, s < A.m ∧ 0 < n0 s) → hi + x.length ≤ A.m := hroom
      have hqm : ∀ x ∈ q', x < A.m ∧ 0 < n0 x := fun x hx => ⟨((hI.mem x).1 hx).1, ((hI.mem x).1 hx).2.1⟩
      have hlen := hql q' hI.nodup hqm
      have hq3 : HoldsQ m3 21 hi q' := hI.hq.congr (fun i _ _ => hfr _ _ (by rintro ⟨h5, _⟩; simp at h5))
      have hr3 : HoldsRP m3 dp ep (rOff T A.m 0) q' := hI.rp.congr (fun i h3 h4 => hfr _ _ (by rintro ⟨_, h5⟩; omega))
      have hrev3 : ∀ i : Int, i < hi → m3 revA i = m revA i := fun i h3 => (hfr _ _ (by rintro ⟨h5, _⟩; simp at h5)).trans (hI.rev i h3)
      by_cases hz : (n0 s : Int) - E1.count s - 1 = 0
      · have hsq : s ∉ q' := fun hc => by have := ((hI.mem s).1 hc).2.2; omega
        have hnd : (q' ++ [s]).Nodup := by
          rw [List.nodup_append]
          refine ⟨hI.nodup, by simp, ?_⟩
          rintro a ha b hb rfl
          exact hsq (List.mem_singleton.mp hb ▸ ha)
        have hqm' : ∀ x ∈ q' ++ [s], x < A.m ∧ 0 < n0 x := by
          intro x hx
          rcases List.mem_append.mp hx with hx | hx
          · exact hqm x hx
          · rw [List.mem_singleton.mp hx]; exact ⟨hlt, by omega⟩
        have hlen' := hql (q' ++ [s]) hnd hqm'
        rw [List.length_append, List.length_singleton] at hlen'
        rw [if_pos hz, wp_bind]
        refine wp_pushRow hmat (fun _ _ _ => trivial) hlt hq3 hr3 (fun h => by omega) trivial trivial trivial ⟨by omega, by omega⟩
          ⟨by omega, by omega⟩ (fun h => by omega) ?_
        intro m4 k1 k2 k3 k4
        rw [wp_pure]
        refine ⟨q' ++ [s], by simp, k3, ?_, k1, k2, hnd, ?_, ?_, ?_⟩
        · intro x hx
          rw [k4 _ _ (by rintro ⟨h5, _⟩; simp at h5) (by rintro ⟨_, h5⟩; omega)]
          exact hnp x hx
        · intro x
          rw [List.mem_append, List.mem_singleton]
          by_cases hxs : x = s
          · subst hxs
            constructor
            · intro _; exact ⟨hlt, by omega, by omega⟩
            · intro _; exact Or.inr rfl
          · rw [hc3 x hxs, ← hI.mem x]
            exact ⟨fun h => h.resolve_right hxs, Or.inl⟩
        · intro a i ha hb
          rw [k4 _ _ (by rintro ⟨h5, _⟩; exact hb h5) (by rintro ⟨h5, _⟩; exact ha h5), hfr _ _ (by rintro ⟨h5, _⟩; exact ha h5)]
          exact hI.frame a i ha hb
        · intro i h3
          rw [k4 _ _ (by rintro ⟨_, h5⟩; omega) (by rintro ⟨h5, _⟩; simp at h5)]
          exact hrev3 i h3
      · rw [if_neg hz, wp_pure]
        refine ⟨q', rfl, hmat, hnp, hq3, hr3, hI.nodup, ?_, ?_, hrev3⟩
        · intro x
          by_cases hxs : x = s
          · subst hxs
            rw [hI.mem]
            constructor
            · rintro ⟨_, _, h3⟩; omega
            · rintro ⟨_, _, h3⟩; omega
          · rw [hc3 x hxs]; exact hI.mem x
        · intro a i ha hb
          rw [hfr _ _ (by rintro ⟨h5, _⟩; exact ha h5)]
          exact hI.frame a i ha hb
    · have hge : ((A.col j : Int) ≥ A.m) := by omega
      rw [if_pos hge, if_neg hlt, List.append_nil, wp_pure]
      exact ⟨q', rfl, hI⟩
  · rintro k m2 ⟨q', rfl, hI⟩
    rw [upTo_end] at hI
    exact hQ q' m2 hI

theorem wp_traverseSerial {n0 : Nat → Nat} {lo : Nat} {cur : List Nat} (hs : SplitRows A dp ep) (hwf : A.WF) (hT : 1 ≤ T)
    (hszb : 4 * (lvMx T A.m : Int) + A.m ≤ sz bufA) (hszr : (A.m : Int) ≤ sz revA) (hlt : ∀ r ∈ cur, r < A.m)
    (hroom : ∀ q : List Nat, q.Nodup → (∀ s ∈ q, s < A.m ∧ 0 < n0 s) → lo + cur.length + q.length ≤ A.m)
    (hmat : LvMem m base A dp ep hasExt) (hrev : HoldsQ m 21 lo cur)
    (hnp : ∀ s : Nat, s < A.m → m bufA (npOff T A.m + s) = some (n0 s : Int))
    (hcnt : ∀ s, s < A.m → (cur.flatMap (upL A dp ep)).count s ≤ n0 s)
    {Q : Int × Int → Mem (CTy R) → Prop}
    (hQ : ∀ q' m2, SerInv m base A dp ep hasExt T n0 (lo + cur.length) (cur.flatMap (upL A dp ep)) q' m2 → Q ((q'.length : Int), wS dp ep q') m2) :
    wp sz (fun _ _ => True) (fun _ _ => True) (traverseSerial hasExt base T A.m (lo : Int) ((lo : Int) + cur.length)) m Q := by
  have g2 : (A.m : Int) ≤ lvMx T A.m ∧ 1 ≤ (lvMx T A.m : Int) := by have := lvMx_ge (T := T) (m := A.m) hT; omega
  have g3 := rOff_zero (T := T) (m := A.m)
  have g4 := npOff_eq (T := T) (m := A.m)
  unfold traverseSerial
  refine wp_wr trivial ⟨by omega, by omega⟩ ?_
  rw [wp_bind]
  refine wp_forN (b := lo) (lo := 0) (hi := cur.length)
    (fun x k m2 => ∃ q : List Nat, k = (q.length : Int) ∧
      SerInv m base A dp ep hasExt T n0 (lo + cur.length) ((cur.take x).flatMap (upL A dp ep)) q m2) (by omega) ?_ ?_ ?_ (by omega) (by omega)
  · refine ⟨[], rfl, ?_, ?_, ?_, ?_, by simp, ?_, ?_, ?_⟩
    · refine hmat.congr ?_
      intro a i ha
      rw [Mem.set_other _ _ _ _ _ (by rintro rfl; simp [MatCell] at ha)]
    · intro s hsm
      rw [Mem.get_ne _ _ _ _ _ (by omega), hnp s hsm]; simp
    · intro x s hx; simp at hx
    · intro x hx
      have : x = 0 := by simpa using hx
      subst this
      rw [show rOff T A.m 0 + ((0 : Nat) : Int) = rOff T A.m 0 by omega, Mem.get_same]; rfl
    · intro s; simp; omega
    · intro a i ha _; rw [Mem.set_other _ _ _ _ _ ha]
    · intro i _; rw [Mem.set_other _ _ _ _ _ (by simp)]
  · rintro x k m2 _ hx ⟨q, rfl, hI⟩
    have hxr : cur[x]? = some cur[x] := List.getElem?_eq_getElem hx
    have hval : m2 revA ((x : Int) + lo) = some ((cur[x] : Nat) : Int) := by
      rw [hI.rev _ (by push_cast; omega), show (x : Int) + lo = lo + x by omega]
      exact hrev x _ hxr
    have hr := hlt _ (List.getElem_mem hx)
    generalize cur[x] = r at hxr hval hr
    refine wp_rd _ trivial hval ?_
    refine wp_rd _ trivial (hI.mat.diag r hr).2.2 ?_
    rw [wp_bind]
    refine wp_extAt hI.mat (fun _ _ _ => trivial) hr ?_
    have htk : (cur.take (x + 1)).flatMap (upL A dp ep) = (cur.take x).flatMap (upL A dp ep) ++ upL A dp ep r := by
      rw [List.take_add_one, hxr, List.flatMap_append]; simp
    have hcast : ((lo : Int) + cur.length) = ((lo + cur.length : Nat) : Int) := by omega
    rw [hcast]
    refine wp_serRow hs hwf hT hr hszb hszr hroom hI ?_ rfl ?_
    · intro s hsm
      rw [← htk]
      refine Nat.le_trans ?_ (hcnt s hsm)
      have : cur.flatMap (upL A dp ep) = (cur.take (x + 1)).flatMap (upL A dp ep) ++ (cur.drop (x + 1)).flatMap (upL A dp ep) := by
        rw [← List.flatMap_append, List.take_append_drop]
      rw [this, List.count_append]; omega
    · intro q' m3 h3
      rw [← htk] at h3
      exact ⟨q', rfl, h3⟩
  · rintro k m2 ⟨q, rfl, hI⟩
    rw [List.take_length] at hI
    refine wp_rd _ trivial hI.rp.last ?_
    rw [wp_pure]
    exact hQ q m2 hI

/-! ### Parallel -/

/-- The cells of the parent counters. -/
def NpCell (T m : Nat) (a : CArr) (i : Int) : Prop := a = bufA ∧ npOff T m ≤ i ∧ i < npOff T m + m

/-- What the traversing threads read besides their own queue. -/
def TrRd (T m tid : Nat) (a : CArr) (i : Int) : Prop := MatCell a ∨ a = revA ∨ OwnQ T m tid a i

theorem OwnQ.not_np {T m tid : Nat} (htid : tid < T) {a : CArr} {i : Int} (h : OwnQ T m tid a i) : ¬ NpCell T m a i := by
  have g2 := qOff_le (m := m) htid
  have g3 := rOff_eq (T := T) (m := m) tid
  have g4 := npOff_eq (T := T) (m := m)
  rintro ⟨_, h2, h3⟩
  rcases h with ⟨_, h | h⟩ <;> omega

theorem TrRd.not_np {T m tid : Nat} (htid : tid < T) {a : CArr} {i : Int} (h : TrRd T m tid a i) : ¬ NpCell T m a i := by
  rcases h with h | rfl | h
  · rintro ⟨rfl, _⟩; simp [MatCell] at h
  · rintro ⟨h, _⟩; simp at h
  · exact h.not_np htid

/-- State of one traversing thread after the edges to the rows `E`: the rows `q` were found, `tr` are its shared accesses, `b` is the
conjunction of its assertions. -/
structure TrInv (m : Mem (CTy R)) (base : Nat) (A : Csr R) (dp ep : Nat → Nat) (hasExt : Bool) (T tid : Nat)
    (E q : List Nat) (b : Bool) (tr : List (Ev (CTy R))) (m' : Mem (CTy R)) : Prop where
  mat : LvMem m' base A dp ep hasExt
  dec : tr.filterMap decAt = E.map fun s : Nat => npOff T A.m + s
  won : tr.filterMap wonAt = q.map fun s : Nat => npOff T A.m + s
  flag : (∀ e ∈ tr, ∀ i o : Int, e = ⟨bufA, i, o, o⟩ → 0 ≤ o) → b = true
  hq : HoldsQ m' 20 (qOff T A.m tid) q
  rp : HoldsRP m' dp ep (rOff T A.m tid) q
  lt : ∀ s ∈ q, s < A.m
  room : q.length < lvCap T A.m
  frame : ∀ a i, a ≠ bufA → m' a i = m a i

theorem wpA_travRow {Ad : List (Ev (CTy R)) → Prop} {lo tid : Nat} {r : Nat} (hs : SplitRows A dp ep) (hwf : A.WF) (htid : tid < T) (hr : r < A.m)
    (hszb : 4 * (lvMx T A.m : Int) + A.m ≤ sz bufA)
    (hroom : ∀ tr, Ad tr → (tr.filterMap wonAt).length < lvCap T A.m)
    {E q : List Nat} {b : Bool} {tr : List (Ev (CTy R))} {m' : Mem (CTy R)} (h : TrInv m base A dp ep hasExt T tid E q b tr m')
    (hlo : lo = dp r + 1)
    {Q : Int × Bool → List (Ev (CTy R)) → Mem (CTy R) → Prop}
    (hQ : ∀ q' b' tr' m2, TrInv m base A dp ep hasExt T tid (E ++ upL A dp ep r) q' b' tr' m2 → Q ((q'.length : Int), b') tr' m2) :
    wpA sz (OwnQ T A.m tid) (TrRd T A.m tid) (NpCell T A.m) EvOk Ad (Prog.forUp ((dp r : Int) + base + 1) ((ep r : Int) + base) ((q.length : Int), b) fun j s => do
      let c ← Prog.read (ty := CTy R) (.colidx 0) (j - base)
      let succ := c - base
      if succ ≥ A.m then pure s else do
        let old ← Prog.atomic (ty := CTy R) bufA (npOff T A.m + succ) (fun v => v - 1)
        let k ← (if old = 1 then do
          pushRow hasExt 20 (qOff T A.m tid) (rOff T A.m tid) s.1 succ
          pure (s.1 + 1)
        else pure s.1 : Prog (CTy R) Int)
        let now ← Prog.read (ty := CTy R) bufA (npOff T A.m + succ)
        pure (k, s.2 && decide (now ≥ 0))) m' tr Q := by
  have hb := hs.bounds r hr
  have hT : 1 ≤ T := by omega
  have g1 := qOff_nonneg (T := T) (m := A.m) tid
  have g2 := qOff_le (m := A.m) htid
  have g3 := rOff_eq (T := T) (m := A.m) tid
  have g4 := npOff_eq (T := T) (m := A.m)
  have g5 : sz bufA = sz (.itmp 20) := rfl
  have g6 : (A.m : Int) ≤ lvMx T A.m ∧ 1 ≤ (lvMx T A.m : Int) := by have := lvMx_ge (T := T) (m := A.m) hT; omega
  refine wpA_forN (b := base) (lo := lo) (hi := ep r)
    (fun j s tr2 m2 => ∃ q' : List Nat, s.1 = (q'.length : Int) ∧ TrInv m base A dp ep hasExt T tid (E ++ upTo A dp r j) q' s.2 tr2 m2) (by omega) ?_ ?_ ?_
    (by omega) rfl
  · refine ⟨q, rfl, ?_⟩
    rw [hlo, upTo_start, List.append_nil]; exact h
  · rintro j ⟨k, b2⟩ tr2 m2 h1 h2 ⟨q', hk, hI⟩
    have hk : k = (q'.length : Int) := hk
    subst hk
    rw [upTo_snoc A dp (by omega)]
    have hjn : j < A.nnz := Nat.lt_of_lt_of_le (show j < A.ptr (r + 1) by omega) (hwf.ptr_le_nnz (by omega))
    have hcol : m2 (.colidx 0) ((j : Int) + base - base) = some ((A.col j : Int) + base) := by
      rw [Int.add_sub_cancel]; exact hI.mat.pat.colidx j hjn
    refine wpA_rd _ (by rintro ⟨h, _⟩; simp at h) (Or.inl (by simp [MatCell])) hcol ?_
    dsimp only
    have hsub : ((A.col j : Int) + base - base : Int) = A.col j := by omega
    rw [hsub]
    by_cases hlt : A.col j < A.m
    · have hnge : ¬ ((A.col j : Int) ≥ A.m) := by omega
      rw [if_neg hnge, if_pos hlt, ← List.append_assoc]
      have hI : TrInv m base A dp ep hasExt T tid (E ++ upTo A dp r j) q' b2 tr2 m2 := hI
      generalize E ++ upTo A dp r j = E1 at hI ⊢
      generalize A.col j = s at hlt ⊢
      have hS : NpCell T A.m bufA (npOff T A.m + s) := ⟨rfl, by omega, by omega⟩
      refine wpA_at hS ⟨by omega, by omega⟩ ?_
      intro v
      refine ⟨⟨_, v, (v : Int) - 1, rfl, Or.inr rfl⟩, fun hadm => ?_⟩
      have hroom1 := hroom _ hadm
      have hne : ¬ ((v : Int) - 1 = v) := by have : ∀ x : Int, ¬ (x - 1 = x) := fun x => by omega
                                             exact this v
      have hd1 : decAt (R := R) ⟨bufA, npOff T A.m + s, v, (v : Int) - 1⟩ = some (npOff T A.m + s) := by
        show (if (v : Int) - 1 = v then none else some _) = _
        rw [if_neg hne]
      have hrdA : ∀ (x : Int), decAt (R := R) ⟨bufA, npOff T A.m + s, x, x⟩ = none := by
        intro x; show (if x = x then none else some _) = _; rw [if_pos rfl]
      have hrdW : ∀ (x : Int), wonAt (R := R) ⟨bufA, npOff T A.m + s, x, x⟩ = none := by
        intro x; show (if x ≠ x ∧ x = 1 then some _ else none) = _; rw [if_neg (fun h => h.1 rfl)]
      -- the rest after the conditional push
      have hrest : ∀ (q2 : List Nat) (m3 : Mem (CTy R)),
          TrInv m base A dp ep hasExt T tid (E1 ++ [s]) q2 b2 (tr2 ++ [(⟨bufA, npOff T A.m + s, v, (v : Int) - 1⟩ : Ev (CTy R))]) m3 →
          wpA sz (OwnQ T A.m tid) (TrRd T A.m tid) (NpCell T A.m) EvOk Ad (do
            let now ← Prog.read (ty := CTy R) bufA (npOff T A.m + s)
            pure ((q2.length : Int), b2 && decide (now ≥ 0))) m3 (tr2 ++ [(⟨bufA, npOff T A.m + s, v, (v : Int) - 1⟩ : Ev (CTy R))])
            (fun s' tr' m' => ∃ q' : List Nat, s'.1 = (q'.length : Int) ∧ TrInv m base A dp ep hasExt T tid (E1 ++ [s]) q' s'.2 tr' m') := by
        intro q2 m3 hI3
        refine wpA_rdS hS ?_
        intro w
        refine ⟨⟨_, w, w, rfl, Or.inl rfl⟩, fun _ => wpA_pure ⟨q2, rfl, hI3.mat, ?_, ?_, ?_, hI3.hq, hI3.rp, hI3.lt, hI3.room, hI3.frame⟩⟩
        · rw [List.filterMap_append, hI3.dec, List.filterMap_cons_none (hrdA w)]; simp
        · rw [List.filterMap_append, hI3.won, List.filterMap_cons_none (hrdW w)]; simp
        · intro hall
          have e1 := hI3.flag (fun e he => hall e (List.mem_append_left _ he))
          have e2 : (0 : Int) ≤ w := hall _ (List.mem_append_right _ (List.mem_singleton.mpr rfl)) _ _ rfl
          show (b2 && decide ((w : Int) ≥ 0)) = true
          rw [e1, Bool.true_and, decide_eq_true_iff]
          exact e2
      have hdec : (tr2 ++ [(⟨bufA, npOff T A.m + s, v, (v : Int) - 1⟩ : Ev (CTy R))]).filterMap decAt = (E1 ++ [s]).map fun s : Nat => npOff T A.m + s := by
        rw [List.filterMap_append, hI.dec, List.filterMap_cons_some hd1]; simp
      have hflag : (∀ e ∈ tr2 ++ [(⟨bufA, npOff T A.m + s, v, (v : Int) - 1⟩ : Ev (CTy R))], ∀ i o : Int, e = ⟨bufA, i, o, o⟩ → 0 ≤ o) → b2 = true :=
        fun hall => hI.flag (fun e he => hall e (List.mem_append_left _ he))
      by_cases hv1 : (v : Int) = 1
      · have hw1 : wonAt (R := R) ⟨bufA, npOff T A.m + s, v, (v : Int) - 1⟩ = some (npOff T A.m + s) := by
          show (if (v : Int) - 1 ≠ v ∧ (v : Int) = 1 then some _ else none) = _
          rw [if_pos ⟨hne, hv1⟩]
        have hwon : (tr2 ++ [(⟨bufA, npOff T A.m + s, v, (v : Int) - 1⟩ : Ev (CTy R))]).filterMap wonAt = (q' ++ [s]).map fun s : Nat => npOff T A.m + s := by
          rw [List.filterMap_append, hI.won, List.filterMap_cons_some hw1]; simp
        rw [hwon, List.length_map, List.length_append, List.length_singleton] at hroom1
        rw [if_pos hv1]
        have hpush : wp sz (OwnQ T A.m tid) (TrRd T A.m tid) (pushRow hasExt 20 (qOff T A.m tid) (rOff T A.m tid) (q'.length : Int) (s : Int)) m2
            (fun _ m4 => HoldsQ m4 20 (qOff T A.m tid) (q' ++ [s]) ∧ HoldsRP m4 dp ep (rOff T A.m tid) (q' ++ [s]) ∧
              LvMem m4 base A dp ep hasExt ∧ ∀ a i, a ≠ bufA → m4 a i = m2 a i) := by
          refine wp_pushRow (W := OwnQ T A.m tid) (Rd := TrRd T A.m tid) (j := 20) (qb := qOff T A.m tid) (rb := rOff T A.m tid) hI.mat
            (fun a i h => Or.inl h) hlt hI.hq hI.rp (fun _ => by omega)
            ⟨rfl, Or.inl ⟨by omega, by omega⟩⟩ ⟨rfl, Or.inr ⟨by omega, by omega⟩⟩ (Or.inr (Or.inr ⟨rfl, Or.inr ⟨by omega, by omega⟩⟩))
            ⟨by omega, by omega⟩ ⟨by omega, by omega⟩ (fun _ => by omega) ?_
          intro m4 k1 k2 k3 k4
          refine ⟨k1, k2, k3, ?_⟩
          intro a i ha
          exact k4 a i (fun h => ha h.1) (fun h => ha h.1)
        refine wpA_bind (wpA_bind (wpA_mono (wpA_of_wp (fun a i h => h.not_np htid) (fun a i h => h.not_np htid) hpush) ?_))
        · rintro _ tr4 m4 ⟨rfl, k1, k2, k3, k4⟩
          refine wpA_pure ?_
          have := hrest (q' ++ [s]) m4 ⟨k3, hdec, hwon, hflag, k1, k2, ?_, by simpa using hroom1, fun a i ha => (k4 a i ha).trans (hI.frame a i ha)⟩
          · rw [List.length_append, List.length_singleton, Int.natCast_add] at this
            exact this
          · intro x hx
            rcases List.mem_append.mp hx with hx | hx
            · exact hI.lt x hx
            · rw [List.mem_singleton.mp hx]; exact hlt
      · have hw1 : wonAt (R := R) ⟨bufA, npOff T A.m + s, v, (v : Int) - 1⟩ = none := by
          show (if (v : Int) - 1 ≠ v ∧ (v : Int) = 1 then some _ else none) = _
          rw [if_neg (fun h => hv1 h.2)]
        rw [if_neg hv1]
        refine wpA_bind (wpA_pure ?_)
        refine hrest q' m2 ⟨hI.mat, hdec, ?_, hflag, hI.hq, hI.rp, hI.lt, hI.room, hI.frame⟩
        rw [List.filterMap_append, hI.won, List.filterMap_cons_none hw1]; simp
    · have hge : ((A.col j : Int) ≥ A.m) := by omega
      rw [if_pos hge, if_neg hlt, List.append_nil]
      exact wpA_pure ⟨q', rfl, hI⟩
  · rintro ⟨k, b'⟩ tr2 m2 ⟨q', hk, hI⟩
    have hk : k = (q'.length : Int) := hk
    subst hk
    rw [upTo_end] at hI
    exact hQ q' b' tr2 m2 hI

theorem wpA_traverse {Ad : List (Ev (CTy R)) → Prop} {lo tid : Nat} {sl : List Nat} (hs : SplitRows A dp ep) (hwf : A.WF) (htid : tid < T)
    (hszb : 4 * (lvMx T A.m : Int) + A.m ≤ sz bufA) (hlt : ∀ r ∈ sl, r < A.m)
    (hroom : ∀ tr, Ad tr → (tr.filterMap wonAt).length < lvCap T A.m)
    (hmat : LvMem m base A dp ep hasExt) (hrev : HoldsQ m 21 lo sl)
    {Q : Int × Int × Bool → List (Ev (CTy R)) → Mem (CTy R) → Prop}
    (hQ : ∀ q' b' tr' m2, TrInv m base A dp ep hasExt T tid (sl.flatMap (upL A dp ep)) q' b' tr' m2 →
      Q ((q'.length : Int), wS dp ep q', b') tr' m2) {hi : Int} (hhi : hi = (lo : Int) + sl.length) :
    wpA sz (OwnQ T A.m tid) (TrRd T A.m tid) (NpCell T A.m) EvOk Ad (traverse hasExt base T A.m (lo : Int) hi tid) m [] Q := by
  have hT : 1 ≤ T := by omega
  have g1 := qOff_nonneg (T := T) (m := A.m) tid
  have g2 := qOff_le (m := A.m) htid
  have g3 := rOff_eq (T := T) (m := A.m) tid
  have g4 := npOff_eq (T := T) (m := A.m)
  have g5 := lvCap_T (T := T) (m := A.m)
  have g6 : (A.m : Int) ≤ lvMx T A.m ∧ 1 ≤ (lvMx T A.m : Int) := by have := lvMx_ge (T := T) (m := A.m) hT; omega
  have g7 : 1 ≤ lvCap T A.m := by have := lvCap_chunk (m := A.m) hT (Nat.zero_le _); omega
  unfold traverse
  have hown : OwnQ T A.m tid bufA (rOff T A.m tid) := ⟨rfl, Or.inr ⟨by omega, by omega⟩⟩
  refine wpA_wr (hown.not_np htid) hown ⟨by omega, by omega⟩ ?_
  refine wpA_bind ?_
  refine wpA_forN (b := lo) (lo := 0) (hi := sl.length)
    (fun x s tr2 m2 => ∃ q : List Nat, s.1 = (q.length : Int) ∧
      TrInv m base A dp ep hasExt T tid ((sl.take x).flatMap (upL A dp ep)) q s.2 tr2 m2) (by omega) ?_ ?_ ?_ (by omega) (by omega)
  · refine ⟨[], rfl, ?_, by simp, by simp, by simp, ?_, ?_, by simp, by simp; omega, ?_⟩
    · refine hmat.congr ?_
      intro a i ha
      rw [Mem.set_other _ _ _ _ _ (by rintro rfl; simp [MatCell] at ha)]
    · intro x s hx; simp at hx
    · intro x hx
      have : x = 0 := by simpa using hx
      subst this
      rw [show rOff T A.m tid + ((0 : Nat) : Int) = rOff T A.m tid by omega, Mem.get_same]; rfl
    · intro a i ha; rw [Mem.set_other _ _ _ _ _ ha]
  · rintro x ⟨k, b2⟩ tr2 m2 _ hx ⟨q, hk, hI⟩
    have hk : k = (q.length : Int) := hk
    subst hk
    have hxr : sl[x]? = some sl[x] := List.getElem?_eq_getElem hx
    have hval : m2 revA ((x : Int) + lo) = some ((sl[x] : Nat) : Int) := by
      rw [hI.frame _ _ (by simp), show (x : Int) + lo = lo + x by omega]
      exact hrev x _ hxr
    have hr := hlt _ (List.getElem_mem hx)
    generalize sl[x] = r at hxr hval hr
    refine wpA_rd _ (by rintro ⟨h, _⟩; simp at h) (Or.inr (Or.inl rfl)) hval ?_
    refine wpA_rd _ (by rintro ⟨h, _⟩; simp at h) (Or.inl (by simp [MatCell])) (hI.mat.diag r hr).2.2 ?_
    have hext := wp_extAt (sz := sz) (W := OwnQ T A.m tid) (Rd := TrRd T A.m tid) (Q := fun v m3 => v = (ep r : Int) + base ∧ m3 = m2)
      hI.mat (fun _ _ h => Or.inl h) hr ⟨rfl, rfl⟩
    refine wpA_bind (wpA_mono (wpA_of_wp (fun a i h => h.not_np htid) (fun a i h => h.not_np htid) hext) ?_)
    rintro _ _ _ ⟨rfl, rfl, rfl⟩
    have htk : (sl.take (x + 1)).flatMap (upL A dp ep) = (sl.take x).flatMap (upL A dp ep) ++ upL A dp ep r := by
      rw [List.take_add_one, hxr, List.flatMap_append]; simp
    refine wpA_travRow hs hwf htid hr hszb hroom hI rfl ?_
    intro q' b' tr' m3 h3
    rw [← htk] at h3
    exact ⟨q', rfl, h3⟩
  · rintro ⟨k, b2⟩ tr2 m2 ⟨q, hk, hI⟩
    have hk : k = (q.length : Int) := hk
    subst hk
    rw [List.take_length] at hI
    have hroom1 := hI.room
    have hown2 : OwnQ T A.m tid bufA (rOff T A.m tid + q.length) := ⟨rfl, Or.inr ⟨by omega, by omega⟩⟩
    refine wpA_rd _ (hown2.not_np htid) (Or.inr (Or.inr hown2)) hI.rp.last ?_
    exact wpA_pure (hQ q b2 tr2 m2 hI)

end

end SpMP
