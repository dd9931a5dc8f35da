import Verif.LevelsProof
import Verif.Props.Linear
/-
Property theorem C29 (level search).
-/

namespace SpMP.Props
open SpMP SpMP.Spec

variable {R : Type}

/-- C29 except for patterns so large that a thread's discovery queue may overflow (`hcap`; always met by teams of one or two threads
and by fewer than 64 rows, see the corollaries): for every team size `T`, every split `cb` of the rows into chunks of at most
⌈m/T⌉ rows and every interleaving, the level search terminates without undefined behaviour or failed assertion; `levIndices` holds
the ends of the levels of a decomposition `L`, `reversePerm` the rows level by level, and only the two work arrays change. -/
theorem C29_findLevels_partial {sz : CArr → Int} {T base : Nat} {A : Csr R} {dp ep : Nat → Nat} {hasExt : Bool} {m0 : Mem (CTy R)} {cb : Nat → Nat}
    (hT : 1 ≤ T) (hwf : A.WF) (hs : SplitRows A dp ep) (hd : NoDup A) (hsym : SymPat A)
    (hp : HoldsPat m0 0 base A) (hdp : HoldsDiag m0 0 base A dp) (he : HoldsExt m0 0 base A hasExt ep)
    (cb0 : cb 0 = 0) (cbT : cb T = A.m) (cbm : ∀ t, t < T → cb t ≤ cb (t + 1)) (cbc : ∀ t, t < T → cb (t + 1) - cb t ≤ (A.m + T - 1) / T)
    (hszb : 5 * (max T (A.m + T - 1) : Nat) ≤ sz (.itmp 20)) (hszr : (A.m : Int) ≤ sz (.itmp 21))
    (hcap : A.m < max T (A.m + T - 1) / T * 2 + 64) :
    (findLevels sz hasExt base T A.m cb).Ok m0 (fun levIndices m => ∃ L : List (List Nat), LevelDecomp (Dep A) A.m L ∧
      levIndices = (List.range (L.length + 1)).map (fun k => ((L.take k).flatten.length : Int)) ∧
      (∀ x s : Nat, L.flatten[x]? = some s → m (.itmp 21) (x : Int) = some (s : Int)) ∧
      ∀ a, a ≠ .itmp 20 → a ≠ .itmp 21 → m a = m0 a) := by
  have h1 : A.m ≤ lvMx T A.m := (lvMx_ge hT).1
  refine Script.Ok.mono (findLevels_ok hs hwf hd hsym hT ⟨hp, hdp, he⟩ cb0 cbT cbm cbc (fun _ _ _ => trivial) ?_ hszr hcap) ?_
  · have h2 : 5 * (lvMx T A.m : Int) ≤ sz (.itmp 20) := hszb
    show 4 * (lvMx T A.m : Int) + A.m ≤ sz (.itmp 20)
    omega
  · rintro lev m ⟨L, rfl, h2, h3, h4⟩
    refine ⟨L, h2, rfl, ?_, fun a h5 h6 => funext fun i => h4 a i h5 h6⟩
    intro x s hx
    have := h3 x s hx
    rwa [Int.zero_add] at this

/-- C29 for teams of one or two threads, any number of rows. -/
theorem C29_two_threads_partial {sz : CArr → Int} {T base : Nat} {A : Csr R} {dp ep : Nat → Nat} {hasExt : Bool} {m0 : Mem (CTy R)} {cb : Nat → Nat}
    (hT : T = 1 ∨ T = 2) (hwf : A.WF) (hs : SplitRows A dp ep) (hd : NoDup A) (hsym : SymPat A)
    (hp : HoldsPat m0 0 base A) (hdp : HoldsDiag m0 0 base A dp) (he : HoldsExt m0 0 base A hasExt ep)
    (cb0 : cb 0 = 0) (cbT : cb T = A.m) (cbm : ∀ t, t < T → cb t ≤ cb (t + 1)) (cbc : ∀ t, t < T → cb (t + 1) - cb t ≤ (A.m + T - 1) / T)
    (hszb : 5 * (max T (A.m + T - 1) : Nat) ≤ sz (.itmp 20)) (hszr : (A.m : Int) ≤ sz (.itmp 21)) :
    (findLevels sz hasExt base T A.m cb).Ok m0 (fun levIndices m => ∃ L : List (List Nat), LevelDecomp (Dep A) A.m L ∧
      levIndices = (List.range (L.length + 1)).map (fun k => ((L.take k).flatten.length : Int)) ∧
      (∀ x s : Nat, L.flatten[x]? = some s → m (.itmp 21) (x : Int) = some (s : Int)) ∧
      ∀ a, a ≠ .itmp 20 → a ≠ .itmp 21 → m a = m0 a) := by
  refine C29_findLevels_partial (by omega) hwf hs hd hsym hp hdp he cb0 cbT cbm cbc hszb hszr ?_
  rcases hT with rfl | rfl <;> omega

/-- C29 for fewer than 64 rows, any team. -/
theorem C29_small_partial {sz : CArr → Int} {T base : Nat} {A : Csr R} {dp ep : Nat → Nat} {hasExt : Bool} {m0 : Mem (CTy R)} {cb : Nat → Nat}
    (hT : 1 ≤ T) (hsmall : A.m ≤ 64) (hwf : A.WF) (hs : SplitRows A dp ep) (hd : NoDup A) (hsym : SymPat A)
    (hp : HoldsPat m0 0 base A) (hdp : HoldsDiag m0 0 base A dp) (he : HoldsExt m0 0 base A hasExt ep)
    (cb0 : cb 0 = 0) (cbT : cb T = A.m) (cbm : ∀ t, t < T → cb t ≤ cb (t + 1)) (cbc : ∀ t, t < T → cb (t + 1) - cb t ≤ (A.m + T - 1) / T)
    (hszb : 5 * (max T (A.m + T - 1) : Nat) ≤ sz (.itmp 20)) (hszr : (A.m : Int) ≤ sz (.itmp 21)) :
    (findLevels sz hasExt base T A.m cb).Ok m0 (fun levIndices m => ∃ L : List (List Nat), LevelDecomp (Dep A) A.m L ∧
      levIndices = (List.range (L.length + 1)).map (fun k => ((L.take k).flatten.length : Int)) ∧
      (∀ x s : Nat, L.flatten[x]? = some s → m (.itmp 21) (x : Int) = some (s : Int)) ∧
      ∀ a, a ≠ .itmp 20 → a ≠ .itmp 21 → m a = m0 a) := by
  refine C29_findLevels_partial hT hwf hs hd hsym hp hdp he cb0 cbT cbm cbc hszb hszr ?_
  have : 1 ≤ max T (A.m + T - 1) / T := (Nat.le_div_iff_mul_le (by omega)).mpr (by omega)
  omega

/-- The levels do not depend on team size or schedule: two decompositions agree level by level (as sets of rows). -/
theorem C29_levels_unique {dep : Nat → Nat → Prop} {m : Nat} {L L' : List (List Nat)} (h : LevelDecomp dep m L) (h' : LevelDecomp dep m L') :
    L.length = L'.length ∧ ∀ k i : Nat, i ∈ L.getD k [] ↔ i ∈ L'.getD k [] := by
  have key : ∀ {L L' : List (List Nat)}, LevelDecomp dep m L → LevelDecomp dep m L' → ∀ k i : Nat, i ∈ L.getD k [] → i ∈ L'.getD k [] := by
    intro L L' h h' k i hi
    have h1 : i ∈ L.flatten := by
      refine mem_flatten_getD.mpr ⟨k, ?_, hi⟩
      by_contra hc
      rw [getD_nil_ge (by omega)] at hi; simp at hi
    obtain ⟨k', _, hk'⟩ := mem_flatten_getD.mp (h'.rows.mem_iff.mpr (h.rows.mem_iff.mp h1))
    have h2 := h.longest k i k' hi (h'.chain k' i hk')
    have h3 := h'.longest k' i k hk' (h.chain k i hi)
    rwa [show k = k' by omega]
  have klen : ∀ {L L' : List (List Nat)}, LevelDecomp dep m L → LevelDecomp dep m L' → L.length ≤ L'.length := by
    intro L L' h h'
    by_contra hc
    have h1 : L'.length < L.length := by omega
    have h2 : L[L'.length] ≠ [] := h.nonempty _ (List.getElem_mem h1)
    obtain ⟨x, hx⟩ := List.exists_mem_of_ne_nil _ h2
    have h3 := key h h' L'.length x (by simpa [List.getD_eq_getElem?_getD, h1] using hx)
    rw [getD_nil_ge (Nat.le_refl _)] at h3
    simp at h3
  exact ⟨Nat.le_antisymm (klen h h') (klen h' h), fun k i => ⟨key h h' k i, key h' h k i⟩⟩

/-- The pattern of the 3x3 matrix with entries (0,0) (0,2) (1,1) (1,2) (2,0) (2,1) (2,2): two levels. -/
def vee : Csr Int := ⟨3, 3, fun i => ([0, 2, 4, 7] : List Nat).getD i 7, fun j => ([0, 2, 1, 2, 0, 1, 2] : List Nat).getD j 0, fun _ => 1⟩

/-- Memory holding `vee` with its diagonal pointers. -/
def veeMem : Mem (CTy Int)
  | .diagptr 0, i => if 0 ≤ i ∧ i < 3 then some (([0, 2, 6] : List Int).getD i.toNat 0) else none
  | a, i => csrMem 0 0 vee (fun _ => 0) (fun _ => 0) a i

/-- The hypotheses of C29 are met by `vee` with three threads. -/
example : (findLevels (R := Int) (fun _ => 100) false 0 3 3 (fun t => min t 3)).Ok veeMem (fun levIndices m => ∃ L : List (List Nat),
    LevelDecomp (Dep vee) 3 L ∧ levIndices = (List.range (L.length + 1)).map (fun k => ((L.take k).flatten.length : Int)) ∧
    ∀ x s : Nat, L.flatten[x]? = some s → m (.itmp 21) (x : Int) = some (s : Int)) := by
  have hrow : ∀ i p, vee.InRow i p → (i = 0 ∧ (p = 0 ∨ p = 1)) ∨ (i = 1 ∧ (p = 2 ∨ p = 3)) ∨ (i = 2 ∧ (p = 4 ∨ p = 5 ∨ p = 6)) := by
    rintro i p ⟨h1, h2, h3⟩
    have h1 : i < 3 := h1
    rcases (by omega : i = 0 ∨ i = 1 ∨ i = 2) with rfl | rfl | rfl
    · have h2 : 0 ≤ p := h2
      have h3 : p < 2 := h3
      omega
    · have h2 : 2 ≤ p := h2
      have h3 : p < 4 := h3
      omega
    · have h2 : 4 ≤ p := h2
      have h3 : p < 7 := h3
      omega
  have hin : ∀ i p, i < 3 → vee.ptr i ≤ p → p < vee.ptr (i + 1) → vee.InRow i p := fun i p h1 h2 h3 => ⟨h1, h2, h3⟩
  have hwf : vee.WF := by
    refine ⟨rfl, ?_, ?_⟩
    · intro i hi
      have hi : i < 3 := hi
      rcases (by omega : i = 0 ∨ i = 1 ∨ i = 2) with rfl | rfl | rfl <;> decide
    · intro j hj
      have hj : j < 7 := hj
      rcases (by omega : j = 0 ∨ j = 1 ∨ j = 2 ∨ j = 3 ∨ j = 4 ∨ j = 5 ∨ j = 6) with rfl | rfl | rfl | rfl | rfl | rfl | rfl <;> decide
  refine Script.Ok.mono (C29_findLevels_partial (A := vee) (dp := fun i => ([0, 2, 6] : List Nat).getD i 0) (ep := fun i => vee.ptr (i + 1))
    (by decide) hwf ?_ ?_ ?_ ?_ ?_ ?_ (by decide) (by decide) ?_ ?_ (by decide) (by decide) (by decide)) ?_
  · refine ⟨?_, ?_, ?_, ?_, ?_⟩
    · intro i hi
      have hi : i < 3 := hi
      rcases (by omega : i = 0 ∨ i = 1 ∨ i = 2) with rfl | rfl | rfl <;> decide
    · intro i hi
      have hi : i < 3 := hi
      rcases (by omega : i = 0 ∨ i = 1 ∨ i = 2) with rfl | rfl | rfl <;> decide
    · intro i p hi h1 h2
      have hi : i < 3 := hi
      rcases (by omega : i = 0 ∨ i = 1 ∨ i = 2) with rfl | rfl | rfl
      · have h2 : p < 0 := h2
        omega
      · have h1 : 2 ≤ p := h1
        have h2 : p < 2 := h2
        omega
      · have h1 : 4 ≤ p := h1
        have h2 : p < 6 := h2
        rcases (by omega : p = 4 ∨ p = 5) with rfl | rfl <;> decide
    · intro i p hi h1 h2
      have hi : i < 3 := hi
      rcases (by omega : i = 0 ∨ i = 1 ∨ i = 2) with rfl | rfl | rfl
      · have h1 : 0 < p := h1
        have h2 : p < 2 := h2
        obtain rfl : p = 1 := by omega
        decide
      · have h1 : 2 < p := h1
        have h2 : p < 4 := h2
        obtain rfl : p = 3 := by omega
        decide
      · have h1 : 6 < p := h1
        have h2 : p < 7 := h2
        omega
    · intro i p _ h1 h2; omega
  · intro i p q hp hq h
    rcases hrow i p hp with ⟨rfl, rfl | rfl⟩ | ⟨rfl, rfl | rfl⟩ | ⟨rfl, rfl | rfl | rfl⟩ <;>
      rcases hrow _ q hq with ⟨h0, rfl | rfl⟩ | ⟨h0, rfl | rfl⟩ | ⟨h0, rfl | rfl | rfl⟩ <;>
      first | rfl | exact absurd h (by decide) | exact absurd h0 (by decide)
  · intro i j hi hj
    have hi : i < 3 := hi
    have hj : j < 3 := hj
    rintro ⟨p, hp, hc⟩
    rcases hrow i p hp with ⟨rfl, rfl | rfl⟩ | ⟨rfl, rfl | rfl⟩ | ⟨rfl, rfl | rfl | rfl⟩
    · exact ⟨0, by rw [← hc]; exact hin 0 0 (by decide) (by decide) (by decide), rfl⟩
    · exact ⟨4, by rw [← hc]; exact hin 2 4 (by decide) (by decide) (by decide), rfl⟩
    · exact ⟨2, by rw [← hc]; exact hin 1 2 (by decide) (by decide) (by decide), rfl⟩
    · exact ⟨5, by rw [← hc]; exact hin 2 5 (by decide) (by decide) (by decide), rfl⟩
    · exact ⟨1, by rw [← hc]; exact hin 0 1 (by decide) (by decide) (by decide), rfl⟩
    · exact ⟨3, by rw [← hc]; exact hin 1 3 (by decide) (by decide) (by decide), rfl⟩
    · exact ⟨6, by rw [← hc]; exact hin 2 6 (by decide) (by decide) (by decide), rfl⟩
  · have := csrMem_pat 0 0 vee (fun _ => 0) (fun _ => 0)
    exact ⟨this.rowptr, this.colidx⟩
  · intro i hi
    have hi : i < 3 := hi
    rcases (by omega : i = 0 ∨ i = 1 ∨ i = 2) with rfl | rfl | rfl
    · exact ⟨hin _ _ (by decide) (by decide) (by decide), rfl, rfl⟩
    · exact ⟨hin _ _ (by decide) (by decide) (by decide), rfl, rfl⟩
    · exact ⟨hin _ _ (by decide) (by decide) (by decide), rfl, rfl⟩
  · refine ⟨by simp, fun _ i _ => rfl, ?_⟩
    intro i hi
    exact ⟨hwf.ptr_mono (Nat.le_succ i) hi, Nat.le_refl _⟩
  · intro t _; show min t 3 ≤ min (t + 1) 3; omega
  · intro t _; show min (t + 1) 3 - min t 3 ≤ (3 + 3 - 1) / 3; omega
  · rintro lev m ⟨L, h1, h2, h3, _⟩
    exact ⟨L, h1, h2, h3⟩

/-- Pattern with 71 rows: rows 0 to 63 depend on nothing, rows 64 to 69 depend on row 0, row 70 depends on row 1. -/
def ovf : Csr Int where
  m := 71
  n := 71
  ptr := fun i => if i = 0 then 0 else if i = 1 then 7 else if i < 65 then 7 + i else 2 * i - 57
  col := fun j => if j = 0 then 0 else if j < 7 then 63 + j else if j = 7 then 1 else if j = 8 then 70 else
    if j < 71 then j - 7 else if j % 2 = 0 then (j + 56) / 2 else if j = 83 then 1 else 0
  val := fun _ => 1

def ovfDp (i : Nat) : Nat := if i = 0 then 0 else if i = 1 then 7 else if i < 64 then 7 + i else 2 * i - 56

/-- Memory holding `ovf` with its diagonal pointers. -/
def ovfMem : Mem (CTy Int)
  | .diagptr 0, i => if 0 ≤ i ∧ i < 71 then some (ovfDp i.toNat : Int) else none
  | a, i => csrMem 0 0 ovf (fun _ => 0) (fun _ => 0) a i

theorem ovf_wf : ovf.WF := by
  have h1 : ∀ i < 71, ovf.ptr i ≤ ovf.ptr (i + 1) := by decide +kernel
  have h2 : ∀ j < 85, ovf.col j < 71 := by decide +kernel
  exact ⟨rfl, fun i hi => h1 i hi, fun j hj => h2 j hj⟩

set_option maxRecDepth 100000 in
theorem ovf_run : (((findLevels (R := Int) (fun _ => 1000) false 0 64 71 (fun t => min (2 * t) 71)).run ovfMem).map fun r =>
    ((r.2 (.itmp 21) 68 : Option Int), (r.2 (.itmp 21) 70 : Option Int))) = some (some 70, some 70) := by decide +kernel

/-- C29 is false of the code for larger patterns on larger teams: with 64 threads a thread's share of the queue buffer is 4 rows for
71 rows; in `ovf` one thread discovers rows 64 to 69, and its fifth row (68) is overwritten by the next thread's first (70), so that
row 70 appears twice and row 68 is lost. -/
theorem C29_queue_overflow_false :
    ¬ (∀ (sz : CArr → Int) (T : Nat) (A : Csr Int) (dp ep : Nat → Nat) (m0 : Mem (CTy Int)) (cb : Nat → Nat), 1 ≤ T → A.WF →
      SplitRows A dp ep → NoDup A → SymPat A → HoldsPat m0 0 0 A → HoldsDiag m0 0 0 A dp → HoldsExt m0 0 0 A false ep →
      cb 0 = 0 → cb T = A.m → (∀ t, t < T → cb t ≤ cb (t + 1)) → (∀ t, t < T → cb (t + 1) - cb t ≤ (A.m + T - 1) / T) →
      (5 * (max T (A.m + T - 1) : Nat) : Int) ≤ sz (.itmp 20) → (A.m : Int) ≤ sz (.itmp 21) →
      (findLevels sz false 0 T A.m cb).Ok m0 (fun _ m => ∃ L : List (List Nat), LevelDecomp (Dep A) A.m L ∧
        ∀ x s : Nat, L.flatten[x]? = some s → m (.itmp 21) (x : Int) = some (s : Int))) := by
  intro h
  have hb : ∀ i < 71, ovf.ptr i ≤ ovfDp i ∧ ovfDp i < ovf.ptr (i + 1) ∧ ovf.col (ovfDp i) = i ∧ ovf.ptr (i + 1) ≤ 85 := by decide +kernel
  have hlow : ∀ i < 71, ∀ p < 85, ovf.ptr i ≤ p → p < ovfDp i → ovf.col p < i := by decide +kernel
  have hup : ∀ i < 71, ∀ p < 85, ovfDp i < p → p < ovf.ptr (i + 1) → i < ovf.col p := by decide +kernel
  have hnd : ∀ i < 71, ((List.range' (ovf.ptr i) (ovf.ptr (i + 1) - ovf.ptr i)).map ovf.col).Nodup := by decide +kernel
  have hsy : ∀ i < 71, ∀ p < 85, ovf.ptr i ≤ p ∧ p < ovf.ptr (i + 1) → ∃ q < 85, ovf.ptr (ovf.col p) ≤ q ∧ q < ovf.ptr (ovf.col p + 1) ∧ ovf.col q = i := by
    decide +kernel
  have hin : ∀ {i p : Nat}, ovf.InRow i p → i < 71 ∧ p < 85 ∧ ovf.ptr i ≤ p ∧ p < ovf.ptr (i + 1) := by
    rintro i p ⟨h1, h2, h3⟩
    have h1 : i < 71 := h1
    exact ⟨h1, Nat.lt_of_lt_of_le h3 (hb i h1).2.2.2, h2, h3⟩
  have hok := h (fun _ => 1000) 64 ovf ovfDp (fun i => ovf.ptr (i + 1)) ovfMem (fun t => min (2 * t) 71) (by decide) ovf_wf
    ⟨fun i hi => ⟨(hb i hi).1, (hb i hi).2.1, Nat.le_refl _⟩, fun i hi => (hb i hi).2.2.1,
      fun i p hi h1 h2 => hlow i hi p (by have := (hb i hi).2; omega) h1 h2,
      fun i p hi h1 h2 => hup i hi p (by have := (hb i hi).2.2.2; omega) h1 h2, fun i p _ h1 h2 => by omega⟩
    (fun i p q hp hq hc => by
      obtain ⟨a1, a2, a3, a4⟩ := hin hp
      obtain ⟨_, b2, b3, b4⟩ := hin hq
      exact List.inj_on_of_nodup_map (hnd i a1) (List.mem_range'_1.mpr (by omega)) (List.mem_range'_1.mpr (by omega)) hc)
    (fun i j hi hj ⟨p, hp, hc⟩ => by
      obtain ⟨a1, a2, a3, a4⟩ := hin hp
      obtain ⟨q, _, b2, b3, b4⟩ := hsy i a1 p a2 ⟨a3, a4⟩
      rw [hc] at b2 b3
      exact ⟨q, ⟨hj, b2, b3⟩, b4⟩)
    (by have := csrMem_pat 0 0 ovf (fun _ => 0) (fun _ => 0)
        exact ⟨this.rowptr, this.colidx⟩)
    (fun i hi => by
      refine ⟨⟨hi, (hb i hi).1, (hb i hi).2.1⟩, (hb i hi).2.2.1, ?_⟩
      show (if 0 ≤ (i : Int) ∧ (i : Int) < 71 then some ((ovfDp (i : Int).toNat : Nat) : Int) else none) = _
      have hi : i < 71 := hi
      rw [if_pos ⟨by omega, by omega⟩, Int.toNat_natCast, show ((0 : Nat) : Int) = 0 from rfl, Int.add_zero])
    ⟨by simp, fun _ i _ => rfl, fun i hi => ⟨ovf_wf.ptr_mono (Nat.le_succ i) hi, Nat.le_refl _⟩⟩
    rfl rfl (fun t _ => by show min (2 * t) 71 ≤ min (2 * (t + 1)) 71; omega)
    (fun t _ => by show min (2 * (t + 1)) 71 - min (2 * t) 71 ≤ (71 + 64 - 1) / 64; omega) (by decide) (by decide)
  have h4 := ovf_run
  cases h1 : (findLevels (R := Int) (fun _ => 1000) false 0 64 71 (fun t => min (2 * t) 71)).run ovfMem with
  | none => rw [h1] at h4; cases h4
  | some rm =>
  obtain ⟨r, m'⟩ := rm
  obtain ⟨L, h2, h3⟩ := hok.run r m' h1
  rw [h1] at h4
  have h4 := Option.some.inj h4
  have h5 : m' (.itmp 21) 68 = some (70 : Int) := congrArg Prod.fst h4
  have h6 : m' (.itmp 21) 70 = some (70 : Int) := congrArg Prod.snd h4
  have hlen : L.flatten.length = 71 := by have := h2.rows.length_eq; rwa [List.length_range] at this
  have hnod : L.flatten.Nodup := h2.rows.nodup_iff.mpr List.nodup_range
  have e1 : L.flatten[68] = 70 := by
    have := h3 68 _ (List.getElem?_eq_getElem (by omega))
    rw [show ((68 : Nat) : Int) = 68 from rfl, h5] at this
    have := Option.some.inj this
    omega
  have e2 : L.flatten[70] = 70 := by
    have := h3 70 _ (List.getElem?_eq_getElem (by omega))
    rw [show ((70 : Nat) : Int) = 70 from rfl, h6] at this
    have := Option.some.inj this
    omega
  have := (List.Nodup.getElem_inj_iff hnod (i := 68) (j := 70) (hi := by omega) (hj := by omega)).mp (e1.trans e2.symm)
  omega

end SpMP.Props
