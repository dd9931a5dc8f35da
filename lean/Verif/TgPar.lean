import Verif.TgRed
/-
constructTaskGraph_ with transitive reduction: the starts of the parent lists and the parent lists.
-/

namespace SpMP
open Spec

variable {R : Type}

section
variable {S : Schedule} {A : Csr R} {dp ep : Nat → Nat} {base : Nat} {hasExt tr : Bool} {sz : CArr → Int}

theorem wp_tgStarts {W Rd : CArr → Int → Prop} (hW : ∀ a i, W a i) (hR : ∀ a i, Rd a i) {n : Nat} {f g : Nat → Nat} {m0 : Mem (CTy R)}
    (s41 : sz (.itmp 41) = n) (s43 : sz (.itmp 43) = n) (s44 : sz (.itmp 44) = n)
    (h40 : ∀ i : Nat, i < n → m0 (.itmp 40) (i : Int) = some (f i : Int)) (h48 : ∀ i : Nat, i < n → m0 (.itmp 48) (i : Int) = some (g i : Int))
    {Q : Int × Int → Mem (CTy R) → Prop}
    (hQ : ∀ m, (∀ i : Nat, i < n → m (.itmp 41) (i : Int) = some (cumul f i : Int) ∧ m (.itmp 44) (i : Int) = some (cumul g i : Int) ∧
        m (.itmp 43) (i : Int) = some (g i : Int)) →
      (∀ a i, a ≠ .itmp 41 → a ≠ .itmp 43 → a ≠ .itmp 44 → m a i = m0 a i) → Q ((cumul f n : Int), (cumul g n : Int)) m) : wp sz W Rd (tgStarts n) m0 Q := by
  unfold tgStarts
  rw [wp_bind]
  refine wp_forN (b := 0) (lo := 0) (hi := n)
    (fun k s m => s = ((cumul f k : Int), (cumul g k : Int)) ∧ (∀ a i, a ≠ .itmp 43 → m a i = m0 a i) ∧
      ∀ i : Nat, i < k → m (.itmp 43) (i : Int) = some (g i : Int)) (by omega) ⟨rfl, fun _ _ _ => rfl, fun i h => by omega⟩ ?_ ?_ (by omega) (by omega)
  · rintro k s m _ hk ⟨rfl, hfr, hd⟩
    rw [Int.add_zero]
    refine wp_rd _ (hR _ _) ((hfr _ _ (by simp)).trans (h40 k hk)) ?_
    refine wp_rd _ (hR _ _) ((hfr _ _ (by simp)).trans (h48 k hk)) ?_
    refine wp_wr (hW _ _) ⟨by omega, by omega⟩ ?_
    rw [wp_pure]
    refine ⟨?_, ?_, ?_⟩
    · refine Prod.ext ?_ ?_
      · show (cumul f k : Int) + (f k : Int) = ((cumul f k + f k : Nat) : Int)
        push_cast; rfl
      · show (cumul g k : Int) + (g k : Int) = ((cumul g k + g k : Nat) : Int)
        push_cast; rfl
    · intro a i g1
      rw [Mem.set_other _ _ _ _ _ g1]; exact hfr a i g1
    · intro i hi
      by_cases hik : i = k
      · subst hik; rw [Mem.get_same]
      · rw [Mem.get_ne _ _ _ _ _ (by omega)]; exact hd i (by omega)
  · rintro s m1 ⟨rfl, hfr1, hd1⟩
    rw [wp_bind]
    refine wp_forN (b := 0) (lo := 0) (hi := n)
      (fun k s m => s = ((cumul f k : Int), (cumul g k : Int)) ∧ (∀ a i, a ≠ .itmp 41 → a ≠ .itmp 44 → m a i = m1 a i) ∧
        ∀ i : Nat, i < k → m (.itmp 41) (i : Int) = some (cumul f i : Int) ∧ m (.itmp 44) (i : Int) = some (cumul g i : Int))
      (by omega) ⟨rfl, fun _ _ _ _ => rfl, fun i h => by omega⟩ ?_ ?_ (by omega) (by omega)
    · rintro k s m _ hk ⟨rfl, hfr, hd⟩
      rw [Int.add_zero]
      refine wp_wr (hW _ _) ⟨by omega, by omega⟩ ?_
      refine wp_rd _ (hR _ _) (by rw [Mem.set_other _ _ _ _ _ (by simp), hfr _ _ (by simp) (by simp), hfr1 _ _ (by simp)]; exact h40 k hk) ?_
      refine wp_wr (hW _ _) ⟨by omega, by omega⟩ ?_
      refine wp_rd _ (hR _ _) (by rw [Mem.set_other _ _ _ _ _ (by simp), Mem.set_other _ _ _ _ _ (by simp), hfr _ _ (by simp) (by simp)]; exact hd1 k hk) ?_
      rw [wp_pure]
      refine ⟨?_, ?_, ?_⟩
      · refine Prod.ext ?_ ?_
        · show (cumul f k : Int) + (f k : Int) = ((cumul f k + f k : Nat) : Int)
          push_cast; rfl
        · show (cumul g k : Int) + (g k : Int) = ((cumul g k + g k : Nat) : Int)
          push_cast; rfl
      · intro a i g1 g2
        rw [Mem.set_other _ _ _ _ _ g2, Mem.set_other _ _ _ _ _ g1]; exact hfr a i g1 g2
      · intro i hi
        by_cases hik : i = k
        · subst hik
          refine ⟨?_, ?_⟩
          · rw [Mem.set_other _ _ _ _ _ (by simp), Mem.get_same]
          · rw [Mem.get_same]
        · obtain ⟨g1, g2⟩ := hd i (by omega)
          refine ⟨?_, ?_⟩
          · rw [Mem.set_other _ _ _ _ _ (by simp), Mem.get_ne _ _ _ _ _ (by omega)]; exact g1
          · rw [Mem.get_ne _ _ _ _ _ (by omega), Mem.set_other _ _ _ _ _ (by simp)]; exact g2
    · rintro s m ⟨rfl, hfr, hd⟩
      rw [wp_pure]
      refine hQ m (fun i hi => ⟨(hd i hi).1, (hd i hi).2, ?_⟩) ?_
      · rw [hfr _ _ (by simp) (by simp)]; exact hd1 i hi
      · intro a i g1 g2 g3
        rw [hfr a i g1 g3]; exact hfr1 a i g2

/-! ### The parents -/

/-- Length of the parent list of `c`. -/
def tgNF (n : Nat) (ch : Nat → List Nat) (c : Nat) : Nat := (appended (parentEvents n ch) c).length

def tgPEnv (n : Nat) (ch : Nat → List Nat) (sz : CArr → Int) (m0 : Mem (CTy R)) : BkEnv R where
  sz := sz
  T := n
  jc := 49
  js := 42
  M := n
  slots := true
  Sl := cumul (tgNF n ch)
  items i := (ch i).map fun c => (c, i)
  m0 := m0
  Own t a i := a = .itmp 45 ∧ (cumul (fun i => (ch i).length) t : Int) ≤ i ∧ i < (cumul (fun i => (ch i).length) (t + 1) : Int)
  Const a _ := a = .itmp 41 ∨ a = .itmp 44 ∨ a = .itmp 46 ∨ a = .itmp 47 ∨ a = .itmp 48

theorem tgPEnv_items {n : Nat} {ch : Nat → List Nat} {m0 : Mem (CTy R)} : (List.range n).flatMap (tgPEnv n ch sz m0).items = parentEvents n ch := rfl

theorem tgPEnv_n {n : Nat} {ch : Nat → List Nat} {m0 : Mem (CTy R)} (c : Nat) : bkN (tgPEnv n ch sz m0).T (tgPEnv n ch sz m0).items c = tgNF n ch c := by
  rw [bkN_eq]; rfl

theorem tgPEnv_ok {n : Nat} {ch : Nat → List Nat} {m0 : Mem (CTy R)} (hch : ∀ i c, i < n → c ∈ ch i → c < n)
    (s49 : sz (.itmp 49) = n) (s42 : sz (.itmp 42) = cumul (tgNF n ch) n)
    (h0 : ∀ i : Nat, i < n → m0 (.itmp 49) (i : Int) = some (0 : Int)) : (tgPEnv n ch sz m0).Ok where
  disj := by
    rintro t u a i ht hu hne ⟨rfl, g1, g2⟩ ⟨_, k1, k2⟩
    have hmono : ∀ a b, a ≤ b → cumul (fun i => (ch i).length) a ≤ cumul (fun i => (ch i).length) b := fun a b h => cumul_mono _ h
    rcases Nat.lt_or_gt_of_ne hne with g | g
    · have := hmono (t + 1) u (by omega); omega
    · have := hmono (u + 1) t (by omega); omega
  own_ctr := by
    rintro t a i _ ⟨rfl, _⟩ ⟨h2, _⟩
    simp [tgPEnv] at h2
  own_slot := by
    rintro t a i _ ⟨rfl, _⟩ ⟨_, h2, _⟩
    simp [tgPEnv] at h2
  con_own := by
    rintro t a i _ h1 ⟨rfl, _⟩
    simp [tgPEnv] at h1
  con_ctr := by
    rintro a i h1 ⟨h2, _⟩
    rw [show a = CArr.itmp 49 from h2] at h1
    simp [tgPEnv] at h1
  con_slot := by
    rintro a i h1 ⟨_, h2, _⟩
    rw [show a = CArr.itmp 42 from h2] at h1
    simp [tgPEnv] at h1
  ne := by intro _; show (49 : Nat) ≠ 42; omega
  dis := by
    intro _ c c' s s' hc hc' hs hs' he
    rw [tgPEnv_n] at hs hs'
    have he : cumul (tgNF n ch) c + 0 + s = cumul (tgNF n ch) c' + 0 + s' := he
    by_contra hne
    rcases Nat.lt_or_gt_of_ne hne with g | g
    · have := cumul_range_lt g hs; omega
    · have := cumul_range_lt g hs'; omega
  inM := by
    intro t ht x hx
    obtain ⟨c, hc, rfl⟩ := List.mem_map.1 (show x ∈ (ch t).map fun c => (c, t) from hx)
    exact hch t c ht hc
  room := by
    intro _ c s hc hs
    rw [tgPEnv_n] at hs
    have := cumul_range_lt (show c < n from hc) hs
    show (cumul (tgNF n ch) c : Int) + s < sz (.itmp 42)
    rw [s42]; omega
  ctrsz := by show (n : Int) ≤ sz (.itmp 49); rw [s49]
  zero := h0

/-- One task. -/
theorem LB_tgParents {n : Nat} {ch : Nat → List Nat} {pC : Nat → Int} {m0 : Mem (CTy R)} (hE : (tgPEnv n ch sz m0).Ok)
    (s45 : sz (.itmp 45) = cumul (fun i => (ch i).length) n) (hch : ∀ i c, i < n → c ∈ ch i → c < n)
    (h41 : ∀ i : Nat, i < n → m0 (.itmp 41) (i : Int) = some (cumul (tgNF n ch) i : Int))
    (h44 : ∀ i : Nat, i < n → m0 (.itmp 44) (i : Int) = some (cumul (fun i => (ch i).length) i : Int))
    (h46 : ∀ i : Nat, i < n → m0 (.itmp 46) (i : Int) = some (pC i)) (h48 : ∀ i : Nat, i < n → m0 (.itmp 48) (i : Int) = some ((ch i).length : Int))
    (h47 : ∀ i : Nat, i < n → HoldsQ m0 47 (pC i) (ch i)) {i : Nat} (hi : i < n) :
    (tgPEnv n ch sz m0).LB i (tgParents i) m0 []
      (fun _ m1 L => L = (tgPEnv n ch sz m0).items i ∧ HoldsQ m1 45 (cumul (fun i => (ch i).length) i) (ch i)) := by
  have ht : i < (tgPEnv n ch sz m0).T := hi
  unfold tgParents
  refine BkEnv.LB_rd hE ht _ (Or.inr (by simp [tgPEnv])) (h48 i hi) ?_
  refine BkEnv.LB_rd hE ht _ (Or.inr (by simp [tgPEnv])) (h46 i hi) ?_
  refine BkEnv.LB_rd hE ht _ (Or.inr (by simp [tgPEnv])) (h44 i hi) ?_
  refine BkEnv.LB_forUp hE ht (fun k _ m1 L => ∃ j : Nat, k = j ∧ j ≤ (ch i).length ∧ L = ((ch i).take j).map (fun c => (c, i)) ∧
    (∀ a x, (tgPEnv n ch sz m0).Const a x → m1 a x = m0 a x) ∧ HoldsQ m1 45 (cumul (fun i => (ch i).length) i) ((ch i).take j))
    ⟨0, rfl, by omega, by simp, fun _ _ _ => rfl, fun x s hx => by simp at hx⟩ ?_ ?_
  · rintro k _ m1 L _ hk ⟨j, rfl, hj, rfl, hcon, hq⟩
    have hk : (j : Int) < ((ch i).length : Int) := hk
    have hj : j < (ch i).length := by omega
    refine BkEnv.LB_rd hE ht ((ch i)[j] : Int) (Or.inr (by simp [tgPEnv])) ?_ ?_
    · rw [hcon _ _ (by simp [tgPEnv])]
      exact h47 i hi j _ (List.getElem?_eq_getElem hj)
    refine BkEnv.LB_bind ?_
    refine BkEnv.LB_append (E := tgPEnv n ch sz m0) (jp := 41) (c := (ch i)[j]) (x := i) hE ht rfl ?_ (by intro h; simp at h) (by simp [tgPEnv]) ?_ ?_
    · show _ <+: (ch i).map fun c => (c, i)
      have e : ((ch i).take j).map (fun c => (c, i)) ++ [((ch i)[j], i)] = ((ch i).take (j + 1)).map fun c => (c, i) := by
        rw [List.take_succ_eq_append_getElem hj, List.map_append]; rfl
      rw [e]
      exact (List.take_prefix _ _).map _
    · rw [hcon _ _ (by simp [tgPEnv])]
      exact h41 _ (hch i _ hi (List.getElem_mem hj))
    · have hseg : cumul (fun i => (ch i).length) i + j < cumul (fun i => (ch i).length) (i + 1) := cumul_range_lt (f := fun i => (ch i).length) (by omega) hj
      have hseg2 : cumul (fun i => (ch i).length) (i + 1) ≤ cumul (fun i => (ch i).length) n := cumul_mono _ hi
      have hown : (tgPEnv n ch sz m0).Own i (.itmp 45) ((cumul (fun i => (ch i).length) i : Int) + j) := ⟨rfl, by omega, by omega⟩
      have hsz : 0 ≤ (cumul (fun i => (ch i).length) i : Int) + j ∧ (cumul (fun i => (ch i).length) i : Int) + j < (tgPEnv n ch sz m0).sz (.itmp 45) := by
        refine ⟨by omega, ?_⟩
        show _ < sz _
        rw [s45]; omega
      have hfin : ∃ j' : Nat, (j : Int) + 1 = j' ∧ j' ≤ (ch i).length ∧
          ((ch i).take j).map (fun c => (c, i)) ++ [((ch i)[j], i)] = ((ch i).take j').map (fun c => (c, i)) ∧
          (∀ a x, (tgPEnv n ch sz m0).Const a x →
            (m1.set (.itmp 45) ((cumul (fun i => (ch i).length) i : Int) + j) ((ch i)[j] : Int)) a x = m0 a x) ∧
          HoldsQ (m1.set (.itmp 45) ((cumul (fun i => (ch i).length) i : Int) + j) ((ch i)[j] : Int)) 45 (cumul (fun i => (ch i).length) i) ((ch i).take j') := by
        refine ⟨j + 1, by omega, hj, ?_, ?_, ?_⟩
        · rw [List.take_succ_eq_append_getElem hj, List.map_append]; rfl
        · intro a x ha
          rw [Mem.set_other _ _ _ _ _ (by rintro rfl; simp [tgPEnv] at ha)]
          exact hcon a x ha
        · intro x s hx
          obtain ⟨hxl, hxe⟩ := List.getElem?_eq_some_iff.1 hx
          rw [List.length_take] at hxl
          rw [List.getElem_take] at hxe
          by_cases hxj : x = j
          · subst hxj
            rw [Mem.get_same, hxe]
          · rw [Mem.get_ne _ _ _ _ _ (by omega)]
            refine hq x s ?_
            rw [List.getElem?_take_of_lt (by omega), List.getElem?_eq_getElem (by omega), hxe]
      show (tgPEnv n ch sz m0).LB i (Prog.write (ty := CTy R) (.itmp 45) ((cumul (fun i => (ch i).length) i : Int) + j) ((ch i)[j] : Int) >>= fun _ => pure ()) m1 _ _
      refine BkEnv.LB_wr hE ht hown hsz ?_
      exact BkEnv.LB_pure hE ht hfin
  · rintro _ m1 L ⟨j, hjm, hj, rfl, hcon, hq⟩
    have hjm : max (0 : Int) ((ch i).length : Int) = (j : Int) := hjm
    have hj2 : j = (ch i).length := by omega
    subst hj2
    rw [List.take_length] at hq ⊢
    exact ⟨rfl, hq⟩

/-- All tasks. -/
theorem tg_parents {n : Nat} {ch : Nat → List Nat} {pC : Nat → Int} {m0 : Mem (CTy R)}
    (s49 : sz (.itmp 49) = n) (s42 : sz (.itmp 42) = cumul (tgNF n ch) n)
    (s45 : sz (.itmp 45) = cumul (fun i => (ch i).length) n) (hch : ∀ i c, i < n → c ∈ ch i → c < n)
    (h49 : ∀ i : Nat, i < n → m0 (.itmp 49) (i : Int) = some (0 : Int))
    (h41 : ∀ i : Nat, i < n → m0 (.itmp 41) (i : Int) = some (cumul (tgNF n ch) i : Int))
    (h44 : ∀ i : Nat, i < n → m0 (.itmp 44) (i : Int) = some (cumul (fun i => (ch i).length) i : Int))
    (h46 : ∀ i : Nat, i < n → m0 (.itmp 46) (i : Int) = some (pC i)) (h48 : ∀ i : Nat, i < n → m0 (.itmp 48) (i : Int) = some ((ch i).length : Int))
    (h47 : ∀ i : Nat, i < n → HoldsQ m0 47 (pC i) (ch i))
    (h40 : ∀ i : Nat, i < n → m0 (.itmp 40) (i : Int) = some (tgNF n ch i : Int))
    (h43 : ∀ i : Nat, i < n → m0 (.itmp 43) (i : Int) = some ((ch i).length : Int))
    {Q : (Nat → Unit) → Mem (CTy R) → Prop}
    (hQ : ∀ r m pev, pev.Perm (parentEvents n ch) → ParentsIn n (appended pev) ch m →
      (∀ a i, a ≠ .itmp 42 → a ≠ .itmp 45 → a ≠ .itmp 49 → m a i = m0 a i) → Q r m) :
    ParOk sz n Q tgParents m0 := by
  have hE : (tgPEnv n ch sz m0).Ok := tgPEnv_ok hch s49 s42 h49
  refine ParOk.mono (BkEnv.team (E := tgPEnv n ch sz m0) hE (Q := fun i _ m1 => HoldsQ m1 45 (cumul (fun i => (ch i).length) i) (ch i)) ?_) ?_
  · intro i hi
    exact LB_tgParents hE s45 hch h41 h44 h46 h48 h47 hi
  · rintro r m ⟨hd, ha⟩
    have hmask : ∀ a i, a ≠ .itmp 45 → (tgPEnv n ch sz m0).mask m a i = m a i := by
      intro a i g1
      refine BkEnv.mask_eq ?_
      rintro ⟨t, _, h, _⟩; contradiction
    have hall : ∀ e ∈ parentEvents n ch, e.1 < n := by
      rintro ⟨c, j⟩ he
      obtain ⟨h1, h2⟩ := mem_parentEvents.1 he
      exact hch j c h1 h2
    obtain ⟨pev, hpev, hc⟩ := collect_events (n := n) (all := parentEvents n ch) hall
      (P := fun c L => HoldsQ m 42 (cumul (tgNF n ch) c) L) (by
        intro c hc
        obtain ⟨L, hL, hs⟩ := hd.slot rfl c hc
        have hL : L.Perm (appended (parentEvents n ch) c) := hL
        refine ⟨L, hL, ?_⟩
        intro x s hx
        obtain ⟨hxl, hxe⟩ := List.getElem?_eq_some_iff.1 hx
        have this : (tgPEnv n ch sz m0).mask m (.itmp 42) ((cumul (tgNF n ch) c : Int) + (0 : Nat) + x) = some (L[x] : Int) := hs x hxl
        rw [hmask _ _ (by simp), Int.ofNat_zero, Int.add_zero, hxe] at this
        exact this)
    have hfr : ∀ a i, a ≠ .itmp 42 → a ≠ .itmp 45 → a ≠ .itmp 49 → m a i = m0 a i := by
      intro a i g1 g2 g3
      have := hd.frame a i (by rintro ⟨h, _⟩; exact g3 h) (by rintro ⟨_, h, _⟩; exact g1 h)
      rw [hmask _ _ g2] at this
      exact this
    refine hQ r m pev hpev ⟨?_, ?_, ?_, ?_⟩ hfr
    · intro i hi
      rw [hfr _ _ (by simp) (by simp) (by simp), h40 i hi, (appended_perm hpev i).length_eq]; rfl
    · intro i hi
      rw [hfr _ _ (by simp) (by simp) (by simp), h43 i hi]
    · intro i hi
      exact ⟨_, (hfr _ _ (by simp) (by simp) (by simp)).trans (h41 i hi), hc i hi⟩
    · intro i hi
      refine ⟨_, (hfr _ _ (by simp) (by simp) (by simp)).trans (h44 i hi), ?_⟩
      obtain ⟨m1, hag, h⟩ := ha i hi
      intro x s hx
      obtain ⟨hxl, _⟩ := List.getElem?_eq_some_iff.1 hx
      have hseg : cumul (fun i => (ch i).length) i + x < cumul (fun i => (ch i).length) (i + 1) := cumul_range_lt (f := fun i => (ch i).length) (by omega) hxl
      rw [hag _ _ (Or.inl ⟨rfl, by omega, by omega⟩)]
      exact h x s hx

end

end SpMP
