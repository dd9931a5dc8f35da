import Verif.MMioWords
import Verif.RowsMem
import Verif.LoopN
/-
loadVectorMatrixMarket (/repo/Vector.cpp:10-64) on the text of the file. `vec 0` is *v.
-/

namespace SpMP
open Spec

variable {R : Type}

/-- Vector.cpp:47, 54: fscanf of one value into cell `a`; `none` is the state after `return false`. -/
def lvPut (lg : Txt → Option (R × Txt)) (a : Int) : Option Txt → Prog (CTy R) (Option Txt)
  | none => pure none
  | some s => match scanLg lg s with
    | .ok v r => do
      Prog.write (ty := CTy R) (.vec 0) a v
      pure (some r)
    | _ => pure none

/-- Vector.cpp:45-60; the result is whether all values were read. -/
def lvBody (lg : Txt → Option (R × Txt)) (m n : Int) (s : Txt) : Prog (CTy R) Bool := do
  let st ← Prog.forUp (ty := CTy R) 0 m (some s) fun i st => do
    let st ← Prog.forUp (ty := CTy R) 0 (n - 1) st fun j st => lvPut lg (i * n + j) st
    let st ← lvPut lg (i * n + n - 1) st
    pure (st.map skipWs)
  pure st.isSome

/-- Vector.cpp:43: the allocated vector. -/
def lvSize (n : Int) : CArr → Int
  | .vec 0 => n
  | _ => 0

/-- Undefined behaviour. -/
def ubScript {α : Type} : Script (CTy R) α := Script.seq (fun _ => 0) (Prog.fail : Prog (CTy R) Unit) fun _ => .seq (fun _ => 0) Prog.fail .done

/-- Vector.cpp:10-64. Result: `none`, the size line reader is not finished after `fuel` rounds; `some none`, false;
`some (some (m, n))`, true with these sizes. The file is assumed to open. The int product of Vector.cpp:43 overflowing is
undefined. -/
def loadVectorMM (lg : Txt → Option (R × Txt)) (fuel : Nat) (s : Txt) : Script (CTy R) (Option (Option (Int × Int))) :=
  match mmReadBanner s with
  | none => ubScript
  | some (code, t, s1) =>
    if code ≠ 0 then .done (some none)
    else if mmIsValid t = false then .done (some none)
    else if t.f ≠ 'A' then .done (some none)
    else match mmReadSize 2 fuel s1 with
      | none => .done none
      | some .ub => ubScript
      | some (.ret c [m, n] s2) =>
        if c ≠ 0 then .done (some none)
        else if intBound ≤ m * n ∨ m * n < -intBound then ubScript
        else Script.seq (lvSize (m * n)) (lvBody lg m n s2) fun b => .done (some (if b then some (m, n) else none))
      | some (.ret _ _ _) => .done (some none)

theorem skipWs_app {a b : Txt} (h : ∀ c ∈ a, cSpace c = true) : skipWs (a ++ b) = skipWs b := by
  induction a with
  | nil => rfl
  | cons c a ih => rw [List.cons_append, skipWs_space (h c (List.mem_cons_self ..)), ih (fun x hx => h x (List.mem_cons_of_mem _ hx))]

theorem scanLg_congr {lg : Txt → Option (R × Txt)} {s s' : Txt} (h : skipWs s = skipWs s') : scanLg lg s = scanLg lg s' := by
  unfold scanLg; rw [h]

/-- A run of values, each followed by white space. -/
def valText (pr : R → Txt) (L : List (R × Txt)) : Txt := L.flatMap fun x => pr x.1 ++ x.2

theorem valText_drop {pr : R → Txt} {L : List (R × Txt)} {x : Nat} (hx : x < L.length) :
    valText pr (L.drop x) = pr (L[x].1) ++ (L[x].2 ++ valText pr (L.drop (x + 1))) := by
  unfold valText
  rw [List.drop_eq_getElem_cons hx, List.flatMap_cons, List.append_assoc]

/-- State after `x` values. -/
def LdvInv (pr : R → Txt) (fmt : R → R) (L : List (R × Txt)) (extra : Txt) (x : Nat) (st : Option Txt) (m : Mem (CTy R)) : Prop :=
  (x ≤ L.length ∧ (∃ s, st = some s ∧ skipWs s = skipWs (valText pr (L.drop x) ++ extra)) ∧
    ∀ y : Nat, ∀ h : y < L.length, y < x → m (.vec 0) (y : Int) = some (fmt (L[y].1))) ∨ (L.length < x ∧ st = none)

theorem wp_lvPut {sz : CArr → Int} {W Rd : CArr → Int → Prop} {lg : Txt → Option (R × Txt)} {pr : R → Txt} {fmt : R → R}
    {L : List (R × Txt)} {extra : Txt} {a : Int} {x : Nat} {st : Option Txt} {m : Mem (CTy R)}
    {Q : Option Txt → Mem (CTy R) → Prop}
    (hlg : ∀ v rest, AtSpace rest → scanLg lg (pr v ++ rest) = .ok (fmt v) rest)
    (hsep : ∀ e ∈ L, e.2 ≠ [] ∧ ∀ c ∈ e.2, cSpace c = true) (hex : L.length ≤ x → ∀ v r, scanLg lg extra ≠ .ok v r)
    (ha : a = (x : Int)) (hsz : (x : Int) < sz (.vec 0)) (hW : ∀ i, W (.vec 0) i) (hI : LdvInv pr fmt L extra x st m)
    (hQ : ∀ st' m', LdvInv pr fmt L extra (x + 1) st' m' → Q st' m') : wp sz W Rd (lvPut lg a st) m Q := by
  subst ha
  rcases hI with ⟨h1, ⟨s, rfl, h2⟩, h3⟩ | ⟨h1, rfl⟩
  · show wp sz W Rd (match scanLg lg s with
      | .ok v r => do
        Prog.write (ty := CTy R) (.vec 0) x v
        pure (some r)
      | _ => pure none) m Q
    by_cases hx : x < L.length
    · have e : scanLg lg s = .ok (fmt (L[x].1)) (L[x].2 ++ valText pr (L.drop (x + 1)) ++ extra) := by
        rw [scanLg_congr h2, valText_drop hx, List.append_assoc]
        have hs := hsep L[x] (List.getElem_mem hx)
        refine (hlg _ _ ?_).trans ?_
        · intro c hc
          cases hq : L[x].2 with
          | nil => exact absurd hq hs.1
          | cons d t =>
            rw [hq] at hc
            have : d = c := by simpa using hc
            subst this
            exact hs.2 d (by rw [hq]; exact List.mem_cons_self ..)
        · rfl
      rw [e]
      dsimp only
      refine wp_wr (hW _) ⟨by omega, hsz⟩ ?_
      rw [wp_pure]
      refine hQ _ _ (Or.inl ⟨hx, ⟨_, rfl, ?_⟩, ?_⟩)
      · have hs := hsep L[x] (List.getElem_mem hx)
        rw [List.append_assoc, skipWs_app hs.2]
      · intro y hy hyx
        by_cases hyx' : y = x
        · subst hyx'; rw [Mem.get_same]
        · rw [Mem.get_ne _ _ _ _ _ (by omega)]
          exact h3 y hy (by omega)
    · have hdrop : L.drop x = [] := List.drop_eq_nil_iff.mpr (by omega)
      rw [hdrop] at h2
      have h2 : skipWs s = skipWs extra := h2
      have hne := hex (by omega)
      rw [scanLg_congr h2]
      cases hq : scanLg lg extra with
      | ok v r => exact absurd hq (hne v r)
      | fail r => dsimp only; rw [wp_pure]; exact hQ _ _ (Or.inr ⟨by omega, rfl⟩)
      | eof => dsimp only; rw [wp_pure]; exact hQ _ _ (Or.inr ⟨by omega, rfl⟩)
      | ub => dsimp only; rw [wp_pure]; exact hQ _ _ (Or.inr ⟨by omega, rfl⟩)
  · show wp sz W Rd (pure none) m Q
    rw [wp_pure]
    exact hQ _ _ (Or.inr ⟨by omega, rfl⟩)

theorem wp_lvBody {sz : CArr → Int} {W Rd : CArr → Int → Prop} {lg : Txt → Option (R × Txt)} {pr : R → Txt} {fmt : R → R}
    {L : List (R × Txt)} {extra : Txt} {m n : Nat} {m0 : Mem (CTy R)} {Q : Bool → Mem (CTy R) → Prop} (hn : 1 ≤ n)
    (hlg : ∀ v rest, AtSpace rest → scanLg lg (pr v ++ rest) = .ok (fmt v) rest)
    (hsep : ∀ e ∈ L, e.2 ≠ [] ∧ ∀ c ∈ e.2, cSpace c = true) (hex : L.length < m * n → ∀ v r, scanLg lg extra ≠ .ok v r)
    (hsz : sz (.vec 0) = (m : Int) * n) (hW : ∀ i, W (.vec 0) i)
    (hQ : ∀ b m', b = decide (m * n ≤ L.length) → (∀ y : Nat, ∀ h : y < L.length, y < m * n → m * n ≤ L.length →
      m' (.vec 0) (y : Int) = some (fmt (L[y].1))) → Q b m') :
    wp sz W Rd (lvBody lg m n (valText pr L ++ extra)) m0 Q := by
  unfold lvBody
  rw [wp_bind]
  refine wp_forN (b := 0) (lo := 0) (hi := m) (fun i st m' => LdvInv pr fmt L extra (i * n) st m') (Nat.zero_le _) ?_ ?_ ?_ (by simp) (by simp)
  · rw [Nat.zero_mul]
    exact Or.inl ⟨Nat.zero_le _, ⟨_, rfl, rfl⟩, fun y _ h => absurd h (by omega)⟩
  · intro i st m' _ hi hI
    have hlt : ∀ j, j < n → i * n + j < m * n := by
      intro j hj
      calc i * n + j < i * n + n := by omega
        _ = (i + 1) * n := by rw [Nat.succ_mul]
        _ ≤ m * n := Nat.mul_le_mul_right _ hi
    rw [Int.add_zero]
    rw [wp_bind]
    refine wp_forN (b := 0) (lo := 0) (hi := n - 1) (fun j st m' => LdvInv pr fmt L extra (i * n + j) st m') (Nat.zero_le _) hI ?_ ?_ (by simp)
      (by omega)
    · intro j st m' _ hj hI
      refine wp_lvPut hlg hsep (x := i * n + j) (fun h => hex (by have := hlt j (by omega); omega)) (by push_cast; omega) ?_ hW hI ?_
      · rw [hsz]; have := hlt j (by omega); exact_mod_cast this
      · intro st' m'' h; exact h
    · intro st m' hI
      rw [wp_bind]
      refine wp_lvPut hlg hsep (x := i * n + (n - 1)) (fun h => hex (by have := hlt (n - 1) (by omega); omega)) (by push_cast; omega) ?_ hW hI ?_
      · rw [hsz]; have := hlt (n - 1) (by omega); exact_mod_cast this
      · intro st' m'' h
        rw [wp_pure]
        have e : (i + 1) * n = i * n + (n - 1) + 1 := by rw [Nat.succ_mul]; omega
        show LdvInv pr fmt L extra ((i + 1) * n) _ _
        rw [e]
        rcases h with ⟨h1, ⟨s, rfl, h2⟩, h3⟩ | ⟨h1, rfl⟩
        · exact Or.inl ⟨h1, ⟨_, rfl, by rw [skipWs_skipWs]; exact h2⟩, h3⟩
        · exact Or.inr ⟨h1, rfl⟩
  · intro st m' hI
    rw [wp_pure]
    rcases hI with ⟨h1, ⟨s, rfl, _⟩, h3⟩ | ⟨h1, rfl⟩
    · exact hQ _ _ (by rw [decide_eq_true h1]; rfl) (fun y hy h _ => h3 y hy h)
    · exact hQ _ _ (by rw [decide_eq_false (by omega)]; rfl) (fun y hy h h4 => absurd h4 (by omega))

end SpMP
