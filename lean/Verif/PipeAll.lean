import Verif.PipeProof
import Verif.BinFile
/-
The pipelined placing of a large component: storing the starts of the levels, and the whole of RCM.cpp:884-936.
-/

namespace SpMP
open Spec

variable {R : Type}

/-- Storing the starts of the levels. -/
theorem pipeStart_ok {sz : CArr → Int} {T nl off : Nat} {pf : Nat → Nat} {m0 : Mem (CTy R)} (hT : 1 ≤ T)
    (hp : ∀ l : Nat, l ≤ nl → m0 rcmPfx (l : Int) = some (pf l : Int)) (hsz : 16 * (nl : Int) < sz rcmWo) {Post : (Nat → Unit) → Mem (CTy R) → Prop}
    (hQ : ∀ r m, m rcmWo 0 = some ((off + 1 : Nat) : Int) → (∀ l : Nat, l < nl → m rcmWo (16 * ((l : Int) + 1)) = some ((off + pf (l + 1) : Nat) : Int)) →
      (∀ a i, a ≠ rcmWo → m a i = m0 a i) → Post r m) :
    ParOk sz T Post (pipeStart T nl (off : Int)) m0 := by
  refine par_rule (W := fun t a i => a = rcmWo ∧ ∃ l : Nat, l % T = t ∧ i = 16 * (l : Int))
    (R := fun t a i => (a = rcmWo ∧ ∃ l : Nat, l % T = t ∧ i = 16 * (l : Int)) ∨ a = rcmPfx)
    (Q := fun t _ m => ∀ l : Nat, l ≤ nl → l % T = t → m rcmWo (16 * (l : Int)) = some ((off + (if l = 0 then 1 else pf l) : Nat) : Int)) ?_ ?_ ?_
  · rintro t u a i _ _ hne ⟨rfl, l, h1, rfl⟩ (⟨_, l', h2, h3⟩ | h)
    · have : l = l' := by omega
      subst this; omega
    · simp at h
  · intro t ht
    unfold pipeStart
    rw [wp_bind]
    refine wp_forN (b := 0) (lo := 0) (hi := nl + 1)
      (fun n _ m => (∀ l : Nat, l < n → l % T = t → m rcmWo (16 * (l : Int)) = some ((off + pf l : Nat) : Int)) ∧ ∀ a i, a ≠ rcmWo → m a i = m0 a i)
      (by omega) ⟨fun _ h => by omega, fun _ _ _ => rfl⟩ ?_ ?_ (by omega) (by omega)
    · rintro n _ m h1 h2 ⟨h3, h4⟩
      rw [Int.add_zero, Int.toNat_natCast]
      by_cases hm : n % T = t
      · rw [if_pos hm]
        refine wp_rd ((pf n : Int)) (Or.inr rfl) (by rw [h4 _ _ (by simp)]; exact hp n (by omega)) ?_
        refine wp_wr1 ⟨rfl, n, hm, rfl⟩ ⟨by omega, by omega⟩ ⟨?_, ?_⟩
        · intro l hl hlm
          by_cases e : l = n
          · subst e
            rw [Mem.get_same]
            congr 1
            push_cast; ring
          · rw [Mem.get_ne _ _ _ _ _ (by omega)]; exact h3 l (by omega) hlm
        · intro a i ha
          rw [Mem.set_other _ _ _ _ _ ha]; exact h4 a i ha
      · rw [if_neg hm, wp_pure]
        exact ⟨fun l hl hlm => h3 l (by rcases Nat.lt_or_eq_of_le (Nat.lt_succ_iff.1 hl) with e | e; · exact e
                                        · subst e; exact absurd hlm hm) hlm, h4⟩
    · rintro _ m ⟨h3, h4⟩
      by_cases h0 : t = 0
      · rw [if_pos h0]
        refine wp_wr1 ⟨rfl, 0, by rw [Nat.zero_mod]; exact h0.symm, rfl⟩ ⟨by omega, by omega⟩ ?_
        intro l hl hlm
        by_cases e : l = 0
        · subst e
          rw [if_pos rfl]
          show (m.set rcmWo 0 _) rcmWo 0 = _
          rw [Mem.get_same]; rfl
        · rw [if_neg e, Mem.get_ne _ _ _ _ _ (by omega)]; exact h3 l (by omega) hlm
      · rw [if_neg h0, wp_pure]
        intro l hl hlm
        by_cases e : l = 0
        · subst e; rw [Nat.zero_mod] at hlm; omega
        · rw [if_neg e]; exact h3 l (by omega) hlm
  · intro r m hq hf
    have key : ∀ l : Nat, l ≤ nl → m rcmWo (16 * (l : Int)) = some ((off + (if l = 0 then 1 else pf l) : Nat) : Int) := by
      intro l hl
      obtain ⟨mt, h1, h2⟩ := hq (l % T) (Nat.mod_lt _ hT)
      rw [h2 _ _ (Or.inl ⟨rfl, l, rfl, rfl⟩)]
      exact h1 l hl rfl
    refine hQ r m ?_ ?_ ?_
    · have := key 0 (Nat.zero_le _)
      rw [if_pos rfl] at this
      exact this
    · intro l hl
      have := key (l + 1) hl
      rw [if_neg (by omega)] at this
      rw [show 16 * ((l : Int) + 1) = 16 * ((l + 1 : Nat) : Int) by push_cast; ring]
      exact this
    · intro a i ha
      exact hf a i (fun t _ hw => ha hw.1)

/-- The cells the placing of the component of `s` writes. -/
def PipeCell (A : Csr R) (s off n T md : Nat) (a : CArr) (i : Int) : Prop :=
  (a = bfsLev ∧ ∃ x : Nat, Reaches A s x ∧ i = (x : Int)) ∨ (a = bfsPrm ∧ ∃ x : Nat, Reaches A s x ∧ i = (x : Int)) ∨
    (a = bfsInv ∧ (A.m : Int) - ((off + n : Nat) : Int) ≤ i ∧ i < (A.m : Int) - off) ∨ a = rcmWo ∨ (a = rcmChd ∧ 0 ≤ i ∧ i < (T : Int) * md)

/-- RCM.cpp:884-936, for every team and interleaving. -/
theorem rcmPipe_ok {sz : CArr → Int} {k T nl md off : Nat} {A : Csr R} {s : Nat} {D : Nat → Nat} {N : List Nat} {srt : List (Int × Int) → List (Int × Int)}
    {m0 : Mem (CTy R)} (cm : CmCtx A s D N srt) (hT : 1 ≤ T) (hlv : ∀ x, Reaches A s x → D x + 1 ≤ nl) (room : off + N.length ≤ A.m)
    (hdeg : ∀ u, u < A.m → degree A u ≤ md) (pat : HoldsPat m0 k 0 A)
    (pfx : ∀ l : Nat, l ≤ nl → m0 rcmPfx (l : Int) = some (N.countP (fun y => decide (D y < l)) : Int))
    (lev : ∀ x, Reaches A s x → m0 bfsLev (x : Int) = some (D x : Int))
    (sz_lev : (A.m : Int) ≤ sz bfsLev) (sz_inv : (A.m : Int) ≤ sz bfsInv) (sz_prm : (A.m : Int) ≤ sz bfsPrm)
    (sz_wo : 16 * (nl : Int) < sz rcmWo) (sz_chd : (T : Int) * md ≤ sz rcmChd) {Q : Unit → Mem (CTy R) → Prop}
    (hQ : ∀ m, RcmOut A off (cmAll A s D N srt) m → (∀ a i, ¬ PipeCell A s off N.length T md a i → m a i = m0 a i) → Q () m) :
    (rcmPipe sz k A.m T nl md srt (off : Int) (s : Int)).Ok m0 Q := by
  have hs := cm.src
  have hNpos : 1 ≤ N.length := by
    have := (cm.mem s).2 (.refl s)
    cases N with
    | nil => cases this
    | cons => simp
  unfold rcmPipe
  refine seq_rule ?_
  refine wp_wr trivial ⟨by omega, by omega⟩ ?_
  refine wp_wr1 trivial ⟨by omega, by omega⟩ ?_
  generalize hm1 : ((m0.set bfsInv ((A.m : Int) - off - 1) (s : Int)).set bfsPrm (s : Int) ((A.m : Int) - off - 1)) = m1
  have f1 : ∀ a i, a ≠ bfsInv → a ≠ bfsPrm → m1 a i = m0 a i := by
    intro a i n1 n2
    rw [← hm1, Mem.set_other _ _ _ _ _ n2, Mem.set_other _ _ _ _ _ n1]
  have g1 : m1 bfsInv ((A.m : Int) - off - 1) = some (s : Int) := by rw [← hm1, Mem.set_other _ _ _ _ _ (by simp), Mem.get_same]
  have g2 : m1 bfsPrm (s : Int) = some ((A.m : Int) - off - 1 : Int) := by rw [← hm1, Mem.get_same]
  have f2 : ∀ a i, ¬ PipeCell A s off N.length T md a i → m1 a i = m0 a i := by
    intro a i hn
    rw [← hm1]
    rcases Mem.set_cases (m0.set bfsInv ((A.m : Int) - off - 1) (s : Int)) bfsPrm (s : Int) ((A.m : Int) - off - 1) a i with ⟨rfl, rfl⟩ | e
    · exact absurd (Or.inr (Or.inl ⟨rfl, s, .refl s, rfl⟩)) hn
    · rw [e]
      rcases Mem.set_cases m0 bfsInv ((A.m : Int) - off - 1) (s : Int) a i with ⟨rfl, rfl⟩ | e
      · exact absurd (Or.inr (Or.inr (Or.inl ⟨rfl, by push_cast; omega, by omega⟩))) hn
      · exact e
  refine pipeStart_ok (pf := cmPf D N) hT (fun l hl => by rw [f1 _ _ (by simp) (by simp)]; exact pfx l hl) sz_wo ?_
  intro _ m2 h0 hw hf
  let E : PipeEnv R := ⟨sz, k, T, nl, md, off, A, s, D, N, srt, m2⟩
  have hE : E.Start := by
    refine ⟨cm, hT, hlv, room, hdeg, ⟨fun i hi => ?_, fun j hj => ?_⟩, fun l hl => ?_, fun x hx => ?_, ?_, ?_, h0, hw, sz_lev, sz_inv, sz_prm, sz_wo, sz_chd⟩
    · show m2 _ _ = _
      rw [hf _ _ (by simp), f1 _ _ (by simp) (by simp)]; exact pat.rowptr i hi
    · show m2 _ _ = _
      rw [hf _ _ (by simp), f1 _ _ (by simp) (by simp)]; exact pat.colidx j hj
    · show m2 _ _ = _
      rw [hf _ _ (by simp), f1 _ _ (by simp) (by simp)]; exact pfx l hl
    · show m2 _ _ = _
      rw [hf _ _ (by simp), f1 _ _ (by simp) (by simp)]; exact lev x hx
    · show m2 _ _ = _
      rw [hf _ _ (by simp), show E.ix 0 = (A.m : Int) - off - 1 by unfold PipeEnv.ix; simp [E]]; exact g1
    · show m2 _ _ = _
      rw [hf _ _ (by simp), show E.ix 0 = (A.m : Int) - off - 1 by unfold PipeEnv.ix; simp [E]]; exact g2
  refine TeamOk.mono hE.team_ok ?_
  rintro _ m ⟨h1, h2⟩
  refine Script.ok_done_of (hQ m h1 ?_)
  intro a i hn
  rw [← f2 a i hn]
  by_cases hwo : a = rcmWo
  · exact absurd (Or.inr (Or.inr (Or.inr (Or.inl hwo)))) hn
  rw [← hf a i hwo]
  refine h2.const a i ?_
  intro t ht ho
  apply hn
  rcases PipeEnv.own_arr ho with rfl | rfl | rfl | rfl | rfl
  · obtain ⟨j, x, l, e1, _, _, e2⟩ := PipeEnv.own_lev ho
    exact Or.inl ⟨rfl, x, hE.reach e1, e2⟩
  · obtain ⟨j, x, l, e1, _, _, e2⟩ := PipeEnv.own_inv ho
    have := hE.pos_lt e1
    have e3 : i = (A.m : Int) - ((off + j : Nat) : Int) - 1 := e2
    have e4 : j < N.length := this
    exact Or.inr (Or.inr (Or.inl ⟨rfl, by push_cast at *; omega, by push_cast at *; omega⟩))
  · obtain ⟨j, x, l, e1, _, _, e2⟩ := PipeEnv.own_prm ho
    exact Or.inr (Or.inl ⟨rfl, x, hE.reach e1, e2⟩)
  · exact absurd rfl hwo
  · obtain ⟨q, e1, e2⟩ := PipeEnv.own_chd ho
    have e3 : i = (t : Int) * md + q := e2
    have e4 : q < md := e1
    have hb : 0 ≤ (t : Int) * md := by positivity
    have : ((t + 1) * md : Nat) ≤ T * md := Nat.mul_le_mul_right _ ht
    rw [Nat.add_mul, Nat.one_mul] at this
    have h4 : ((t * md + md : Nat) : Int) ≤ ((T * md : Nat) : Int) := by exact_mod_cast this
    push_cast at h4
    exact Or.inr (Or.inr (Or.inr (Or.inr ⟨rfl, by omega, by omega⟩)))

end SpMP
