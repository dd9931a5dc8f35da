import Verif.RcmGet
import Verif.RcmSelProof
import Verif.PipeAll
/-
getRCMPermutation: one large component, searched from a given source, by a team.
-/

namespace SpMP
open Spec

variable {R : Type} {sz : CArr → Int} {A : Csr R} {k T : Nat} {m0 : Mem (CTy R)}

/-- Room for large components. -/
structure LargeRoom (A : Csr R) (T md : Nat) (sz : CArr → Int) : Prop where
  q0 : (T : Int) * A.m ≤ sz (bfsQ 0)
  q1 : (T : Int) * A.m ≤ sz (bfsQ 1)
  rp : (T : Int) * A.m ≤ sz bufA
  bits : (A.m : Int) ≤ sz bfsBits
  lev : (A.m : Int) ≤ sz bfsLev
  inv : (A.m : Int) ≤ sz bfsInv
  prm : (A.m : Int) ≤ sz bfsPrm
  chd : (T : Int) * md ≤ sz rcmChd
  pfx : (A.m : Int) + 1 ≤ sz rcmPfx
  wo : ((A.m : Int) + 1) * 16 ≤ sz rcmWo

/-- Cells handling a large component may change. -/
def LargeCell (A : Csr R) (s off n : Nat) (a : CArr) (i : Int) : Prop :=
  (a = bfsQ 0 ∨ a = bfsQ 1 ∨ a = bufA ∨ a = rcmPfx ∨ a = rcmCnt ∨ a = rcmLoc ∨ a = rcmWo ∨ a = rcmChd) ∨
    ((a = bfsBits ∨ a = bfsLev ∨ a = bfsPrm) ∧ ∃ x : Nat, Reaches A s x ∧ i = (x : Int)) ∨
    (a = bfsInv ∧ (A.m : Int) - ((off + n : Nat) : Int) ≤ i ∧ i < (A.m : Int) - off)

theorem exists_dist (A : Csr R) (s : Nat) : ∃ D : Nat → Nat, ∀ x, Reaches A s x → IsDist A s x (D x) := by
  classical
  refine ⟨fun x => if h : Reaches A s x then h.dist.choose else 0, fun x hx => ?_⟩
  dsimp only
  rw [dif_pos hx]; exact hx.dist.choose_spec

theorem rcmLargeComp_ok {md s off : Nat} {N : List Nat} {D : Nat → Nat} {srt : List (Int × Int) → List (Int × Int)} {clr cnt : Nat → Nat} (wf : A.WF) (hsq : A.n = A.m) (hT : 1 ≤ T)
    (hs : s < A.m) (hnd : N.Nodup) (hmem : ∀ x, x ∈ N ↔ Reaches A s x) (hsrt : SortsByKey srt) (hclr : ∀ x, x < N.length → clr x < T) (hcnt : ∀ x, x < N.length → cnt x < T)
    (hD : ∀ x, Reaches A s x → IsDist A s x (D x)) (hlong : ∀ x d, IsDist A s x d → d + 1 < A.m) (hoff : off + N.length ≤ A.m) (hdeg : ∀ u, u < A.m → degree A u ≤ md) (room : LargeRoom A T md sz)
    (hpat : HoldsPat m0 k 0 A) (hq : HoldsQ m0 5 (off : Int) N) (hdef : ∀ x ∈ N, ∃ v : Int, m0 bfsBits (x : Int) = some v) {Q : Unit → Mem (CTy R) → Prop}
    (hQ : ∀ m, RPlaced A s off (cmAll A s D N srt) m → (∀ x ∈ N, ∃ v : Int, m bfsBits (x : Int) = some v) → (∀ a i, ¬ LargeCell A s off N.length a i → m a i = m0 a i) → Q () m) :
    (rcmLargeComp sz T k A.m md srt clr cnt (s : Int) (off : Int) N.length).Ok m0 Q := by
  classical
  have hNlt : ∀ x ∈ N, x < A.m := fun x hx => ((hmem x).1 hx).lt wf hsq hs
  have hm2 : 2 ≤ A.m := by have := hlong s 0 isDist_zero; omega
  have hbig : 2 ≤ T * A.m := Nat.le_trans hm2 (Nat.le_mul_of_pos_left _ hT)
  unfold rcmLargeComp
  refine rcmClear_ok hclr hnd hNlt hq hdef room.bits ?_
  intro _ m1 hb1 hf1
  have hpat1 : HoldsPat m1 k 0 A := ⟨fun i hi => by rw [hf1 _ _ (by simp)]; exact hpat.rowptr i hi, fun i hi => by rw [hf1 _ _ (by simp)]; exact hpat.colidx i hi⟩
  rw [Script.ok_bind]
  refine Script.Ok.mono (bfsLevPar_ok wf hsq hT hbig hs hpat1 (fun x hx => hb1 x ((hmem x).2 hx)) room.q0 room.q1 room.rp room.bits (fun _ => room.lev)) ?_
  rintro r m2 (⟨⟨w, hw, _⟩, _⟩ | ⟨d, hr, _, hd⟩)
  · cases hw
  rw [hr, show ((d : Int) + 1).toNat = d + 1 by omega]
  have hdm : d < A.m := by
    by_contra hc
    obtain ⟨x, hx⟩ := hd.below (A.m - 1) (by omega)
    have := hlong x _ hx
    omega
  have hpat2 : HoldsPat m2 k 0 A :=
    ⟨fun i hi => by rw [hd.frame _ _ (by simp [LsCell])]; exact hpat1.rowptr i hi, fun i hi => by rw [hd.frame _ _ (by simp [LsCell])]; exact hpat1.colidx i hi⟩
  have hq2 : HoldsQ m2 5 (off : Int) N := by
    intro j x hj
    rw [hd.frame _ _ (by simp [LsCell]), hf1 _ _ (by simp)]; exact hq j x hj
  rw [Script.ok_bind]
  have hwo := room.wo
  have hpf := room.pfx
  refine rcmSums_ok (D := D) hT hcnt hNlt (fun x hx => ?_) hq2 (fun x hx => hd.lev rfl x _ (hD x ((hmem x).1 hx))) (by push_cast; omega) ?_
  · have := hd.lt x _ (hD x ((hmem x).1 hx)); omega
  intro m3 h3 hf3
  have cm : CmCtx A s D N srt := ⟨wf, hsq, hs, hD, hnd, hmem, hsrt⟩
  refine rcmPipe_ok cm hT (fun x hx => ?_) hoff hdeg ?_ h3 (fun x hx => ?_) room.lev room.inv room.prm (by push_cast; omega) room.chd ?_
  · have := hd.lt x _ (hD x hx); omega
  · exact ⟨fun i hi => by rw [hf3 _ _ (by simp) (by simp) (by simp)]; exact hpat2.rowptr i hi, fun i hi => by rw [hf3 _ _ (by simp) (by simp) (by simp)]; exact hpat2.colidx i hi⟩
  · rw [hf3 _ _ (by simp) (by simp) (by simp)]; exact hd.lev rfl x _ (hD x hx)
  intro m4 h4 hf4
  have hl := cm.all_list
  refine hQ m4 ⟨hl.nodup, cm.all_mem, ?_, ?_, h4.inv, h4.perm⟩ (fun x hx => ⟨1, ?_⟩) (fun a i hn => ?_)
  · refine List.Pairwise.imp_of_mem ?_ hl.sorted
    intro x y hx hy hxy d e hd he
    rw [← (hD x ((cm.all_mem x).1 hx)).unique hd, ← (hD y ((cm.all_mem y).1 hy)).unique he]
    exact hxy
  · obtain ⟨F, hF⟩ := hl.firsts
    exact ⟨F, fun q h1 h2 => ⟨(hF.first q h1 h2).1, by have := (hF.first q h1 h2).1; omega, (hF.first q h1 h2).2.2⟩, hF.order⟩
  · rw [hf4 _ _ (by simp [PipeCell]), hf3 _ _ (by simp) (by simp) (by simp)]
    exact hd.bit x ((hmem x).1 hx)
  · have n1 : ¬ PipeCell A s off N.length T md a i := by
      rintro (⟨e, x⟩ | ⟨e, x⟩ | x | e | ⟨e, _⟩)
      · exact hn (Or.inr (Or.inl ⟨Or.inr (Or.inl e), x⟩))
      · exact hn (Or.inr (Or.inl ⟨Or.inr (Or.inr e), x⟩))
      · exact hn (Or.inr (Or.inr x))
      · exact hn (Or.inl (by simp [e]))
      · exact hn (Or.inl (by simp [e]))
    rw [hf4 a i n1, hf3 a i (fun h => hn (Or.inl (by simp [h.1]))) (fun h => hn (Or.inl (by simp [h]))) (fun h => hn (Or.inl (by simp [h]))), hd.frame a i ?_, hf1 a i ?_]
    · rintro ⟨e, x, hx, h5⟩
      exact hn (Or.inr (Or.inl ⟨Or.inl e, x, (hmem x).1 hx, h5⟩))
    · rintro (e | e | e | ⟨e | e, x⟩)
      · exact hn (Or.inl (by simp [e]))
      · exact hn (Or.inl (by simp [e]))
      · exact hn (Or.inl (by simp [e]))
      · exact hn (Or.inr (Or.inl ⟨Or.inl e, x⟩))
      · exact hn (Or.inr (Or.inl ⟨Or.inr (Or.inl e), x⟩))

end SpMP
