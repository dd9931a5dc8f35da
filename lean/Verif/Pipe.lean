import Verif.Rcm
import Verif.Sched
import Verif.Spin
/-
The pipelined placing of a large component in getRCMPermutation (/repo/reordering/RCM.cpp:887-936). Arrays: those of Verif/Rcm.lean and
`itmp 23` = write_offset.

Simplifications as in Verif/Rcm.lean: prefixSum[l+1] is read once per level; `int` does not overflow.
-/

namespace SpMP
open Spec

variable {R : Type}

/-- `write_offset` (RCM.cpp:693). -/
abbrev rcmWo : CArr := .itmp 23

/-- RCM.cpp:899-904: thread `t` stores the start of every `T`-th level, thread 0 that one node of level 0 is placed. -/
def pipeStart (T nl : Nat) (off : Int) (t : Nat) : Prog (CTy R) Unit := do
  Prog.forUp (ty := CTy R) 0 ((nl : Int) + 1) () fun l _ =>
    if l.toNat % T = t then do
      let a ← Prog.read (ty := CTy R) rcmPfx l
      Prog.write (ty := CTy R) rcmWo (16 * l) ((a : Int) + off)
    else pure ()
  if t = 0 then Prog.write (ty := CTy R) rcmWo 0 (off + 1) else pure ()

/-- Where a thread is in the loop over levels: about to start level `l`, or at position `r` of level `l`, which ends at `e`. -/
inductive PipeCtl where
  | lvl (t l : Nat)
  | pos (t l : Nat) (r e : Int)

/-- RCM.cpp:927-933: place the `n` children in `children` (at `o`) from position `w` on, publishing each. -/
def pipePut (m : Nat) (o : Int) (l : Nat) (w n : Int) : Prog (CTy R) Unit :=
  Prog.forUp (ty := CTy R) 0 n () fun i _ => do
    let c ← Prog.read (ty := CTy R) rcmChd (o + i)
    Prog.write (ty := CTy R) bfsInv ((m : Int) - (w + i) - 1) (c : Int)
    Prog.write (ty := CTy R) bfsPrm (c : Int) ((m : Int) - (w + i) - 1)
    Prog.write (ty := CTy R) rcmWo (16 * ((l : Int) + 1)) (w + i + 1)

/-- RCM.cpp:912-933: expand the node at position `r`; `o` is the position of `children`. -/
def pipeNode (k m : Nat) (srt : List (Int × Int) → List (Int × Int)) (o : Int) (l : Nat) (r : Int) : Prog (CTy R) Unit := do
  let u ← Prog.read (ty := CTy R) bfsInv ((m : Int) - r - 1)
  let n ← rcmChildren k o (u : Int) (l : Int)
  rcmSort k srt o n
  let w ← Prog.read (ty := CTy R) rcmWo (16 * ((l : Int) + 1))
  pipePut m o l (w : Int) n

/-- RCM.cpp:908-935: the loop of a thread; `md` is maxDegree. The loop over positions stops at r = e, so r must not start beyond it. -/
def pipeCode (k m T nl md : Nat) (srt : List (Int × Int) → List (Int × Int)) (off : Int) : PipeCtl → Prog (CTy R) PipeCtl
  | .lvl t l => do
    let a ← Prog.read (ty := CTy R) rcmPfx (l : Int)
    let b ← Prog.read (ty := CTy R) rcmPfx ((l : Int) + 1)
    pure (.pos t l ((a : Int) + off) ((b : Int) + off))
  | .pos t l r e =>
    if r = e then pure (.lvl t (l + T)) else do
    Prog.assert (ty := CTy R) (r < e)
    pipeNode k m srt ((t : Int) * md) l r
    pure (.pos t l (r + 1) e)

/-- RCM.cpp:911: `while (r == write_offset[16*l]);` -/
def pipeGuard : PipeCtl → Option ((a : CArr) × Int × (CTy R a → Bool))
  | .lvl _ _ => none
  | .pos _ l r e => if r = e then none else some ⟨rcmWo, 16 * (l : Int), fun v => decide ((v : Int) ≠ r)⟩

/-- The team's code. -/
def pipe (k m T nl md : Nat) (srt : List (Int × Int) → List (Int × Int)) (off : Int) : Spin (CTy R) PipeCtl where
  guard := pipeGuard
  code := pipeCode k m T nl md srt off
  stop := fun c => match c with
    | .lvl _ l => decide (nl ≤ l)
    | .pos .. => false

/-- RCM.cpp:884-936: place the component whose nodes have their levels in `levels`, from `source` on. -/
def rcmPipe (sz : CArr → Int) (k m T nl md : Nat) (srt : List (Int × Int) → List (Int × Int)) (off src : Int) : Script (CTy R) Unit :=
  Script.seq sz (do
    Prog.write (ty := CTy R) bfsInv ((m : Int) - off - 1) src
    Prog.write (ty := CTy R) bfsPrm src ((m : Int) - off - 1)) fun _ =>
  .phase sz T (pipeStart T nl off) fun _ =>
  .spin sz T (pipe k m T nl md srt off) (fun t => .lvl t t) (.done ())

/-! ### Descent of the control points -/

/-- Rank of a control point. -/
def pipeRank (nl : Nat) : PipeCtl → Nat × Nat
  | .lvl _ l => (if l < nl then 2 * (nl - l) + 1 else 0, 0)
  | .pos _ l r e => (if l < nl then 2 * (nl - l) else 1, (e - r).toNat)

theorem pipe_wf (nl : Nat) : WellFounded (fun c' c : PipeCtl => Prod.Lex (· < ·) (· < ·) (pipeRank nl c') (pipeRank nl c)) :=
  InvImage.wf (pipeRank nl) (Prod.lex ⟨_, Nat.lt_wfRel.wf⟩ ⟨_, Nat.lt_wfRel.wf⟩).wf

theorem pipe_desc {k m T nl md : Nat} {srt : List (Int × Int) → List (Int × Int)} {off : Int} (hT : 1 ≤ T) (c c' : PipeCtl)
    (hs : (pipe (R := R) k m T nl md srt off).stop c = false) (h : ((pipe (R := R) k m T nl md srt off).code c).Ret c') :
    Prod.Lex (· < ·) (· < ·) (pipeRank nl c') (pipeRank nl c) := by
  cases c with
  | lvl t l =>
    obtain ⟨a, _, h⟩ := Prog.ret_bind h
    obtain ⟨b, _, h⟩ := Prog.ret_bind h
    change c' = _ at h
    subst h
    have hl : l < nl := by simpa [pipe] using hs
    refine Prod.Lex.left _ _ ?_
    rw [if_pos hl, if_pos hl]; omega
  | pos t l r e =>
    change (if r = e then (pure (.lvl t (l + T)) : Prog (CTy R) PipeCtl) else _).Ret c' at h
    split at h
    · change c' = _ at h
      subst h
      refine Prod.Lex.left _ _ ?_
      show (if l + T < nl then 2 * (nl - (l + T)) + 1 else 0) < (if l < nl then 2 * (nl - l) else 1)
      split <;> split <;> omega
    · obtain ⟨_, h1, h⟩ := Prog.ret_bind h
      obtain ⟨_, _, h⟩ := Prog.ret_bind h
      change c' = _ at h
      subst h
      have hre : r < e := by
        by_contra hc
        unfold Prog.assert at h1
        rw [if_neg hc] at h1
        exact h1
      refine Prod.Lex.right' _ (Nat.le_refl _) ?_
      show (e - (r + 1)).toNat < (e - r).toNat
      omega

end SpMP
