import Verif.LevelInt
import Verif.Components
import Verif.Rcm
import Verif.Bfs
/-
The sizes of the arrays that the reordering functions allocate, computed with 32-bit ints as in the code.
-/

namespace SpMP

section
variable {A : Type} {ty : A → Type} {α : Type}

/-- The constructor of bfsAuxData (RCM.cpp:179-180, 187; BFSBipartite.cpp:445-446, 453): the sizes of `q[0]`, `q[1]` and `rowptrs`. -/
def bfsAuxC (m T : Int) : Prog ty (Int × Int × Int) := do
  let a ← iMul m T
  let b ← iMul m T
  let c ← iMul T m
  pure (a, b, c)

/-- findConnectedComponents (ConnectedComponents.cpp:82, 208): the sizes of `nodesToFindArray` (with a bit vector only) and of
`*compSizePrefixSum`. -/
def ccSizesC (wb : Bool) (m T nc : Int) : Prog ty (Int × Int) := do
  let a ← (if wb then iMul m T else pure (m * T) : Prog ty Int)
  let x ← iAdd nc 1
  let b ← iMul x T
  pure (a, b)

/-- getRCMPermutation (RCM.cpp:688, 692-694): the sizes of `children_array`, those of bfsAuxData, of `write_offset` and of
`prefixSum_array`. -/
def rcmSizesC (m T thr md : Int) : Prog ty (Int × (Int × Int × Int) × Int × Int) := do
  let a ← iMul T (max thr md)
  let q ← bfsAuxC m T
  let x ← iAdd m 1
  let w ← iMul x 16
  let y ← iMul T thr
  let p ← iAdd (max y m) 1
  pure (a, q, w, p)

theorem bind_ck_ret {v : Int} {f : Int → Prog ty α} {r : α} : ((ck v : Prog ty Int) >>= f) = .ret r ↔ InInt v ∧ f v = .ret r := by
  by_cases h : InInt v
  · rw [ck_bind h]; exact ⟨fun e => ⟨h, e⟩, fun e => e.2⟩
  · rw [ck_fail_bind h]; exact ⟨fun e => (nomatch e), fun e => absurd e.1 h⟩

theorem pure_ret {a r : α} : (pure a : Prog ty α) = .ret r ↔ r = a :=
  ⟨fun h => by cases h; rfl, fun h => by rw [h]; rfl⟩

theorem bfsAuxC_ret {m T : Int} {r : Int × Int × Int} :
    (bfsAuxC m T : Prog ty _) = .ret r ↔ InInt (m * T) ∧ r = (m * T, m * T, T * m) := by
  unfold bfsAuxC iMul
  rw [bind_ck_ret, bind_ck_ret, bind_ck_ret, pure_ret, Int.mul_comm T m]
  exact ⟨fun h => ⟨h.1, h.2.2.2⟩, fun h => ⟨h.1, h.1, h.1, h.2⟩⟩

theorem bfsAuxC_fail {m T : Int} (h : ¬ InInt (m * T)) : (bfsAuxC m T : Prog ty _) = .fail := by
  unfold bfsAuxC iMul
  exact ck_fail_bind h

theorem bfsAuxC_bind {m T : Int} {f : Int × Int × Int → Prog ty α} {r : α} :
    ((bfsAuxC m T : Prog ty _) >>= f) = .ret r ↔ InInt (m * T) ∧ f (m * T, m * T, T * m) = .ret r := by
  by_cases h : InInt (m * T)
  · rw [bfsAuxC_ret.mpr ⟨h, rfl⟩]
    exact ⟨fun e => ⟨h, e⟩, fun e => e.2⟩
  · rw [bfsAuxC_fail h]; exact ⟨fun e => (nomatch (show (Prog.fail : Prog ty α) = .ret r from e)), fun e => absurd e.1 h⟩

theorem rcmSizesC_ret {m T thr md : Int} {r : Int × (Int × Int × Int) × Int × Int} :
    (rcmSizesC m T thr md : Prog ty _) = .ret r ↔
      (InInt (T * max thr md) ∧ InInt (m * T) ∧ InInt (m + 1) ∧ InInt ((m + 1) * 16) ∧ InInt (T * thr) ∧ InInt (max (T * thr) m + 1)) ∧
        r = (T * max thr md, (m * T, m * T, T * m), (m + 1) * 16, max (T * thr) m + 1) := by
  unfold rcmSizesC iMul iAdd
  rw [bind_ck_ret, bfsAuxC_bind, bind_ck_ret, bind_ck_ret, bind_ck_ret, bind_ck_ret, pure_ret]
  exact ⟨fun ⟨a, b, c, d, e, f, g⟩ => ⟨⟨a, b, c, d, e, f⟩, g⟩, fun ⟨⟨a, b, c, d, e, f⟩, g⟩ => ⟨a, b, c, d, e, f, g⟩⟩

theorem ccSizesC_ret {wb : Bool} {m T nc : Int} {r : Int × Int} :
    (ccSizesC wb m T nc : Prog ty _) = .ret r ↔
      ((wb = true → InInt (m * T)) ∧ InInt (nc + 1) ∧ InInt ((nc + 1) * T)) ∧ r = (m * T, (nc + 1) * T) := by
  unfold ccSizesC iMul iAdd
  cases wb
  · have e : ∀ {p : Int → Prog ty (Int × Int)}, ((if false = true then ck (m * T) else pure (m * T) : Prog ty Int) >>= p) = p (m * T) := rfl
    rw [e, bind_ck_ret, bind_ck_ret, pure_ret]
    exact ⟨fun ⟨a, b, c⟩ => ⟨⟨fun h => (nomatch h), a, b⟩, c⟩, fun ⟨⟨_, a, b⟩, c⟩ => ⟨a, b, c⟩⟩
  · rw [if_pos rfl, bind_ck_ret, bind_ck_ret, bind_ck_ret, pure_ret]
    exact ⟨fun ⟨a, b, c, d⟩ => ⟨⟨fun _ => a, b, c⟩, d⟩, fun ⟨⟨a, b, c⟩, d⟩ => ⟨a rfl, b, c, d⟩⟩

end
end SpMP
