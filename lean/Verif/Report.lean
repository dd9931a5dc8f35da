import Verif.Spec.Report
import Verif.CsrQuery
import Verif.CsrDiag
import Verif.StoreMM
/-
The diagnostic output of CSR (/repo/CSR.cpp): print (748-756), equals with `print` (709-746), isSymmetric with `printFirstNonSymmetry`
(165-246). A message is the list of the values printed; how printf shows a number is not modelled.
-/

namespace SpMP
open Spec

set_option linter.unusedSectionVars false

variable {R : Type} [Races CArr]

/-- CSR.cpp:748-756 CSR::print: the values of the lines in order. -/
def csrPrint (k m : Nat) : Prog (CTy R) (List (Int × Int × R)) := do
  let base ← Prog.read (ty := CTy R) (.rowptr k) 0
  Prog.forUp (ty := CTy R) 0 (m : Int) [] fun i acc => do
    let lo ← Prog.read (ty := CTy R) (.rowptr k) i
    let hi ← Prog.read (ty := CTy R) (.rowptr k) (i + 1)
    Prog.forUp (ty := CTy R) ((lo : Int) - base) ((hi : Int) - base) acc fun j acc => do
      let c ← Prog.read (ty := CTy R) (.colidx k) j
      let v ← Prog.read (ty := CTy R) (.values k) j
      pure (acc ++ [(i + (base : Int), (c : Int), (v : R))])

theorem wp_csrPrint {sz : CArr → Int} {W Rd : CArr → Int → Prop} {k base : Nat} {A : Csr R} {m0 : Mem (CTy R)}
    (hwf : A.WF) (hR : ∀ a i, Rd a i) (hp : HoldsPat m0 k base A) (hv : HoldsVal m0 k A) :
    wp sz W Rd (csrPrint k A.m) m0 (fun out m => m = m0 ∧ out = listing A base) := by
  unfold csrPrint
  have hb0 := hp.rowptr 0 (Nat.zero_le _)
  rw [hwf.ptr_zero] at hb0
  have hb0 : m0 (.rowptr k) 0 = some (base : Int) := by rw [show (base : Int) = ((0 : Nat) : Int) + base by omega]; exact hb0
  refine wp_rd _ (hR _ _) hb0 ?_
  refine wp_forN (b := 0) (lo := 0) (hi := A.m) (fun x acc m => m = m0 ∧
    acc = (List.range x).flatMap fun i => (A.row i).map fun x => ((i : Int) + base, (x.1 : Int) + base, x.2))
    (Nat.zero_le _) ⟨rfl, rfl⟩ ?_ ?_ (by simp) (by simp)
  · rintro i acc m - hi ⟨rfl, rfl⟩
    rw [Int.add_zero]
    have h1 := hp.rowptr (i + 1) hi
    push_cast at h1
    refine wp_rd _ (hR _ _) (hp.rowptr i (by omega)) ?_
    refine wp_rd _ (hR _ _) h1 ?_
    refine wp_forN (b := 0) (lo := A.ptr i) (hi := A.ptr (i + 1)) (fun x acc m' => m' = m ∧
      acc = ((List.range i).flatMap fun i => (A.row i).map fun x => ((i : Int) + base, (x.1 : Int) + base, x.2)) ++
        (List.range' (A.ptr i) (x - A.ptr i)).map fun j => ((i : Int) + base, (A.col j : Int) + base, A.val j))
      (hwf.ptr_step i hi) ⟨rfl, ?_⟩ ?_ ?_ (show (A.ptr i : Int) + base - base = _ by omega)
      (show (A.ptr (i + 1) : Int) + base - base = _ by omega)
    · rw [Nat.sub_self]; simp
    · rintro j acc m' g1 g2 ⟨rfl, rfl⟩
      rw [Int.add_zero]
      have hj : j < A.nnz := Csr.InRow.lt_nnz hwf ⟨hi, g1, g2⟩
      refine wp_rd _ (hR _ _) (hp.colidx j hj) ?_
      refine wp_rd _ (hR _ _) (hv j hj) ?_
      rw [wp_pure]
      refine ⟨rfl, ?_⟩
      rw [List.append_assoc]
      congr 1
      rw [show j + 1 - A.ptr i = (j - A.ptr i) + 1 by omega, List.range'_concat, List.map_append,
        show A.ptr i + 1 * (j - A.ptr i) = j by omega]
      rfl
    · rintro acc m' ⟨rfl, rfl⟩
      refine ⟨rfl, ?_⟩
      rw [List.range_succ, List.flatMap_append]
      congr 1
      simp only [List.flatMap_cons, List.flatMap_nil, List.append_nil]
      unfold Csr.row
      rw [List.map_map]; rfl
  · rintro acc m ⟨rfl, rfl⟩
    exact ⟨rfl, rfl⟩

section
variable [DecidableEq R]

/-- CSR.cpp:729-742, row `i`, with the message. -/
def equalsRowMsg (k k' : Nat) (base : Int) (i : Int) : Prog (CTy R) (Option (EqMsg R)) := do
  let p ← Prog.read (ty := CTy R) (.rowptr k) i
  let p' ← Prog.read (ty := CTy R) (.rowptr k') i
  if (p : Int) ≠ p' then pure (some (.rowptr i p p'))
  else do
    let hi ← Prog.read (ty := CTy R) (.rowptr k) (i + 1)
    Prog.forUp (ty := CTy R) ((p : Int) - base) ((hi : Int) - base) none fun j st =>
      match st with
      | some e => pure (some e)
      | none => do
        let c ← Prog.read (ty := CTy R) (.colidx k) j
        let c' ← Prog.read (ty := CTy R) (.colidx k') j
        if (c : Int) ≠ c' then pure (some (.colidx i j c c'))
        else do
          let v ← Prog.read (ty := CTy R) (.values k) j
          let v' ← Prog.read (ty := CTy R) (.values k') j
          if (v : R) ≠ v' then pure (some (.value i j v v')) else pure none

/-- CSR::equals(A, true) (CSR.cpp:709-746) of objects `k` (m x n) and `k'` (m' x n'): `none` is the answer true, `some e` the answer
false after the message `e`. -/
def csrEqualsMsg (k k' m n m' n' : Nat) : Prog (CTy R) (Option (EqMsg R)) := do
  let b ← Prog.read (ty := CTy R) (.rowptr k) 0
  let b' ← Prog.read (ty := CTy R) (.rowptr k') 0
  if (b' : Int) ≠ b then pure (some (.base b b'))
  else if m ≠ m' then pure (some (.rows m m'))
  else if n ≠ n' then pure (some (.cols n n'))
  else do
    let z ← Prog.read (ty := CTy R) (.rowptr k) m
    let z' ← Prog.read (ty := CTy R) (.rowptr k') m'
    if (z : Int) ≠ z' then pure (some (.nnz z z'))
    else
      Prog.forUp (ty := CTy R) 0 m none fun i st =>
        match st with
        | some e => pure (some e)
        | none => equalsRowMsg k k' b i

/-- CSR.cpp:221-231: the first entry of row `c` in column `i`; `none` = no pair, `some none` = pair found, `some (some _)` = pair with
another value. -/
def symFindMsg (k base : Nat) (ext chk : Bool) (i j c : Int) : Prog (CTy R) (Option (Option (R × R))) := do
  let lo ← Prog.read (ty := CTy R) (.rowptr k) (c - base)
  let hi ← extOf k base ext c
  Prog.forUp (ty := CTy R) (lo : Int) hi none fun k' st =>
    match st with
    | some b => pure (some b)
    | none => do
      let c' ← Prog.read (ty := CTy R) (.colidx k) (k' - base)
      if (c' : Int) = i then
        (if chk then do
          let v1 ← Prog.read (ty := CTy R) (.values k) (j - base)
          let v2 ← Prog.read (ty := CTy R) (.values k) (k' - base)
          if (v1 : R) ≠ v2 then pure (some (some ((v1 : R), (v2 : R)))) else pure (some none)
        else pure (some none))
      else pure none

/-- CSR.cpp:216-243 with the message. -/
def symSeqMsg (k base m : Nat) (ext chk : Bool) : Prog (CTy R) (Option (SymMsg R)) :=
  Prog.forUp (ty := CTy R) base ((m : Int) + base) none fun i st =>
    match st with
    | some e => pure (some e)
    | none => do
      let lo ← Prog.read (ty := CTy R) (.rowptr k) (i - base)
      let hi ← extOf k base ext i
      Prog.forUp (ty := CTy R) (lo : Int) hi none fun j st =>
        match st with
        | some e => pure (some e)
        | none => do
          let c ← Prog.read (ty := CTy R) (.colidx k) (j - base)
          if (c : Int) ≠ i ∧ (0 : Int) ≤ c ∧ (c : Int) < m then do
            let r ← symFindMsg k base ext chk i j c
            match r with
            | none => pure (some (.missing (i + 1) ((c : Int) + 1) ((c : Int) + 1) (i + 1)))
            | some (some (v1, v2)) => pure (some (.value (i + 1) ((c : Int) + 1) v1 ((c : Int) + 1) (i + 1) v2))
            | some none => pure none
          else pure none

/-- CSR::isSymmetric(checkValues, true) (CSR.cpp:165-246): `none` is the answer true, `some e` the answer false after the message `e`. -/
def isSymmetricMsg (k m n : Nat) (ext chk : Bool) : Prog (CTy R) (Option (SymMsg R)) :=
  if m ≠ n ∧ ext = false then pure (some .notSquare)
  else do
    let base ← Prog.read (ty := CTy R) (.rowptr k) 0
    symSeqMsg k (base : Int).toNat m ext chk

/-! ### Proofs -/

theorem wp_csrEqualsMsg {sz : CArr → Int} {W Rd : CArr → Int → Prop} {k k' base base' : Nat} {A B : Csr R} {m : Mem (CTy R)}
    (hA : A.WF) (hB : B.WF) (hpA : HoldsPat m k base A) (hpB : HoldsPat m k' base' B) (hvA : HoldsVal m k A)
    (hvB : HoldsVal m k' B) (hR : ∀ a i, Rd a i) (hz : base = 0 ∨ A.nnz = B.nnz) :
    wp sz W Rd (csrEqualsMsg k k' A.m A.n B.m B.n) m (fun res m' => m' = m ∧
      ((res = none ∧ base = base' ∧ A.m = B.m ∧ A.n = B.n ∧ (∀ i, i ≤ A.m → A.ptr i = B.ptr i) ∧ SameBefore A B A.nnz) ∨
        ∃ e, res = some e ∧ e.Says A B base base')) := by
  have h0 := hpA.rowptr 0 (by omega)
  have h0' := hpB.rowptr 0 (by omega)
  rw [hA.ptr_zero] at h0
  rw [hB.ptr_zero] at h0'
  unfold csrEqualsMsg
  refine wp_rd _ (hR _ _) h0 ?_
  refine wp_rd _ (hR _ _) h0' ?_
  rw [wp_ite]
  refine ⟨fun h => ?_, fun h => ?_⟩
  · have h : ((0 : Nat) : Int) + base' ≠ ((0 : Nat) : Int) + base := h
    rw [wp_pure]
    refine ⟨rfl, Or.inr ⟨_, rfl, ?_, ?_, by omega⟩⟩
    · show ((0 : Nat) : Int) + base = base; omega
    · show ((0 : Nat) : Int) + base' = base'; omega
  have h : ¬ ((0 : Nat) : Int) + base' ≠ ((0 : Nat) : Int) + base := h
  have hbb : base = base' := by omega
  subst hbb
  rw [wp_ite]
  refine ⟨fun h => ?_, fun hm => ?_⟩
  · rw [wp_pure]; exact ⟨rfl, Or.inr ⟨_, rfl, rfl, rfl, h⟩⟩
  have hm : A.m = B.m := by omega
  rw [wp_ite]
  refine ⟨fun h => ?_, fun hn => ?_⟩
  · rw [wp_pure]; exact ⟨rfl, Or.inr ⟨_, rfl, rfl, rfl, h⟩⟩
  have hn : A.n = B.n := by omega
  refine wp_rd _ (hR _ _) (hpA.rowptr A.m (by omega)) ?_
  refine wp_rd _ (hR _ _) (hpB.rowptr B.m (by omega)) ?_
  have hnA : A.nnz = A.ptr A.m := rfl
  have hnB : B.nnz = B.ptr B.m := rfl
  rw [wp_ite]
  refine ⟨fun h => ?_, fun h => ?_⟩
  · have h : (A.ptr A.m : Int) + base ≠ (B.ptr B.m : Int) + base := h
    rw [wp_pure]
    have hb : base = 0 := by omega
    refine ⟨rfl, Or.inr ⟨_, rfl, ?_, ?_, by omega⟩⟩
    · show (A.ptr A.m : Int) + base = A.nnz; omega
    · show (B.ptr B.m : Int) + base = B.nnz; omega
  have h : ¬ (A.ptr A.m : Int) + base ≠ (B.ptr B.m : Int) + base := h
  have hnnz : A.nnz = B.nnz := by omega
  have hpm : A.ptr A.m = B.ptr A.m := by rw [hm] at h ⊢; omega
  refine wp_forN (b := 0) (lo := 0) (hi := A.m) (fun r st mm => mm = m ∧
    ((st = none ∧ (∀ i, i < r → A.ptr i = B.ptr i) ∧ SameBefore A B (A.ptr r)) ∨ ∃ e, st = some e ∧ e.Says A B base base))
    (Nat.zero_le _) ⟨rfl, Or.inl ⟨rfl, fun i hi => by omega, fun j hj => by rw [hA.ptr_zero] at hj; omega⟩⟩ ?_ ?_ (by simp) (by simp)
  · rintro r st mm - hr ⟨rfl, hst⟩
    rw [Int.add_zero]
    rcases hst with ⟨rfl, g5, g6⟩ | ⟨e, rfl, he⟩
    · show wp sz W Rd (equalsRowMsg k k' _ _) mm _
      unfold equalsRowMsg
      refine wp_rd _ (hR _ _) (hpA.rowptr r (by omega)) ?_
      refine wp_rd _ (hR _ _) (hpB.rowptr r (by omega)) ?_
      rw [wp_ite]
      refine ⟨fun h => ?_, fun h => ?_⟩
      · have h : (A.ptr r : Int) + base ≠ (B.ptr r : Int) + base := h
        rw [wp_pure]
        exact ⟨rfl, Or.inr ⟨_, rfl, r, hr, rfl, rfl, rfl, by omega, g5, g6⟩⟩
      have h : ¬ (A.ptr r : Int) + base ≠ (B.ptr r : Int) + base := h
      have hpr : A.ptr r = B.ptr r := by omega
      have hle : ∀ q, q ≤ r → A.ptr q = B.ptr q := fun q hq => by
        rcases Nat.lt_or_eq_of_le hq with h | rfl
        · exact g5 q h
        · exact hpr
      refine wp_rd _ (hR _ _) (by have := hpA.rowptr (r + 1) (by omega); push_cast at this; exact this) ?_
      refine wp_forN (b := 0) (lo := A.ptr r) (hi := A.ptr (r + 1)) (fun l st m' => m' = mm ∧
        ((st = none ∧ SameBefore A B l) ∨ ∃ e, st = some e ∧ e.Says A B base base))
        (hA.ptr_step r hr) ⟨rfl, Or.inl ⟨rfl, g6⟩⟩ ?_ ?_ (show (A.ptr r : Int) + base - (((0 : Nat) : Int) + base) = _ by omega)
        (show (A.ptr (r + 1) : Int) + base - (((0 : Nat) : Int) + base) = _ by omega)
      · rintro l st m' d1 d2 ⟨rfl, hst⟩
        rw [Int.add_zero]
        have hl : A.InRow r l := ⟨hr, d1, d2⟩
        have hln := hl.lt_nnz hA
        have hlnB : l < B.nnz := by omega
        rcases hst with ⟨rfl, g7⟩ | ⟨e, rfl, he⟩
        · refine wp_rd _ (hR _ _) (hpA.colidx l hln) ?_
          refine wp_rd _ (hR _ _) (hpB.colidx l hlnB) ?_
          rw [wp_ite]
          refine ⟨fun h => ?_, fun h => ?_⟩
          · have h : (A.col l : Int) + base ≠ (B.col l : Int) + base := h
            rw [wp_pure]
            exact ⟨rfl, Or.inr ⟨_, rfl, r, l, hl, rfl, rfl, rfl, rfl, by omega, hle, g7⟩⟩
          have h : ¬ (A.col l : Int) + base ≠ (B.col l : Int) + base := h
          refine wp_rd _ (hR _ _) (hvA l hln) ?_
          refine wp_rd _ (hR _ _) (hvB l hlnB) ?_
          rw [wp_ite]
          refine ⟨fun hv => ?_, fun hv => ?_⟩
          · have hv : A.val l ≠ B.val l := hv
            rw [wp_pure]
            exact ⟨rfl, Or.inr ⟨_, rfl, r, l, hl, rfl, rfl, rfl, rfl, hv, by omega, hle, g7⟩⟩
          · have hv : ¬ A.val l ≠ B.val l := hv
            rw [wp_pure]
            refine ⟨rfl, Or.inl ⟨rfl, fun j hj => ?_⟩⟩
            rcases Nat.lt_succ_iff_lt_or_eq.mp hj with h1 | rfl
            · exact g7 j h1
            · exact ⟨by omega, not_not.mp hv⟩
        · exact wp_pure.2 ⟨rfl, Or.inr ⟨e, rfl, he⟩⟩
      · rintro st m' ⟨rfl, hst⟩
        refine ⟨rfl, hst.imp (fun h => ⟨h.1, fun i hi => hle i (by omega), h.2⟩) id⟩
    · exact wp_pure.2 ⟨rfl, Or.inr ⟨e, rfl, he⟩⟩
  · rintro st mm ⟨rfl, hst⟩
    refine ⟨rfl, hst.imp (fun h => ⟨h.1, rfl, hm, hn, fun i hi => ?_, h.2.2⟩) id⟩
    rcases Nat.lt_or_eq_of_le hi with h1 | rfl
    · exact h.2.1 i h1
    · exact hpm

section
variable {sz : CArr → Int} {W Rd : CArr → Int → Prop} {k base : Nat} {A : Csr R} {ep : Nat → Nat} {ext chk : Bool}
  {m : Mem (CTy R)}

theorem wp_symFindMsg (hwf : A.WF) (hp : HoldsPat m k base A) (hv : chk = true → HoldsVal m k A)
    (he : HoldsExt m k base A ext ep) (hR : ∀ a i, Rd a i) {i j c : Nat} (hc : c < A.m) (hj : j < A.nnz) :
    wp sz W Rd (symFindMsg k base ext chk ((i : Int) + base) ((j : Int) + base) ((c : Int) + base)) m (fun st m' => m' = m ∧
      ((st = none ∧ ∀ l, LocalTo A ep c l → A.col l ≠ i) ∨
        ∃ l b, st = some b ∧ LocalTo A ep c l ∧ A.col l = i ∧
          ((b = none ∧ (chk = true → A.val j = A.val l)) ∨ (b = some (A.val j, A.val l) ∧ A.val j ≠ A.val l)))) := by
  unfold symFindMsg
  refine wp_rd _ (hR _ _) (by rw [← hp.rowptr c (by omega)]; congr 1; omega) ?_
  rw [wp_bind]
  refine wp_extOf hp he (fun a i _ => hR a i) hc ?_
  have hec := he.2.2 c hc
  refine wp_forN (b := base) (lo := A.ptr c) (hi := ep c) (fun l st mm => mm = m ∧
      ((st = none ∧ ∀ l', A.ptr c ≤ l' → l' < l → A.col l' ≠ i) ∨
        ∃ l b, st = some b ∧ LocalTo A ep c l ∧ A.col l = i ∧
          ((b = none ∧ (chk = true → A.val j = A.val l)) ∨ (b = some (A.val j, A.val l) ∧ A.val j ≠ A.val l))))
    hec.1 ⟨rfl, Or.inl ⟨rfl, fun l' _ _ => by omega⟩⟩ ?_ ?_ rfl rfl
  · rintro l st mm h1 h2 ⟨rfl, hst⟩
    have hl : A.InRow c l := ⟨hc, h1, by omega⟩
    have hln := hl.lt_nnz hwf
    have hrd : ∀ q : Nat, (q : Int) + base - base = q := by intro q; omega
    rcases hst with ⟨rfl, h5⟩ | ⟨q, b, rfl, hq⟩
    · refine wp_rd _ (hR _ _) (by rw [hrd]; exact hp.colidx l hln) ?_
      rw [wp_ite]
      refine ⟨fun hcl => ?_, fun hcl => ?_⟩
      · have hcl : (A.col l : Int) + base = (i : Int) + base := hcl
        cases chk with
        | true =>
          rw [if_pos rfl]
          refine wp_rd _ (hR _ _) (by rw [hrd]; exact hv rfl j hj) ?_
          refine wp_rd _ (hR _ _) (by rw [hrd]; exact hv rfl l hln) ?_
          rw [wp_ite]
          refine ⟨fun hne => ?_, fun hne => ?_⟩
          · have hne : A.val j ≠ A.val l := hne
            exact wp_pure.2 ⟨rfl, Or.inr ⟨l, _, rfl, ⟨hc, h1, h2⟩, by omega, Or.inr ⟨rfl, hne⟩⟩⟩
          · have hne : ¬ A.val j ≠ A.val l := hne
            exact wp_pure.2 ⟨rfl, Or.inr ⟨l, _, rfl, ⟨hc, h1, h2⟩, by omega, Or.inl ⟨rfl, fun _ => not_not.mp hne⟩⟩⟩
        | false =>
          rw [if_neg (by simp)]
          exact wp_pure.2 ⟨rfl, Or.inr ⟨l, _, rfl, ⟨hc, h1, h2⟩, by omega, Or.inl ⟨rfl, fun h => by cases h⟩⟩⟩
      · have hcl : ¬ (A.col l : Int) + base = (i : Int) + base := hcl
        refine wp_pure.2 ⟨rfl, Or.inl ⟨rfl, fun l' d1 d2 => ?_⟩⟩
        rcases Nat.lt_succ_iff_lt_or_eq.mp d2 with h | rfl
        · exact h5 l' d1 h
        · omega
    · exact wp_pure.2 ⟨rfl, Or.inr ⟨q, b, rfl, hq⟩⟩
  · rintro st mm ⟨rfl, hst⟩
    exact ⟨rfl, hst.imp (fun h => ⟨h.1, fun l hl => h.2 l hl.2.1 hl.2.2⟩) id⟩

theorem wp_symSeqMsg (hwf : A.WF) (hp : HoldsPat m k base A) (hv : chk = true → HoldsVal m k A) (he : HoldsExt m k base A ext ep)
    (hR : ∀ a i, Rd a i) :
    wp sz W Rd (symSeqMsg k base A.m ext chk) m (fun st m' => m' = m ∧
      ((st = none ∧ ∀ i j, LocalTo A ep i j → A.col j ≠ i → A.col j + base < A.m →
          ∃ l, LocalTo A ep (A.col j) l ∧ A.col l = i ∧ (chk = true → A.val j = A.val l)) ∨
        ∃ e, st = some e ∧ e.Says A ep (base + 1))) := by
  unfold symSeqMsg
  refine wp_forN (b := base) (lo := 0) (hi := A.m) (fun r st mm => mm = m ∧
      ((st = none ∧ ∀ i j, i < r → LocalTo A ep i j → A.col j ≠ i → A.col j + base < A.m →
          ∃ l, LocalTo A ep (A.col j) l ∧ A.col l = i ∧ (chk = true → A.val j = A.val l)) ∨
        ∃ e, st = some e ∧ e.Says A ep (base + 1)))
    (Nat.zero_le _) ⟨rfl, Or.inl ⟨rfl, fun i j h => by omega⟩⟩ ?_ ?_ (by simp) rfl
  · rintro r st mm - hr ⟨rfl, hst⟩
    rcases hst with ⟨rfl, h4⟩ | ⟨e, rfl, hs⟩
    · have her := he.2.2 r hr
      refine wp_rd _ (hR _ _) (by rw [← hp.rowptr r (by omega)]; congr 1; omega) ?_
      rw [wp_bind]
      refine wp_extOf hp he (fun a i _ => hR a i) hr ?_
      refine wp_forN (b := base) (lo := A.ptr r) (hi := ep r) (fun l st m' => m' = mm ∧
          ((st = none ∧ ∀ j, j < l → LocalTo A ep r j → A.col j ≠ r → A.col j + base < A.m →
              ∃ l, LocalTo A ep (A.col j) l ∧ A.col l = r ∧ (chk = true → A.val j = A.val l)) ∨
            ∃ e, st = some e ∧ e.Says A ep (base + 1)))
        her.1 ⟨rfl, Or.inl ⟨rfl, fun j h1 h2 => absurd h2.2.1 (by omega)⟩⟩ ?_ ?_ rfl rfl
      · rintro l st m' g1 g2 ⟨rfl, hst⟩
        have hl : A.InRow r l := ⟨hr, g1, by omega⟩
        have hln := hl.lt_nnz hwf
        have hlo : LocalTo A ep r l := ⟨hr, g1, g2⟩
        rcases hst with ⟨rfl, g5⟩ | ⟨e, rfl, hs⟩
        · refine wp_rd _ (hR _ _) (by rw [← hp.colidx l hln]; congr 1; omega) ?_
          have hnext : (A.col l ≠ r → A.col l + base < A.m →
              ∃ q, LocalTo A ep (A.col l) q ∧ A.col q = r ∧ (chk = true → A.val l = A.val q)) →
              ∀ j, j < l + 1 → LocalTo A ep r j → A.col j ≠ r → A.col j + base < A.m →
              ∃ l, LocalTo A ep (A.col j) l ∧ A.col l = r ∧ (chk = true → A.val j = A.val l) := by
            intro h j hj
            rcases Nat.lt_succ_iff_lt_or_eq.mp hj with h1 | rfl
            · exact g5 j h1
            · exact fun _ => h
          by_cases hcond : ((A.col l : Int) + base ≠ (r : Int) + base ∧ 0 ≤ (A.col l : Int) + base ∧
              (A.col l : Int) + base < A.m)
          · rw [if_pos hcond, wp_bind]
            refine wp_mono (wp_symFindMsg hwf hp hv he hR (by omega) hln) ?_
            rintro st m'' ⟨rfl, hst⟩
            rcases hst with ⟨rfl, h1⟩ | ⟨q, b, rfl, h1, h2, ⟨rfl, h3⟩ | ⟨rfl, h3⟩⟩
            · refine wp_pure.2 ⟨rfl, Or.inr ⟨_, rfl, r, l, hlo, h1, ?_, ?_, rfl, rfl⟩⟩
              · push_cast; omega
              · show (A.col l : Int) + base + 1 = _; push_cast; omega
            · exact wp_pure.2 ⟨rfl, Or.inl ⟨rfl, hnext fun _ _ => ⟨q, h1, h2, h3⟩⟩⟩
            · refine wp_pure.2 ⟨rfl, Or.inr ⟨_, rfl, r, l, q, hlo, h1, h2, ?_, ?_, rfl, rfl, rfl, rfl, h3⟩⟩
              · push_cast; omega
              · show (A.col l : Int) + base + 1 = _; push_cast; omega
          · rw [if_neg hcond]
            exact wp_pure.2 ⟨rfl, Or.inl ⟨rfl, hnext fun d1 d2 => absurd ⟨by omega, by omega, by omega⟩ hcond⟩⟩
        · exact wp_pure.2 ⟨rfl, Or.inr ⟨e, rfl, hs⟩⟩
      · rintro st m' ⟨rfl, hst⟩
        refine ⟨rfl, hst.imp (fun h => ⟨h.1, fun i j hi hij => ?_⟩) id⟩
        rcases Nat.lt_succ_iff_lt_or_eq.mp hi with h1 | rfl
        · exact h4 i j h1 hij
        · exact h.2 j hij.2.2 hij
    · exact wp_pure.2 ⟨rfl, Or.inr ⟨e, rfl, hs⟩⟩
  · rintro st mm ⟨rfl, hst⟩
    exact ⟨rfl, hst.imp (fun h => ⟨h.1, fun i j hij => h.2 i j hij.1 hij⟩) id⟩

theorem wp_isSymmetricMsg (hwf : A.WF) (hp : HoldsPat m k base A) (hv : chk = true → HoldsVal m k A) (he : HoldsExt m k base A ext ep)
    (hR : ∀ a i, Rd a i) :
    wp sz W Rd (isSymmetricMsg k A.m A.n ext chk) m (fun st m' => m' = m ∧
      ((st = none ∧ (A.m = A.n ∨ ext = true) ∧ ∀ i j, LocalTo A ep i j → A.col j ≠ i → A.col j + base < A.m →
          ∃ l, LocalTo A ep (A.col j) l ∧ A.col l = i ∧ (chk = true → A.val j = A.val l)) ∨
        ∃ e, st = some e ∧ e.Says A ep (base + 1))) := by
  unfold isSymmetricMsg
  split
  · rename_i h
    exact wp_pure.2 ⟨rfl, Or.inr ⟨_, rfl, h.1⟩⟩
  · rename_i h
    have hb0 := hp.rowptr 0 (Nat.zero_le _)
    rw [hwf.ptr_zero] at hb0
    have hb0 : m (.rowptr k) 0 = some (base : Int) := by rw [show (base : Int) = ((0 : Nat) : Int) + base by omega]; exact hb0
    refine wp_rd _ (hR _ _) hb0 ?_
    show wp sz W Rd (symSeqMsg k ((base : Int).toNat) A.m ext chk) m _
    rw [Int.toNat_natCast]
    refine wp_mono (wp_symSeqMsg hwf hp hv he hR) ?_
    rintro st m' ⟨rfl, hst⟩
    refine ⟨rfl, hst.imp (fun g => ⟨g.1, ?_, g.2⟩) id⟩
    by_cases h1 : A.m = A.n
    · exact Or.inl h1
    · exact Or.inr (by cases ext with
        | true => rfl
        | false => exact absurd ⟨h1, rfl⟩ h)

end

end

end SpMP
