import Verif.LoadVec
/-
Whole coordinate files: mm_write_mtx_crd, mm_read_mtx_crd, mm_read_mtx_crd_data, mm_read_unsymmetric_sparse (/repo/mm_io.cpp) and
COO::storeMatrixMarket (/repo/COO.cpp). `itmp 0`, `itmp 1` and `vec 0` are the arrays I, J and val.
-/

namespace SpMP
open Spec

variable {R : Type}

/-- `fprintf(f, ...)` of the text `s` on a device with room for `room` characters, of which `acc` has been written. The calls below
ignore the return value. -/
def putTxt (room : Nat) (acc s : Txt) : Txt := acc ++ (fprintf (room - acc.length) s).2

/-- mm_io.cpp:740-752: the line of entry `i`, by the type code (pattern, real, complex). `pr` is printf("%20.16g"). -/
def crdLine (pr : R → Txt) (t : TC) (i : Int) : Prog (CTy R) Txt := do
  let x ← Prog.read (ty := CTy R) (.itmp 0) i
  let y ← Prog.read (ty := CTy R) (.itmp 1) i
  if t.d = 'P' then pure (printD x ++ ' ' :: printD y ++ ['\n'])
  else if t.d = 'R' then do
    let v ← Prog.read (ty := CTy R) (.vec 0) i
    pure (printD x ++ ' ' :: printD y ++ ' ' :: pr v ++ ['\n'])
  else do
    let v ← Prog.read (ty := CTy R) (.vec 0) (2 * i)
    let w ← Prog.read (ty := CTy R) (.vec 0) (2 * i + 1)
    pure (printD x ++ ' ' :: printD y ++ ' ' :: pr v ++ ' ' :: pr w ++ ['\n'])

/-- mm_io.cpp:739-758: the values, after the text `acc`: return code and text of the file. -/
def crdValues (pr : R → Txt) (room : Nat) (nz : Int) (t : TC) (acc : Txt) : Prog (CTy R) (Nat × Txt) :=
  if t.d = 'P' ∨ t.d = 'R' ∨ t.d = 'C' then do
    let acc ← Prog.forUp (ty := CTy R) 0 nz acc fun i acc => do
      let l ← crdLine pr t i
      pure (putTxt room acc l)
    pure (0, acc)
  else pure (15, acc)

/-- mm_io.cpp:729-730: the banner; printing a null or uninitialised string is undefined. -/
def crdBanner (room : Nat) (t : TC) : Prog (CTy R) Txt :=
  match mmTypecodeToStr t with
  | some (some str) => pure (putTxt room (putTxt room [] (mmBanner ++ [' '])) (str ++ ['\n']))
  | _ => Prog.fail

/-- mm_io.cpp:704-762 mm_write_mtx_crd for a file that can be opened: return code and text of the file. -/
def mmWriteCrd (pr : R → Txt) (room : Nat) (M N nz : Int) (t : TC) : Prog (CTy R) (Nat × Txt) := do
  let acc ← crdBanner room t
  crdValues pr room nz t (putTxt room acc (sizeLine [M, N, nz]))

/-- COO.cpp:52-73 COO::storeMatrixMarket: the text of the file. mm_initialize_typecode clears the type code. -/
def cooStoreMM (pr : R → Txt) (room : Nat) (M N nz : Int) : Prog (CTy R) Txt := do
  let r ← mmWriteCrd pr room M N nz { tcClear with o := 'M', f := 'C', d := 'R' }
  pure r.2

/-- The conversion %d stored in cell `i` of array `itmp k`; `none` is the state after a failed conversion. -/
def putInt (k : Nat) (i : Int) : Option Txt → Prog (CTy R) (Option Txt)
  | none => pure none
  | some s => match scanInt intBound s with
    | .ok v r => do
      Prog.write (ty := CTy R) (.itmp k) i v
      pure (some r)
    | .ub => Prog.fail
    | _ => pure none

/-- One fscanf of mm_read_mtx_crd_data (mm_io.cpp:330, 338, 347), by the type code (complex, real, pattern). -/
def crdItem (lg : Txt → Option (R × Txt)) (t : TC) (i : Int) (st : Option Txt) : Prog (CTy R) (Option Txt) := do
  let st ← putInt 0 i st
  let st ← putInt 1 i st
  if t.d = 'C' then do
    let st ← lvPut lg (2 * i) st
    lvPut lg (2 * i + 1) st
  else if t.d = 'R' then do
    let st ← lvPut lg i st
    pure (st.map skipWs)
  else pure st

/-- mm_io.cpp:304-354 mm_read_mtx_crd_data: return code. After a failed conversion nothing more is stored (the code returns). -/
def mmReadCrdData (lg : Txt → Option (R × Txt)) (nz : Int) (t : TC) (s : Txt) : Prog (CTy R) Nat :=
  if t.d = 'C' ∨ t.d = 'R' ∨ t.d = 'P' then do
    let st ← Prog.forUp (ty := CTy R) 0 nz (some s) fun i st => crdItem lg t i st
    pure (if st.isSome then 0 else 12)
  else pure 15

/-- mm_io.cpp:273-286: the arrays allocated, by the type code. -/
def crdSize (nz : Int) (t : TC) : CArr → Int
  | .itmp 0 => nz
  | .itmp 1 => nz
  | .vec 0 => if t.d = 'C' then nz * 2 else if t.d = 'R' then nz else 0
  | _ => 0

/-- mm_io.cpp:225-301 mm_read_mtx_crd for a file that can be opened. Result: `none`, the size line reader is not finished after
`fuel` rounds; otherwise the return code, the type code and the sizes. Successful allocations. -/
def mmReadCrd (lg : Txt → Option (R × Txt)) (fuel : Nat) (s : Txt) : Script (CTy R) (Option (Nat × TC × List Int)) :=
  match mmReadBanner s with
  | none => ubScript
  | some (code, t, s1) =>
    if code ≠ 0 then .done (some (code, t, []))
    else if ¬ (mmIsValid t = true ∧ t.f = 'C' ∧ t.o = 'M') then .done (some (15, t, []))
    else match mmReadSize 3 fuel s1 with
      | none => .done none
      | some .ub => ubScript
      | some (.ret c [m, n, nz] s2) =>
        if c ≠ 0 then .done (some (c, t, [m, n, nz]))
        else if t.d = 'C' ∨ t.d = 'R' ∨ t.d = 'P' then
          Script.seq (crdSize nz t) (mmReadCrdData lg nz t s2) fun r => .done (some (r, t, [m, n, nz]))
        else .done (some (0, t, [m, n, nz]))
      | some (.ret c os _) => .done (some (c, t, os))

/-- mm_io.cpp:543-551: the conversions of one entry, where a failed conversion leaves its array cell as it is (the return value of
fscanf is ignored), and the decrements. -/
def unsymItem (lg : Txt → Option (R × Txt)) (i : Int) (s : Txt) : Prog (CTy R) Txt := do
  let r ← crdItem lg ⟨'M', 'C', 'R', 'G'⟩ i (some s)
  let x ← Prog.read (ty := CTy R) (.itmp 0) i
  Prog.write (ty := CTy R) (.itmp 0) i ((x : Int) - 1)
  let y ← Prog.read (ty := CTy R) (.itmp 1) i
  Prog.write (ty := CTy R) (.itmp 1) i ((y : Int) - 1)
  pure (r.getD [])

/-- mm_io.cpp:471-555 mm_read_unsymmetric_sparse for a file that can be opened. Result: `none`, the size line reader is not finished
after `fuel` rounds; `some none`, -1; otherwise 0 with the sizes. Simplification: after a failed conversion the rest of the file counts
as empty. -/
def mmReadUnsym (lg : Txt → Option (R × Txt)) (fuel : Nat) (s : Txt) : Script (CTy R) (Option (Option (List Int))) :=
  match mmReadBanner s with
  | none => ubScript
  | some (code, t, s1) =>
    if code ≠ 0 then .done (some none)
    else if ¬ (t.d = 'R' ∧ t.o = 'M' ∧ t.f = 'C') then .done (some none)
    else match mmReadSize 3 fuel s1 with
      | none => .done none
      | some .ub => ubScript
      | some (.ret c [m, n, nz] s2) =>
        if c ≠ 0 then .done (some none)
        else
          Script.seq (crdSize nz ⟨'M', 'C', 'R', 'G'⟩)
            (Prog.forUp (ty := CTy R) 0 nz s2 fun i s => unsymItem lg i s) fun _ => .done (some (some [m, n, nz]))
      | some (.ret _ _ _) => .done (some none)

end SpMP
