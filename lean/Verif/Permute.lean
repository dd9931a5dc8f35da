import Verif.RowsMem
import Verif.ConstRule
import Verif.Levels
import Verif.Perm
import Verif.LoopN
/-
Permuting the rows and columns of a CSR matrix (/repo/Permute.cpp). Object `k` is the source, object `k2` the result;
`itmp 0` is (row)inversePerm, `itmp 1` is columnPerm. `hasRow = false` is a null row permutation.
`prefixSum` (/repo/Utils.cpp, modelled and proved in PrefixSum.lean) is replaced by what it computes: every thread gets the sum of
the contributions of the threads before it, and the total is stored by the master thread.
-/

namespace SpMP
open Spec

variable {R : Type}

/-- Permute.cpp:51, 60, 291, 393: `inversePerm ? inversePerm[i] : i` (0-based index). -/
def permSel (hasRow : Bool) (i : Int) : Prog (CTy R) Int :=
  if hasRow then Prog.read (ty := CTy R) (.itmp 0) i else pure i

/-- Permute.cpp:37 `assert(isPerm(inversePerm, m))`; `dbg = false` is a build with NDEBUG. isPerm copies `m` ints from
`inversePerm`, so a null pointer is dereferenced unless `m = 0`. -/
def permAssert (dbg hasRow : Bool) (m : Nat) : Prog (CTy R) Unit :=
  if dbg then
    if hasRow then do
      let l ← Prog.forUp (ty := CTy R) 0 m ([] : List Int) fun i l => do
        let x ← Prog.read (ty := CTy R) (.itmp 0) i
        pure (l ++ [(x : Int)])
      Prog.assert (ty := CTy R) (isPerm l = true)
    else if m = 0 then pure () else Prog.fail
  else pure ()

/-- Permute.cpp:54-56 and 63-65. -/
def permExt (k k2 : Nat) (ext : Bool) (i row : Int) : Prog (CTy R) Unit :=
  if ext then do
    let s ← Prog.read (ty := CTy R) (.rowptr k2) i
    let x ← Prog.read (ty := CTy R) (.extptr k) row
    let b ← Prog.read (ty := CTy R) (.rowptr k) row
    Prog.write (ty := CTy R) (.extptr k2) i ((s : Int) + x - b)
  else pure ()

/-- Permute.cpp:45-66, thread `t`: row pointers relative to the thread's first row; the result is localNnz. -/
def permCount (k k2 : Nat) (hasRow ext : Bool) (m T t : Nat) : Prog (CTy R) Int := do
  Prog.write (ty := CTy R) (.rowptr k2) (simpleBegin T t m) (0 : Int)
  Prog.forUp (ty := CTy R) (simpleBegin T t m) (simpleEnd T t m - 1) () fun i _ => do
    let row ← permSel hasRow i
    let b ← Prog.read (ty := CTy R) (.rowptr k) row
    let e ← Prog.read (ty := CTy R) (.rowptr k) (row + 1)
    let s ← Prog.read (ty := CTy R) (.rowptr k2) i
    Prog.write (ty := CTy R) (.rowptr k2) (i + 1) ((s : Int) + e - b)
    permExt k k2 ext i row
  -- here i = max(iBegin, iEnd - 1)
  if simpleBegin T t m < simpleEnd T t m then do
    let i := simpleEnd T t m - 1
    let row ← permSel hasRow i
    let b ← Prog.read (ty := CTy R) (.rowptr k) row
    let e ← Prog.read (ty := CTy R) (.rowptr k) (row + 1)
    let s ← Prog.read (ty := CTy R) (.rowptr k2) i
    permExt k k2 ext i row
    pure ((s : Int) + e - b)
  else pure 0

/-- Permute.cpp:69-74, thread `t`; `off` is localNnz after the prefix sum and `+= base`. -/
def permShift (k2 : Nat) (ext : Bool) (m T t : Nat) (off : Int) : Prog (CTy R) Unit :=
  Prog.forUp (ty := CTy R) (simpleBegin T t m) (simpleEnd T t m) () fun i _ => do
    let s ← Prog.read (ty := CTy R) (.rowptr k2) i
    Prog.write (ty := CTy R) (.rowptr k2) i ((s : Int) + off)
    if ext then do
      let x ← Prog.read (ty := CTy R) (.extptr k2) i
      Prog.write (ty := CTy R) (.extptr k2) i ((x : Int) + off)
    else pure ()

/-- Permute.cpp:85-107: the arrays of the result; arrays the source does not have are not allocated (size 0). `nnz` is
`rowptr[m]`. -/
def permSize (sz : CArr → Int) (k2 m : Nat) (nnz : Int) (o : Opt) : CArr → Int
  | .rowptr j => if j = k2 then m + 1 else sz (.rowptr j)
  | .colidx j => if j = k2 then nnz else sz (.colidx j)
  | .values j => if j = k2 then (if o.values then nnz else 0) else sz (.values j)
  | .idiag j => if j = k2 then (if o.idiag then m else 0) else sz (.idiag j)
  | .diagptr j => if j = k2 then (if o.diagptr then m else 0) else sz (.diagptr j)
  | .extptr j => if j = k2 then (if o.extptr then m else 0) else sz (.extptr j)
  | a => sz a

/-- Permute.cpp:35-79 permuteRowptr(ret, inversePerm) with the arrays of size `sz`. -/
def permuteRowptr (sz : CArr → Int) (T k k2 m : Nat) (dbg hasRow ext : Bool) : Script (CTy R) Unit :=
  Script.seq sz (do
    permAssert dbg hasRow m
    Prog.read (ty := CTy R) (.rowptr k) 0) fun base =>
  .phase sz T (permCount k k2 hasRow ext m T) fun r =>
  Script.seq sz (Prog.write (ty := CTy R) (.rowptr k2) m (psum r T)) fun _ =>
  .phase sz T (fun t => permShift k2 ext m T t (psum r t + (base : Int))) fun _ =>
  Script.seq sz (do
    let s ← Prog.read (ty := CTy R) (.rowptr k2) m
    Prog.write (ty := CTy R) (.rowptr k2) m ((s : Int) + base)
    let s ← Prog.read (ty := CTy R) (.rowptr k2) m
    let e ← Prog.read (ty := CTy R) (.rowptr k) m
    Prog.assert (ty := CTy R) ((s : Int) = e)) fun _ => .done ()

/-! ### permuteMain_ -/

/-- Permute.cpp:281-286 and 308-313: the external entries are copied without relabelling. -/
def permCopyExt (k k2 base : Nat) (ext : Bool) (row hi kk : Int) : Prog (CTy R) Unit :=
  if ext then do
    let e ← Prog.read (ty := CTy R) (.rowptr k) (row + 1 - base)
    let _ ← Prog.forUp (ty := CTy R) hi (e : Int) kk fun j kk => do
      let c ← Prog.read (ty := CTy R) (.colidx k) (j - base)
      Prog.write (ty := CTy R) (.colidx k2) (kk - base) c
      let v ← Prog.read (ty := CTy R) (.values k) (j - base)
      Prog.write (ty := CTy R) (.values k2) (kk - base) v
      pure (kk + 1)
    pure ()
  else pure ()

/-- Permute.cpp:268-287: one row of the common case; `i` carries the base. -/
def permRowCommon (k k2 base : Nat) (ext : Bool) (i : Int) : Prog (CTy R) Unit := do
  let r ← Prog.read (ty := CTy R) (.itmp 0) (i - base)
  let row : Int := (r : Int) + base
  let b ← Prog.read (ty := CTy R) (.rowptr k) (row - base)
  let hi ← extOf k base ext row
  let nb ← Prog.read (ty := CTy R) (.rowptr k2) (i - base)
  let kk ← Prog.forUp (ty := CTy R) (b : Int) hi (nb : Int) fun j kk => do
    let c ← Prog.read (ty := CTy R) (.colidx k) (j - base)
    let nc ← Prog.read (ty := CTy R) (.itmp 1) ((c : Int) - base)
    Prog.write (ty := CTy R) (.colidx k2) (kk - base) ((nc : Int) + base)
    let v ← Prog.read (ty := CTy R) (.values k) (j - base)
    Prog.write (ty := CTy R) (.values k2) (kk - base) v
    pure (kk + 1)
  permCopyExt k k2 base ext row hi kk

/-- The inner loop of insertion sort (Permute.cpp:323-328 and the similar loops of permuteColsInPlace_): `n + 1` entries from
position `lo` on are still to be compared, `c` is the key; the result is `k + 1 - lo`. Positions are 0-based. -/
def insShift (k : Nat) (vals : Bool) (lo c : Int) : Nat → Prog (CTy R) Nat
  | 0 => pure 0
  | n + 1 => do
    let x ← Prog.read (ty := CTy R) (.colidx k) (lo + n)
    if c < (x : Int) then do
      Prog.write (ty := CTy R) (.colidx k) (lo + n + 1) x
      let _ ← (if vals then do
          let v ← Prog.read (ty := CTy R) (.values k) (lo + n)
          Prog.write (ty := CTy R) (.values k) (lo + n + 1) v
        else pure () : Prog (CTy R) Unit)
      insShift k vals lo c n
    else pure (n + 1)

/-- Insertion sort of the positions `lo ..< hi` of object `k` by column (Permute.cpp:319-332; without the values:
Permute.cpp:180-190). -/
def insSort (k : Nat) (vals : Bool) (lo hi : Int) : Prog (CTy R) Unit :=
  Prog.forUp (ty := CTy R) (lo + 1) hi () fun j _ => do
    let c ← Prog.read (ty := CTy R) (.colidx k) j
    if vals then do
      let v ← Prog.read (ty := CTy R) (.values k) j
      let n ← insShift k vals lo (c : Int) (j - lo).toNat
      Prog.write (ty := CTy R) (.colidx k) (lo + n) c
      Prog.write (ty := CTy R) (.values k) (lo + n) v
    else do
      let n ← insShift k vals lo (c : Int) (j - lo).toNat
      Prog.write (ty := CTy R) (.colidx k) (lo + n) c

/-- Permute.cpp:338-343 and 140-145: the first position of `lo ..< hi` (0-based) with column `d` is stored in diagptr. `n`
positions are left. -/
def storeDiag (k base : Nat) (i d : Int) : Nat → Int → Prog (CTy R) Unit
  | 0, _ => pure ()
  | n + 1, j => do
    let c ← Prog.read (ty := CTy R) (.colidx k) j
    if (c : Int) = d then Prog.write (ty := CTy R) (.diagptr k) i (j + base)
    else storeDiag k base i d n (j + 1)

/-- Permute.cpp:290-345: one row of the general case; `i` carries the base. -/
def permRow (k k2 base : Nat) (o : Opt) (hasRow sort : Bool) (i : Int) : Prog (CTy R) Unit := do
  let r ← permSel hasRow (i - base)
  let row : Int := (r : Int) + base
  let b ← Prog.read (ty := CTy R) (.rowptr k) (row - base)
  let hi ← extOf k base o.extptr row
  let nb ← Prog.read (ty := CTy R) (.rowptr k2) (i - base)
  let s ← Prog.forUp (ty := CTy R) (b : Int) hi ((nb : Int), (-1 : Int)) fun j s => do
    let c ← Prog.read (ty := CTy R) (.colidx k) (j - base)
    let nc ← Prog.read (ty := CTy R) (.itmp 1) ((c : Int) - base)
    Prog.write (ty := CTy R) (.colidx k2) (s.1 - base) ((nc : Int) + base)
    let _ ← (if o.values then do
        let v ← Prog.read (ty := CTy R) (.values k) (j - base)
        Prog.write (ty := CTy R) (.values k2) (s.1 - base) v
      else pure () : Prog (CTy R) Unit)
    if o.diagptr then do
      let c ← Prog.read (ty := CTy R) (.colidx k) (j - base)
      pure (s.1 + 1, if (c : Int) = row then (nc : Int) + base else s.2)
    else pure (s.1 + 1, s.2)
  permCopyExt k k2 base o.extptr row hi s.1
  Prog.assert (ty := CTy R) (o.diagptr = false ∨ s.2 ≠ -1)
  let _ ← (if sort then do
      let ne ← extOf k2 base o.extptr i
      insSort k2 true ((nb : Int) - base) (ne - base)
    else pure () : Prog (CTy R) Unit)
  let _ ← (if o.idiag then do
      let d ← Prog.read (ty := CTy R) (.idiag k) (row - base)
      Prog.write (ty := CTy R) (.idiag k2) (i - base) d
    else pure () : Prog (CTy R) Unit)
  if o.diagptr then do
    let ne ← extOf k2 base o.extptr i
    storeDiag k2 base (i - base) s.2 (ne - nb).toNat ((nb : Int) - base)
  else pure ()

/-- Permute.cpp:266: which of the two loops runs. -/
def permRowSel (k k2 base : Nat) (o : Opt) (hasRow sort : Bool) (i : Int) : Prog (CTy R) Unit :=
  if hasRow = true ∧ o.values = true ∧ o.idiag = false ∧ o.diagptr = false ∧ sort = false then
    permRowCommon k k2 base o.extptr i
  else permRow k k2 base o hasRow sort i

/-- Permute.cpp:235-348 permuteMain_<T, BASE, SORT>. -/
def permuteMainB (sz : CArr → Int) (T k k2 m base : Nat) (o : Opt) (hasRow sort : Bool) : Script (CTy R) Unit :=
  .phase sz T (fun t => rowsOf (lbPart k2 m T t) base (permRowSel k k2 base o hasRow sort)) fun _ => .done ()

/-- Permute.cpp:350-371 permuteMain. -/
def permuteMain (sz : CArr → Int) (T k k2 m : Nat) (o : Opt) (hasRow sort : Bool) : Script (CTy R) Unit :=
  Script.seq sz (Prog.read (ty := CTy R) (.rowptr k) 0) fun b =>
  if (0 : Int) = b then permuteMainB sz T k k2 m 0 o hasRow sort
  else Script.seq sz (Prog.assert (ty := CTy R) ((1 : Int) = b)) fun _ => permuteMainB sz T k k2 m 1 o hasRow sort

/-- Permute.cpp:420-425 permute (with the allocating permuteRowptr, 81-112). -/
def permute (sz : CArr → Int) (T k k2 m : Nat) (o : Opt) (dbg hasRow sort : Bool) : Script (CTy R) Unit :=
  Script.seq sz (Prog.read (ty := CTy R) (.rowptr k) m) fun nnz =>
  let sz2 := permSize sz k2 m nnz o
  (permuteRowptr sz2 T k k2 m dbg hasRow o.extptr).bind fun _ =>
  permuteMain sz2 T k k2 m o hasRow sort

/-! ### permuteRowsMain_ -/

/-- `memcpy(dst + at, src + from, n * sizeof(...))` (Permute.cpp:398-399), element by element. -/
def copySeg (dst src : CArr) (cv : CTy R src → CTy R dst) (at_ from_ : Int) (n : Int) : Prog (CTy R) Unit :=
  Prog.forUp (ty := CTy R) 0 n () fun x _ => do
    let v ← Prog.read (ty := CTy R) src (from_ + x)
    Prog.write (ty := CTy R) dst (at_ + x) (cv v)

/-- Permute.cpp:392-405, one row; `i` carries the base and the arrays of `out` are not shifted by it. -/
def permRowsRow (k k2 base : Nat) (o : Opt) (hasRow : Bool) (i : Int) : Prog (CTy R) Unit := do
  let r ← permSel hasRow (i - base)
  let row : Int := (r : Int) + base
  let b ← Prog.read (ty := CTy R) (.rowptr k) (row - base)
  let e ← Prog.read (ty := CTy R) (.rowptr k) (row + 1 - base)
  let nb ← Prog.read (ty := CTy R) (.rowptr k2) i
  let _ ← (if o.values then
      copySeg (.values k2) (.values k) id ((nb : Int) - base) ((b : Int) - base) ((e : Int) - b)
    else pure () : Prog (CTy R) Unit)
  copySeg (.colidx k2) (.colidx k) id ((nb : Int) - base) ((b : Int) - base) ((e : Int) - b)
  let _ ← (if o.diagptr then do
      let s ← Prog.read (ty := CTy R) (.rowptr k2) i
      let d ← Prog.read (ty := CTy R) (.diagptr k) (row - base)
      let b ← Prog.read (ty := CTy R) (.rowptr k) (row - base)
      Prog.write (ty := CTy R) (.diagptr k2) i ((s : Int) + ((d : Int) - b))
    else pure () : Prog (CTy R) Unit)
  if o.idiag then do
    let d ← Prog.read (ty := CTy R) (.idiag k) (row - base)
    Prog.write (ty := CTy R) (.idiag k2) i d
  else pure ()

/-- Permute.cpp:373-407 permuteRowsMain_<T, BASE>: the partition reads `out->rowptr + BASE`. -/
def permuteRowsMainB (sz : CArr → Int) (T k k2 m base : Nat) (o : Opt) (hasRow : Bool) : Script (CTy R) Unit :=
  .phase sz T (fun t => rowsOf
    (loadBalanced (fun i => Prog.read (ty := CTy R) (.rowptr k2) (i + base)) T t m) base
    (permRowsRow k k2 base o hasRow)) fun _ => .done ()

/-- Permute.cpp:409-418 permuteRowsMain. -/
def permuteRowsMain (sz : CArr → Int) (T k k2 m : Nat) (o : Opt) (hasRow : Bool) : Script (CTy R) Unit :=
  Script.seq sz (Prog.read (ty := CTy R) (.rowptr k) 0) fun b =>
  if (0 : Int) = b then permuteRowsMainB sz T k k2 m 0 o hasRow
  else Script.seq sz (Prog.assert (ty := CTy R) ((1 : Int) = b)) fun _ => permuteRowsMainB sz T k k2 m 1 o hasRow

/-- Permute.cpp:427-432 permuteRows. -/
def permuteRows (sz : CArr → Int) (T k k2 m : Nat) (o : Opt) (dbg hasRow : Bool) : Script (CTy R) Unit :=
  Script.seq sz (Prog.read (ty := CTy R) (.rowptr k) m) fun nnz =>
  let sz2 := permSize sz k2 m nnz o
  (permuteRowptr sz2 T k k2 m dbg hasRow o.extptr).bind fun _ =>
  permuteRowsMain sz2 T k k2 m o hasRow

/-! ### permuteColsInPlace_ -/

/-- Permute.cpp:129-221, one row; `i` is 0-based here. `dbg = false` drops the assertions. In base 1 the
test `if (values)` is made on `A->values - 1`, which is not null even if `A->values` is. -/
def permColsRow (k base m : Nat) (o : Opt) (dbg : Bool) (i : Int) : Prog (CTy R) Unit := do
  let lo ← Prog.read (ty := CTy R) (.rowptr k) i
  let hi ← extOf k base o.extptr (i + base)
  let d ← Prog.forUp (ty := CTy R) (lo : Int) hi (-1 : Int) fun j d => do
    let c ← Prog.read (ty := CTy R) (.colidx k) (j - base)
    let _ ← (if dbg then Prog.assert (ty := CTy R) (0 ≤ (c : Int) ∧ (c : Int) < m) else pure () : Prog (CTy R) Unit)
    let nc ← Prog.read (ty := CTy R) (.itmp 1) ((c : Int) - base)
    Prog.write (ty := CTy R) (.colidx k) (j - base) ((nc : Int) + base)
    let _ ← (if dbg then Prog.assert (ty := CTy R) (0 ≤ (nc : Int) ∧ (nc : Int) < m) else pure () : Prog (CTy R) Unit)
    if (c : Int) = i + base then do
      let nc ← Prog.read (ty := CTy R) (.itmp 1) ((c : Int) - base)
      pure ((nc : Int) + base)
    else pure d
  if o.diagptr then do
    storeDiag k base i d (hi - lo).toNat ((lo : Int) - base)
    let dp ← Prog.read (ty := CTy R) (.diagptr k) i
    let vals := o.values || decide (base = 1)
    insSort k vals ((lo : Int) - base) ((dp : Int) - base)
    insSort k vals ((dp : Int) + 1 - base) (hi - base)
  else insSort k true ((lo : Int) - base) (hi - base)

/-- Permute.cpp:114-222 permuteColsInPlace_<T, BASE>; the `omp parallel for` is one thread per row. -/
def permuteColsInPlaceB (sz : CArr → Int) (k base m : Nat) (o : Opt) (dbg : Bool) : Script (CTy R) Unit :=
  .phase sz m (fun i => permColsRow k base m o dbg i) fun _ => .done ()

/-- Permute.cpp:224-233 permuteColsInPlace. -/
def permuteColsInPlace (sz : CArr → Int) (k m : Nat) (o : Opt) (dbg : Bool) : Script (CTy R) Unit :=
  Script.seq sz (Prog.read (ty := CTy R) (.rowptr k) 0) fun b =>
  if (0 : Int) = b then permuteColsInPlaceB sz k 0 m o dbg
  else Script.seq sz (Prog.assert (ty := CTy R) ((1 : Int) = b)) fun _ => permuteColsInPlaceB sz k 1 m o dbg

end SpMP
