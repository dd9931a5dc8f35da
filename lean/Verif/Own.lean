/-!
# Who releases which array: the storage of matrices and schedules

The library keeps its arrays behind raw pointers.  A `CSR` has seven of them and a private flag
`ownData_`; a `COO` has three; a `LevelSchedule` has nine, and optionally a second object with
three more.  This file models, for every public call that allocates, adopts or releases storage,
the exact sequence of `MALLOC`, `FREE` and pointer assignments it performs, conditionals included.
The *contents* of the arrays are the business of the other files.

Addresses: every allocation gets a fresh block name, so the model does not cover an allocator
that hands out a released address again while somebody still keeps the dangling pointer.
-/

namespace SpMP.Own

/-- The pointer fields of the three classes (CSR.hpp:41-48; COO.hpp:37-39;
LevelSchedule.hpp:157-178, 263-265), and the local pointer variables of the calls that allocate
temporary arrays (LevelSchedule.cpp:504-512, 604-612, 842, 890-896, 1460-1462, 1625;
COO.cpp:237-249).  A local variable is kept as a field of the object the call works on; every call
sets it to null before it returns, which models that the variable goes out of scope. -/
inductive Slot
  | rowptr | colidx | values | idiag | diag | diagptr | extptr
  | cooRow | cooCol | cooVal
  | npF | npB | pF | pB | fin | o2t | t2o | buf0 | buf1
  | fused | fNp | fP | fBuf
  | tRow | tCol | tVal | tTmp | tCnt
  | lev | buffer | taskRows | bBuf | rowTask | adjRow | adjCol | invRow | invCol | invLen
  | chBuf | ch | nCh | npTmp
deriving DecidableEq, Repr

/-- The classes with a destructor that releases arrays. -/
inductive Cls
  | csr | coo | sched
deriving DecidableEq, Repr

/-- What is known about a block of memory.  `lib h σ`: obtained by the library with `MALLOC` and
stored in field `σ` of object `h`, not yet released.  `caller`: an array of the caller.  `pool`: a
piece of the memory pool, which must not be given to `_mm_free`. -/
inductive Status
  | unused | lib (h : Nat) (σ : Slot) | caller | pool | freed
deriving DecidableEq, Repr

/-- The part of an object that does not change with the pointers: its class,
`CSR::ownData_` (CSR.hpp:192) and `LevelSchedule::useMemoryPool` (LevelSchedule.hpp:176). -/
structure Attr where
  cls : Cls
  own : Bool
  pool : Bool
deriving DecidableEq, Repr

/-- An object: its attributes and its pointers. -/
structure Obj where
  attr : Attr
  ptr : Slot → Option Nat

/-- The blocks, the next fresh block name and the live objects. -/
structure St where
  status : Nat → Status
  next : Nat
  objs : Nat → Option Obj

/-- Before the first call. -/
def St.init : St := ⟨fun _ => .unused, 0, fun _ => none⟩

/-- The outcome of a call.  `wrong`: the library gave `_mm_free` a pointer it had not obtained from
`MALLOC`, or had already released.  `misuse`: the call itself makes no sense (an object that does
not exist, or is of another class); it says nothing about the library. -/
inductive Res
  | ok (s : St) | wrong | misuse

/-- The primitive effects on one object that the calls are made of. -/
inductive Act
  /-- `field = MALLOC(..)` (Utils.hpp:17) -/
  | malloc (σ : Slot)
  /-- `field = MemoryPool::allocate(..)` (LevelSchedule.hpp:228-246) -/
  | fromPool (σ : Slot)
  /-- `FREE(field)` (Utils.hpp:16): releases unless null, then sets to null -/
  | free (σ : Slot)
  /-- `field = NULL`, or a local variable going out of scope -/
  | null (σ : Slot)
  /-- `field = p` for a pointer of the caller's choice -/
  | point (σ : Slot) (b : Option Nat)
  /-- `field τ = σ`, where `σ` is a local variable that is used no more -/
  | move (σ τ : Slot)
  /-- `ownData_ = b` -/
  | setOwn (b : Bool)

/-- Update one point of a function on names. -/
def upd {α : Type} (f : Nat → α) (i : Nat) (v : α) : Nat → α := fun j => if j = i then v else f j

/-- Store a pointer in a field of an object. -/
def Obj.set (o : Obj) (σ : Slot) (p : Option Nat) : Obj :=
  ⟨o.attr, fun τ => if τ = σ then p else o.ptr τ⟩

/-- Store a pointer in a field of object `h`. -/
def St.setPtr (s : St) (h : Nat) (o : Obj) (σ : Slot) (p : Option Nat) : St :=
  { s with objs := upd s.objs h (some (o.set σ p)) }

/-- A block moves from one field of `h` to another: it is now the array of the new field. -/
def reattribute (f : Nat → Status) (h : Nat) (σ τ : Slot) (p : Option Nat) : Nat → Status :=
  fun b => if p = some b ∧ f b = .lib h σ then .lib h τ else f b

/-- The pool is emptied: its pieces are gone. -/
def drainPool (f : Nat → Status) : Nat → Status :=
  fun b => if f b = .pool then .freed else f b

/-- `FREE(x)` (Utils.hpp:16) on field `σ` of `h`. -/
def release (s : St) (h : Nat) (o : Obj) (σ : Slot) : Option Nat → Res
  | none => .ok s
  | some b =>
    match s.status b with
    | .lib _ _ => .ok { (s.setPtr h o σ none) with status := upd s.status b .freed }
    | _ => .wrong

/-- Apply `k` to object `h`, if it exists. -/
def onObj (s : St) (h : Nat) (k : Obj → Res) : Res :=
  match s.objs h with
  | some o => k o
  | none => .misuse

/-- One primitive effect on object `h`. -/
def exec (s : St) (h : Nat) : Act → Res
  | .malloc σ => onObj s h fun o =>
      .ok { (s.setPtr h o σ (some s.next)) with
            status := upd s.status s.next (.lib h σ), next := s.next + 1 }
  | .fromPool σ => onObj s h fun o =>
      .ok { (s.setPtr h o σ (some s.next)) with
            status := upd s.status s.next .pool, next := s.next + 1 }
  | .free σ => onObj s h fun o => release s h o σ (o.ptr σ)
  | .null σ => onObj s h fun o => .ok (s.setPtr h o σ none)
  | .point σ b => onObj s h fun o => .ok (s.setPtr h o σ b)
  | .move σ τ => onObj s h fun o =>
      .ok { s with
        objs := upd s.objs h (some ((o.set τ (o.ptr σ)).set σ none))
        status := reattribute s.status h σ τ (o.ptr σ) }
  | .setOwn b => onObj s h fun o =>
      .ok { s with objs := upd s.objs h (some ⟨{ o.attr with own := b }, o.ptr⟩) }

/-- Continue with `k` unless the effect failed. -/
def Res.andThen : Res → (St → Res) → Res
  | .ok s, k => k s
  | .wrong, _ => .wrong
  | .misuse, _ => .misuse

/-- A sequence of effects on object `h`. -/
def execAll (s : St) (h : Nat) : List Act → Res
  | [] => .ok s
  | a :: as => (exec s h a).andThen fun s' => execAll s' h as

/-- An object comes to life with all its pointers null; `k` is the body of its constructor. -/
def create (s : St) (h : Nat) (a : Attr) (k : St → Res) : Res :=
  if (s.objs h).isSome then .misuse
  else k { s with objs := upd s.objs h (some ⟨a, fun _ => none⟩) }

/-- The members of `g`, pointers included, are copied to `h` one by one: what the compiler
generates for a class that does not define the copy operation. -/
def shallow (s : St) (h g : Nat) : Res :=
  onObj s h fun _ => onObj s g fun o => .ok { s with objs := upd s.objs h (some o) }

/-- The storage of the object itself disappears. -/
def remove (s : St) (h : Nat) : Res := .ok { s with objs := upd s.objs h none }

/-! ## The calls -/

/-- `CSR::useMemoryPool_` (CSR.cpp:43-46): does `rowptr` point into the pool? -/
def pooled (s : St) (o : Obj) : Bool :=
  match o.ptr .rowptr with
  | some b => decide (s.status b = .pool)
  | none => false

/-- `CSR::dealloc` (CSR.cpp:133-158). -/
def deallocActs (s : St) (o : Obj) : List Act :=
  if pooled s o then
    [.null .rowptr, .null .extptr, .null .colidx, .null .values, .null .idiag,
     .null .diag, .null .diagptr]
  else
    (if o.attr.own then
      [.free .rowptr, .free .extptr, .free .colidx, .free .values] else []) ++
    [.free .idiag, .free .diag, .free .diagptr]

/-- `CSR::alloc` (CSR.cpp:52-74). -/
def allocActs (sep : Bool) : List Act :=
  [.malloc .rowptr, .malloc .colidx, .malloc .values, .malloc .diagptr] ++
  (if sep then [.malloc .idiag, .malloc .diag] else []) ++ [.setOwn true]

/-- The allocations of `generate3D27PtLaplacian` after its `A->dealloc()` (Laplacian.cpp:34-37,
82-83). -/
def laplaceActs : List Act :=
  [.malloc .rowptr, .malloc .diagptr, .malloc .idiag, .malloc .diag, .malloc .colidx,
   .malloc .values]

/-- `MALLOC` for a field of `h` if the field of the source is not null. -/
def copyIf (src : Obj) (σ : Slot) : List Act :=
  if (src.ptr σ).isSome then [.malloc σ] else []

/-- What `loadMatrixMarket_` meets (COO.cpp:186-359): a file it rejects before it allocates, one it
rejects afterwards, or one it accepts. -/
inductive Outcome
  | badHeader | badBody | good
deriving DecidableEq

/-- `loadMatrixMarket_` into the object `h` (COO.cpp:236-249, 266-271, 304-308, 346-356), with
`sym` for a symmetric file. -/
def loadCooActs (sym : Bool) : Outcome → List Act
  | .badHeader => []
  | .badBody =>
    [.malloc .tVal, .malloc .tCol, .malloc .tRow] ++
    (if sym then [.malloc .tTmp, .malloc .tCnt] else []) ++
    [.null .tVal, .null .tCol, .null .tRow, .null .tTmp, .null .tCnt]
  | .good =>
    [.malloc .tVal, .malloc .tCol, .malloc .tRow] ++
    (if sym then [.malloc .tTmp, .malloc .tCnt, .free .tCnt, .free .tTmp] else []) ++
    [.free .cooRow, .free .cooCol, .free .cooVal,
     .move .tVal .cooVal, .move .tCol .cooCol, .move .tRow .cooRow]

/-- The three ways in which `CSR(const char *, ..)` gets its matrix (CSR.cpp:101-126). -/
inductive Source
  | laplacian | bin (opened : Bool) | mtx (sym : Bool)
deriving DecidableEq

/-- The body of `CSR(const char *, ..)`: the object is new, so that the `dealloc` inside the
generator and inside `loadBin` releases nothing.  For a Matrix Market file the local `COO` is kept
in fields of `h`; a malformed file is not covered here (the constructor then goes on with
uninitialised sizes). -/
def fileActs : Source → List Act
  | .laplacian => laplaceActs
  | .bin opened => if opened then allocActs true else []
  | .mtx sym => loadCooActs sym .good ++ allocActs true ++
      [.free .cooRow, .free .cooCol, .free .cooVal]

/-- `CSR::constructDiagPtr` (LevelSchedule.cpp:157-162). -/
def diagPtrActs (o : Obj) : List Act :=
  if (o.ptr .diagptr).isSome then [] else [.malloc .diagptr]

/-- `CSR::computeInverseDiag` (CSR.cpp:441-455). -/
def inverseDiagActs (o : Obj) : List Act :=
  if (o.ptr .idiag).isSome then [] else diagPtrActs o ++ [.malloc .idiag]

/-- `CSR::transpose` of `src` into the new object `h` (CSR.cpp:471-629); with no columns it returns
before it allocates the row pointers (line 496). -/
def transposeActs (src : Obj) (noCols : Bool) : List Act :=
  [.malloc .colidx] ++ copyIf src .values ++
  copyIf src .diagptr ++ (if noCols then [] else [.malloc .rowptr])

/-- `CSR::permuteRowptr`, `permute` and `permuteRows` of `src` into the new object `h`
(Permute.cpp:83-111, 420-432). -/
def permuteActs (src : Obj) : List Act :=
  [.malloc .rowptr, .malloc .colidx] ++ copyIf src .values ++
  copyIf src .idiag ++ copyIf src .diagptr ++ copyIf src .extptr

/-- The allocations of `splitLU` for `L` (SymGS.cpp:28, 30, 74-75).  Those of `L` and of `U` are
interleaved in the code; here all of `L`'s come first, which makes no difference unless `L` and `U`
are one object. -/
def splitL : List Act := [.malloc .rowptr, .malloc .idiag, .malloc .colidx, .malloc .values]

/-- The allocations of `splitLU` for `U` (SymGS.cpp:24-25, 29, 31, 77-78). -/
def splitU (a : Obj) : List Act :=
  copyIf a .extptr ++ [.malloc .rowptr, .malloc .idiag, .malloc .colidx, .malloc .values]

/-- `LevelSchedule::allocate` (LevelSchedule.hpp:228-246). -/
def schedAlloc (pool : Bool) (σ : Slot) : Act :=
  if pool then .fromPool σ else .malloc σ

/-- The end of a temporary array: `FREE`, or a reset of the pool's head or tail. -/
def schedDrop (pool : Bool) (σ : Slot) : Act :=
  if pool then .null σ else .free σ

/-- `findLevels_` and the part of `constructTaskGraph_` up to the temporary adjacency lists
(LevelSchedule.cpp:504-508, 589-595, 604-612, 684-690, 734-737, 785-795, 842, 850-860, 891-896). -/
def buildHead (pool : Bool) : List Act :=
  [schedAlloc pool .lev, schedAlloc pool .buffer, schedDrop pool .buffer,
   schedAlloc pool .taskRows, schedAlloc pool .bBuf, schedDrop pool .bBuf,
   .free .o2t, .free .t2o, schedAlloc pool .o2t, schedAlloc pool .t2o,
   schedDrop pool .taskRows, schedDrop pool .lev,
   schedAlloc pool .rowTask,
   schedAlloc pool .npF, schedAlloc pool .pF, schedAlloc pool .npB, schedAlloc pool .pB,
   schedAlloc pool .fin,
   schedAlloc pool .adjRow, schedAlloc pool .adjCol, schedAlloc pool .invRow,
   schedAlloc pool .invCol, schedAlloc pool .invLen]

/-- The second schedule for a fused sweep (LevelSchedule.cpp:1137-1142, 1262-1266). -/
def buildFused (fuse : Bool) : List Act :=
  if fuse then [.malloc .fused, .malloc .fP, .malloc .fBuf, .malloc .fNp] else []

/-- The remainder, with or without transitive reduction (LevelSchedule.cpp:1455-1463, 1587-1602,
1612-1613, 1625, 1651-1665; 1684-1711; 1730-1735).  Without reduction the four arrays of the
adjacency lists are not released: `~CSR` leaves them alone because `ownData_` is false; and
`taskInvAdjacencyLengths` goes to `FREE` whether or not it came from the pool (line 1684). -/
def buildTail (pool reduction : Bool) : List Act :=
  (if reduction then
    [schedAlloc pool .chBuf, schedAlloc pool .ch, schedAlloc pool .nCh,
     schedDrop pool .adjRow, schedDrop pool .adjCol, schedDrop pool .invRow,
     schedDrop pool .invCol, schedDrop pool .invLen,
     schedAlloc pool .buf0, schedAlloc pool .buf1,
     schedAlloc pool .npTmp, schedDrop pool .npTmp,
     schedDrop pool .ch, schedDrop pool .nCh, schedDrop pool .chBuf]
  else
    [.free .invLen, schedAlloc pool .buf0, schedAlloc pool .buf1,
     .null .adjRow, .null .adjCol, .null .invRow, .null .invCol]) ++
  [schedDrop pool .rowTask]

/-- `LevelSchedule::constructTaskGraph` with row pointers, diagonal pointers and columns in the
caller's hands (LevelSchedule.cpp:801-1736). -/
def buildActs (pool reduction fuse : Bool) : List Act :=
  buildHead pool ++ buildFused fuse ++ buildTail pool reduction

/-- `~LevelSchedule` (LevelSchedule.cpp:97-114) and `~FusedGSAndSpMVSchedule`
(gs_spmv_fused.cpp:36-41). -/
def schedDtor (pool : Bool) : List Act :=
  if pool then [] else
    [.free .npF, .free .npB, .free .pF, .free .pB, .free .fin, .free .o2t,
     .free .t2o, .free .buf0, .free .buf1, .free .fNp, .free .fBuf, .free .fP,
     .free .fused]

/-- The destructors (CSR.cpp:160-163; COO.cpp:41-51; LevelSchedule.cpp:97-114). -/
def dtorActs (s : St) (o : Obj) : List Act :=
  match o.attr.cls with
  | .csr => deallocActs s o
  | .coo => [.free .cooRow, .free .cooCol, .free .cooVal]
  | .sched => schedDtor o.attr.pool

/-- The public calls.  Names of objects are chosen by the caller. -/
inductive Call
  /-- `CSR()` -/
  | csr (h : Nat)
  /-- `CSR(m, n, nnz)` -/
  | csrSized (h : Nat)
  /-- `CSR(const CSR&)` -/
  | csrCopy (h g : Nat)
  /-- `CSR(fileName, ..)` -/
  | csrFile (h : Nat) (src : Source)
  /-- `CSR(m, n, rowptr, colidx, values)` -/
  | csrBorrow (h : Nat) (r c : Nat) (v : Option Nat)
  /-- `A.alloc(m, nnz, createSeparateDiagData)` -/
  | alloc (h : Nat) (sep : Bool)
  /-- `A.dealloc()` -/
  | dealloc (h : Nat)
  /-- `A.loadBin(file)`; `opened` says whether the file could be opened -/
  | loadBin (h : Nat) (opened : Bool)
  /-- `generate3D27PtLaplacian(&A, ..)` -/
  | laplacian (h : Nat)
  /-- `A.constructDiagPtr()` -/
  | diagPtr (h : Nat)
  /-- `A.computeInverseDiag()` -/
  | inverseDiag (h : Nat)
  /-- `h = g->transpose()` -/
  | transpose (h g : Nat) (noCols : Bool)
  /-- `h = g->permute(..)`, `permuteRows(..)` or `permuteRowptr(..)` -/
  | permute (h g : Nat)
  /-- `splitLU(A, &L, &U)` -/
  | splitLU (a l u : Nat)
  /-- `A.extptr = b`: the field is public, and is how a distributed matrix is described -/
  | setExt (h b : Nat)
  /-- `A.diagptr = b` -/
  | setDiagptr (h b : Nat)
  /-- `A = B` -/
  | assign (h g : Nat)
  /-- `COO()` -/
  | coo (h : Nat)
  /-- `loadMatrixMarket(file, C, ..)` and its transposing variant -/
  | loadCoo (h : Nat) (sym : Bool) (outcome : Outcome)
  /-- `COO(C)`: the compiler's copy constructor -/
  | cooCopy (h g : Nat)
  /-- `LevelSchedule()` followed by `useMemoryPool = pool` -/
  | sched (h : Nat) (pool : Bool)
  /-- `S.constructTaskGraph(..)` with `transitiveReduction` and `fuseSpMV` as given -/
  | build (h : Nat) (reduction fuse : Bool)
  /-- `LevelSchedule(S)`: the compiler's copy constructor -/
  | schedCopy (h g : Nat)
  /-- the end of an object's life -/
  | destroy (h : Nat)
  /-- `A.~CSR()` written out, the object living on until its scope ends (as in
  LevelSchedule.cpp:463, 1595-1596) -/
  | explicitDtor (h : Nat)
  /-- the caller allocates / releases an array of their own -/
  | callerAlloc
  | callerFree (b : Nat)
  /-- the caller takes a piece of the pool / empties the pool (MemoryPool.cpp:127-174) -/
  | poolAlloc
  | poolReset

/-- Run `k` on object `h` if it exists and is of class `c`. -/
def onCls (s : St) (h : Nat) (c : Cls) (k : Obj → Res) : Res :=
  onObj s h fun o => if o.attr.cls = c then k o else .misuse

/-- `CSR::dealloc` as a call. -/
def dealloc (s : St) (h : Nat) : Res := onCls s h .csr fun o => execAll s h (deallocActs s o)

/-- One call. -/
def step (s : St) : Call → Res
  | .csr h => create s h ⟨.csr, false, false⟩ .ok
  | .csrSized h => create s h ⟨.csr, false, false⟩ fun s => execAll s h (allocActs true)
  | .csrCopy h g => onCls s g .csr fun o => create s h ⟨.csr, true, false⟩ fun s =>
      execAll s h ([.malloc .rowptr, .malloc .colidx] ++
        copyIf o .values ++ copyIf o .diagptr ++ copyIf o .idiag ++ copyIf o .diag)
  | .csrFile h src => create s h ⟨.csr, true, false⟩ fun s => execAll s h (fileActs src)
  | .csrBorrow h r c v => create s h ⟨.csr, false, false⟩ fun s =>
      execAll s h [.point .rowptr (some r), .point .colidx (some c), .point .values v]
  | .alloc h sep => onCls s h .csr fun _ => execAll s h (allocActs sep)
  | .dealloc h => dealloc s h
  | .loadBin h opened => (dealloc s h).andThen fun s =>
      execAll s h (if opened then allocActs true else [])
  | .laplacian h => (dealloc s h).andThen fun s => execAll s h laplaceActs
  | .diagPtr h => onCls s h .csr fun o => execAll s h (diagPtrActs o)
  | .inverseDiag h => onCls s h .csr fun o => execAll s h (inverseDiagActs o)
  | .transpose h g noCols => onCls s g .csr fun o => create s h ⟨.csr, false, false⟩ fun s =>
      execAll s h (transposeActs o noCols)
  | .permute h g => onCls s g .csr fun o => create s h ⟨.csr, false, false⟩ fun s =>
      execAll s h (permuteActs o)
  | .splitLU a l u => onCls s a .csr fun oa => (dealloc s l).andThen fun s =>
      (dealloc s u).andThen fun s => (execAll s l splitL).andThen fun s =>
      execAll s u (splitU oa)
  | .setExt h b => onCls s h .csr fun _ => execAll s h [.point .extptr (some b)]
  | .setDiagptr h b => onCls s h .csr fun _ => execAll s h [.point .diagptr (some b)]
  | .assign h g => onCls s h .csr fun _ => onCls s g .csr fun _ => shallow s h g
  | .coo h => create s h ⟨.coo, true, false⟩ .ok
  | .loadCoo h sym outcome => onCls s h .coo fun _ => execAll s h (loadCooActs sym outcome)
  | .cooCopy h g => onCls s g .coo fun o => create s h o.attr fun s => shallow s h g
  | .sched h pool => create s h ⟨.sched, true, pool⟩ .ok
  | .build h reduction fuse => onCls s h .sched fun o =>
      execAll s h (buildActs o.attr.pool reduction fuse)
  | .schedCopy h g => onCls s g .sched fun o => create s h o.attr fun s => shallow s h g
  | .destroy h => onObj s h fun o => (execAll s h (dtorActs s o)).andThen fun s => remove s h
  | .explicitDtor h => dealloc s h
  | .callerAlloc => .ok { s with status := upd s.status s.next .caller, next := s.next + 1 }
  | .callerFree b =>
      if s.status b = .caller then .ok { s with status := upd s.status b .freed } else .misuse
  | .poolAlloc => .ok { s with status := upd s.status s.next .pool, next := s.next + 1 }
  | .poolReset => .ok { s with status := drainPool s.status }

/-- A history of calls. -/
def run (s : St) : List Call → Res
  | [] => .ok s
  | c :: cs => (step s c).andThen fun s' => run s' cs

end SpMP.Own
