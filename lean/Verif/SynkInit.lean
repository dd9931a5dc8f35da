import Verif.Barrier

/-
Initialization of the barrier objects by the whole team: `Barrier::init` (synk/barrier.cpp:128-185) and
`ReduceBarrier<T>::init` (synk/reduce.hpp:128-260), together with the small counting barrier inside them, and the
further counting barrier of `LoadImba::init` (synk/loadimba.cpp:133-163).

The two `init` differ only in the ring along which partners are linked: `Barrier` uses the ring of the `numCores` real
cores, `ReduceBarrier` the ring of `nearestPow2Cores` virtual cores, those from `numCores` on being pseudo cores that
the real cores hold for them.  With the ring size `n2 = numCores` there are no pseudo cores, so that one machine with
the parameter `n2` covers both (the value slots `myRvals`, `partnerRvals` do not exist in `Barrier`).

Memory is sequentially consistent; `threadsWaiting` is changed atomically and `initState` is volatile.
-/

namespace SpMP

/-- Conversion of an int to `int8_t`. -/
def toI8 (n : Nat) : Int := ((n : Int) + 128) % 256 - 128

/-- A pointer to the cell `i` of one of the arrays of a core, or of its pseudo core. -/
structure CellPtr where
  core : Int
  pseudo : Bool
  i : Nat
  deriving DecidableEq

/-- The fields that cores and pseudo cores share (reduce.hpp:52-61, 66-84).  `none` is a cell not written yet. -/
structure InitSide where
  coreId : Int
  /-- `myFlags[j][i * CacheLineSize]` -/
  flags : Nat → Nat → Option Bool
  /-- `partnerFlags[j][i]`, which always points into the array `myFlags[j]` of the partner -/
  partner : Nat → Nat → Option CellPtr
  parity : Nat
  sense : Bool
  /-- has `myRvals[i]` been written? -/
  rvals : Nat → Bool
  /-- `partnerRvals[i]` -/
  partnerRvals : Nat → Option CellPtr

/-- A core (barrier.hpp:43-51, reduce.hpp:66-84). -/
structure InitCore where
  side : InitSide
  coreSense : Bool
  threadSenses : Nat → Option Bool
  pseudo : Option InitSide

/-- The barrier object (synk.hpp:41-54, barrier.hpp:72-76). `threadCores[t] = some c` is a pointer to the object of
core `c`. -/
structure InitG where
  waiting : Nat
  initState : Nat
  cores : Nat → Option InitCore
  threadCores : Nat → Option Nat
  coreTids : Nat → Option Int

/-- Where a thread is inside `init`; `k` tells the two counting barriers apart. -/
inductive InitPc
  | start
  /-- `atomic_dec_and_test(&threadsWaiting)` -/
  | dec (k : Nat)
  /-- `atomic_set(&threadsWaiting, numThreads)` -/
  | reset (k : Nat)
  /-- `initState = k + 1` -/
  | raise (k : Nat)
  /-- `while (initState == k)` -/
  | spin (k : Nat)
  /-- `threadCores[tid] = cores[cid]` -/
  | map1
  /-- `coreTids[tid] = coreTid` -/
  | map2
  /-- linking round `i`, of the core itself or of its pseudo core -/
  | link (i : Nat) (ps : Bool)
  | done
  deriving DecidableEq

/-- A thread in `init`. -/
structure InitL where
  tid : Nat
  pc : InitPc

/-- The fields of a new core or pseudo core with identifier `x`, before it is linked (barrier.cpp:139-156,
reduce.hpp:141-181). -/
def newSide (lg x : Nat) : InitSide where
  coreId := toI8 x
  flags := fun j i => if j < 2 ∧ i < lg then some false else none
  partner := fun _ _ => none
  parity := 0
  sense := true
  rvals := fun _ => false
  partnerRvals := fun _ => none

/-- A new core, with a pseudo core if it has to represent one (reduce.hpp:140-185). -/
def newCore (C P lg n2 c : Nat) : InitCore where
  side := newSide lg c
  coreSense := true
  threadSenses := fun p => if p < P then some true else none
  pseudo := if c + C < n2 then some (newSide lg (c + C)) else none

/-- The number of the partner in round `i` (barrier.cpp:173, reduce.hpp:205, 230); `%` of C. -/
def linkTarget (n2 : Nat) (base : Int) (i : Nat) : Int := (base + 2 ^ i).tmod n2

/-- The pointer stored for partner number `x` (reduce.hpp:208-224). -/
def linkPtr (C : Nat) (x : Int) (i : Nat) : CellPtr :=
  if x < C then ⟨x, false, i⟩ else ⟨x - C, true, i⟩

/-- Linking round `i` of a core or pseudo core (reduce.hpp:201-224, 228-251; barrier.cpp:173-176). -/
def linkSide (C n2 : Nat) (base : Int) (i : Nat) (s : InitSide) : InitSide :=
  { s with
    partner := fun j i' => if j < 2 ∧ i' = i then some (linkPtr C (linkTarget n2 base i) i) else s.partner j i'
    rvals := fun i' => if i' = i then true else s.rvals i'
    partnerRvals := fun i' => if i' = i then some (linkPtr C (linkTarget n2 base i) i) else s.partnerRvals i' }

/-- Round `i` for the core itself. The thread uses its own `cid`. -/
def linkCore (C n2 c i : Nat) (r : InitCore) : InitCore := { r with side := linkSide C n2 c i r.side }

/-- Round `i` for the pseudo core, if there is one. Its number is read from the field `coreId`, an `int8_t`
(reduce.hpp:54, 230). -/
def linkPseudo (C n2 i : Nat) (r : InitCore) : InitCore :=
  { r with pseudo := r.pseudo.map fun s => linkSide C n2 s.coreId i s }

/-- What follows counting barrier `k`. -/
def initAfter (k : Nat) : InitPc := if k = 0 then .map1 else .done

/-- One atomic step of `init`. Allocating and filling a new core is one step, as nobody else can see it before it is
stored in `cores[cid]`; so is linking one round, as nobody reads these fields before `init` is over. -/
def initNext (C P lg n2 : Nat) (l : InitL) (g : InitG) : Option (InitL × InitG) :=
  match l.pc with
  | .start =>
    some ({ l with pc := .dec 0 },
      if l.tid % P = 0 then
        { g with cores := upd1 g.cores (l.tid / P) (some (newCore C P lg n2 (l.tid / P))) } else g)
  | .dec k => some ({ l with pc := if g.waiting - 1 = 0 then .reset k else .spin k }, { g with waiting := g.waiting - 1 })
  | .reset k => some ({ l with pc := .raise k }, { g with waiting := C * P })
  | .raise k => some ({ l with pc := initAfter k }, { g with initState := k + 1 })
  | .spin k => if g.initState = k then none else some ({ l with pc := initAfter k }, g)
  | .map1 => some ({ l with pc := .map2 }, { g with threadCores := upd1 g.threadCores l.tid (some (l.tid / P)) })
  | .map2 =>
    some ({ l with pc := if l.tid % P = 0 then .link 0 false else .dec 1 },
      { g with coreTids := upd1 g.coreTids l.tid (some (toI8 (l.tid % P))) })
  | .link i false =>
    if i < lg then
      some ({ l with pc := .link i true },
        { g with cores := upd1 g.cores (l.tid / P) ((g.cores (l.tid / P)).map (linkCore C n2 (l.tid / P) i)) })
    else some ({ l with pc := .dec 1 }, g)
  | .link i true =>
    some ({ l with pc := .link (i + 1) false },
      { g with cores := upd1 g.cores (l.tid / P) ((g.cores (l.tid / P)).map (linkPseudo C n2 i)) })
  | .done => none

/-- The object a pointer leads to exists: the core has been stored in `cores`, and has a pseudo core if that is meant. -/
def ptrOk (C : Nat) (g : InitG) (p : CellPtr) : Prop :=
  0 ≤ p.core ∧ p.core < C ∧ ∃ r, g.cores p.core.toNat = some r ∧ (p.pseudo = true → r.pseudo.isSome = true)

/-- Undefined behaviour: using an entry of `cores` outside the array or not written yet, following a null `pseudoCore`;
also counting below zero, which would make the counting barrier useless. -/
def initBad (C P lg n2 : Nat) (l : InitL) (g : InitG) : Prop :=
  match l.pc with
  | .start => ¬ l.tid / P < C
  | .dec _ => g.waiting = 0
  | .map1 => g.cores (l.tid / P) = none
  | .link i false => g.cores (l.tid / P) = none ∨
      (i < lg ∧ ¬ ptrOk C g (linkPtr C (linkTarget n2 ((l.tid / P : Nat) : Int) i) i))
  | .link i true => ∀ r, g.cores (l.tid / P) = some r → ∃ s, r.pseudo = some s ∧
      ¬ ptrOk C g (linkPtr C (linkTarget n2 s.coreId i) i)
  | _ => False

/-- All threads of the team call `init` once. -/
def initMachine (C P lg n2 : Nat) : Machine InitL InitG where
  step := fun l g l' g' => initNext C P lg n2 l g = some (l', g')
  bad := initBad C P lg n2
  final := fun l => l.pc = .done

/-- After the constructors (synk.cpp:54-75, barrier.cpp:112-124). -/
def initG0 (C P : Nat) : InitG := ⟨C * P, 0, fun _ => none, fun _ => none, fun _ => none⟩

/-- All threads before their call. -/
def initL0 : Nat → InitL := fun t => ⟨t, .start⟩

/-! ### The third counting barrier of LoadImba::init -/

/-- The part of the `LoadImba` object that is used after `Barrier::init` and `red->init`. -/
structure LimG where
  waiting : Nat
  initState : Nat
  /-- has `limba[t]` been written? -/
  limba : Nat → Bool

/-- Where a thread is in lines 140-162 of loadimba.cpp. -/
inductive LimPc
  | fill | dec | reset | raise | spin | done
  deriving DecidableEq

/-- A thread in the last part of `LoadImba::init`. -/
structure LimL where
  tid : Nat
  pc : LimPc

/-- One step of loadimba.cpp:140-162 for `T` threads. -/
def limNext (T : Nat) (l : LimL) (g : LimG) : Option (LimL × LimG) :=
  match l.pc with
  | .fill => some ({ l with pc := .dec }, { g with limba := upd1 g.limba l.tid true })
  | .dec => some ({ l with pc := if g.waiting - 1 = 0 then .reset else .spin }, { g with waiting := g.waiting - 1 })
  | .reset => some ({ l with pc := .raise }, { g with waiting := T })
  | .raise => some ({ l with pc := .done }, { g with initState := 1 })
  | .spin => if g.initState = 0 then none else some ({ l with pc := .done }, g)
  | .done => none

/-- The machine. -/
def limMachine (T : Nat) : Machine LimL LimG where
  step := fun l g l' g' => limNext T l g = some (l', g')
  bad := fun _ _ => False
  final := fun l => l.pc = .done

end SpMP
