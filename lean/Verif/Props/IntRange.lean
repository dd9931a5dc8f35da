import Verif.TransposeInt
import Verif.LapInt
import Verif.PrefixInt
import Verif.LevelInt
import Verif.RcmInt
import Verif.Props.Transpose
import Verif.Props.Laplacian
import Verif.Props.Utils
/-
Property theorems C69: up to which sizes the 32-bit ints of the code are enough. The other properties are about the same functions
with unbounded integers; here every index and size computation of the function is checked (`iAdd`, `iSub`, `iMul`, `iDiv`, `iMod` are
undefined behaviour when the result is not a 32-bit int), and the theorems give the bounds under which nothing changes.
-/

namespace SpMP.Props
open SpMP SpMP.Spec

variable {R : Type}

/-! ## Simple partition -/

/-- C69 for getSimpleThreadPartition: if `n` plus the number of threads is an int, every thread gets its range, and the ranges tile
`0 .. n-1`. -/
theorem C69_simple_partition {A : Type} {ty : A → Type} (T : Nat) (hT : 1 ≤ T) (n : Int) (hn : 0 ≤ n) (hb : n + T ≤ 2147483647) :
    ∃ b e : Nat → Int, Tiles T n b e ∧ ∀ t : Nat, t < T → (simplePartC T t n : Prog ty (Int × Int)) = .ret (b t, e t) :=
  ⟨_, _, (C01_simple_partition T hT n hn).1, fun t ht => simplePartC_eq (by omega) hn (by omega) (by omega) hb⟩

/-- C69: beyond that bound every thread meets an overflow. -/
theorem C69_simple_partition_only {A : Type} {ty : A → Type} (T : Nat) (t : Nat) (n : Int) (hn : 0 ≤ n) (hb : 2147483647 < n + T) :
    (simplePartC T t n : Prog ty (Int × Int)) = .fail := by
  have h : (iAdd n T : Prog ty Int) = .fail := by
    unfold iAdd ck; rw [if_neg (by rintro ⟨_, h⟩; omega)]
  unfold simplePartC
  rw [h]; rfl

-- Four threads share 2147483643 items; one more item is too many.
example : ∃ b e : Nat → Int, Tiles 4 2147483643 b e ∧ ∀ t : Nat, t < 4 → (simplePartC (4 : Nat) t 2147483643 : Prog PTy (Int × Int)) = .ret (b t, e t) :=
  C69_simple_partition 4 (by omega) _ (by omega) (by omega)
example : (simplePartC (4 : Nat) (0 : Nat) 2147483644 : Prog PTy (Int × Int)) = .fail := C69_simple_partition_only 4 0 _ (by omega) (by omega)

/-! ## Prefix sums of vectors -/

/-- C69 for prefixSumMultiple: C03 with checked index arithmetic, if the workspace the caller must provide has at most 2^31
elements. (The sums themselves are not checked.) -/
theorem C69_prefix_partial (T n : Nat) (hT : 1 ≤ T) (hT' : (T : Int) ≤ 2147483647) (hb : ((T : Int) + 1) * n ≤ 2147483648)
    (x : Nat → Nat → Int) (m : Mem PTy) (hio : ∀ t i, t < T → i < n → m (.io t) i = some (x t i)) :
    (prefixSumMultipleC T n).Ok m (fun _ m' =>
      (∀ t i, t < T → i < n → m' (.io t) i = some (sumBelow (fun u => x u i) t)) ∧
      (∀ i, i < n → m' .sum i = some (sumBelow (fun u => x u i) T))) :=
  (C03_prefixSumMultiple T n hT x m hio).sim (sim_prefixSumMultiple (m0 := m) hT' hb) fun _ _ h => h.elim

/-- C69: and only then. -/
theorem C69_prefix_only (T n : Nat) (hT : 1 ≤ T) (hn : 1 ≤ n) (m : Mem PTy) {Q : Unit → Mem PTy → Prop} (h : (prefixSumMultipleC T n).Ok m Q) :
    ((T : Int) + 1) * n ≤ 2147483648 := by
  unfold prefixSumMultipleC at h
  obtain ⟨r, m', hr, _⟩ := ParOk.run_aux (t := T - 1) (by omega) _ _ m rfl h
  have key : (Prog.forUp 0 (n : Int) () (fun i _ => do
        let v ← Prog.read (ty := PTy) (.io (T - 1)) i
        let t1 ← iAdd ((T - 1 : Nat) : Int) 1
        let a ← iMul t1 n
        let a ← iAdd a i
        Prog.write (ty := PTy) .ws a v)).Rets fun _ => InInt (((T - 1 : Nat) : Int) * n + n + (n - 1)) := by
    have k := Prog.Rets.forUp (ty := PTy) (lo := 0) (hi := (n : Int)) (s := ()) (I := fun i _ => 0 < i → InInt ((((T - 1 : Nat) : Int) + 1) * n + (i - 1)))
      (b := fun i _ => do
        let v ← Prog.read (ty := PTy) (.io (T - 1)) i
        let t1 ← iAdd ((T - 1 : Nat) : Int) 1
        let a ← iMul t1 n
        let a ← iAdd a i
        Prog.write (ty := PTy) .ws a v) (by intro h; omega) ?_
    · rw [show max 0 (n : Int) = n by omega] at k
      have e : (((T - 1 : Nat) : Int) + 1) * n + ((n : Int) - 1) = ((T - 1 : Nat) : Int) * n + n + ((n : Int) - 1) := by ring
      rw [e] at k
      have : (0 < (n : Int)) = True := eq_true (by omega)
      simp only [this, true_implies] at k
      exact k
    · intro i _ h0 h1 _
      refine Prog.Rets.bind (P := fun _ => True) (fun _ => trivial) fun v _ => Prog.Rets.bind (Prog.Rets.iAdd ((T - 1 : Nat) : Int) 1) ?_
      rintro _ ⟨rfl, _⟩
      refine (Prog.Rets.iMul _ _).bind ?_
      rintro _ ⟨rfl, _⟩
      refine (Prog.Rets.iAdd _ _).bind ?_
      rintro _ ⟨rfl, hi⟩
      show 0 < i + 1 → InInt _
      intro _
      rw [show i + 1 - 1 = i by omega]
      exact hi
  have h2 := (key.run hr).2
  have e : ((T : Int) + 1) * n = ((T - 1 : Nat) : Int) * n + n + n := by
    rw [show ((T - 1 : Nat) : Int) = (T : Int) - 1 by omega]; ring
  omega

-- A team of 127 can add vectors of 2^24 numbers, a team of 128 cannot.
example : (prefixSumMultipleC 127 16777216).Ok (fun a _ => match a with | .io _ => some 0 | _ => none) (fun _ m' => ∃ v, m' .sum 5 = some v) :=
  Script.Ok.mono (C69_prefix_partial 127 16777216 (by omega) (by omega) (by omega) (fun _ _ => 0) _ (fun _ _ _ _ => rfl)) (by
    rintro _ m' ⟨_, h⟩
    exact ⟨_, h 5 (by omega)⟩)
example : ¬ (prefixSumMultipleC 128 16777216).Ok (fun a _ => match a with | .io _ => some 0 | _ => none) (fun _ _ => True) :=
  fun h => by have := C69_prefix_only 128 16777216 (by omega) (by omega) _ h; omega

/-! ## Transpose -/

/-- C69 for transpose(): C09 with checked index arithmetic, if the bucket array (one row of `n + 1` counters per thread) has fewer
than 2^31 elements, the matrix has fewer than 2^31 - 1 rows, and entries and threads together fewer than 2^31. (The counters
themselves are not checked.) -/
theorem C69_transpose_partial {sz : CArr → Int} {T k k' base : Nat} {A : Csr R} {vals diag : Bool} {asg : Nat → Int × Int}
    {m0 : Mem (CTy R)} (hT : 1 ≤ T) (hkk : k' ≠ k) (hwf : A.WF) (hn : 0 < A.n) (hbase : base ≤ 1)
    (hbn : ((A.n : Int) + 1) * T ≤ 2147483647) (hbm : (A.m : Int) < 2147483647) (hbz : (A.nnz : Int) + T ≤ 2147483647)
    (hasg : PartRng T A.n fun t x => x = asg t) (hord : ∀ t, t < T → (asg t).1 ≤ (asg t).2)
    (hp : HoldsPat m0 k base A) (hv : vals = true → HoldsVal m0 k A) :
    (transposeC sz T k k' base A.m A.n vals diag asg).Ok m0 (fun _ m => ∃ B : Csr R, IsTranspose A B ∧
      HoldsPat m k' base B ∧ (vals = true → HoldsVal m k' B) ∧
      (diag = true → ∀ c j, B.InRow c j → B.col j = c →
        ∃ j', B.InRow c j' ∧ B.col j' = c ∧ m (.diagptr k') (c : Int) = some ((j' : Int) + base)) ∧
      ∀ a i, a ≠ .rowptr k' → a ≠ .colidx k' → a ≠ .values k' → a ≠ .diagptr k' → m a i = m0 a i) :=
  (C09_transpose_partial hT hkk hwf hn hasg hp hv).sim
    (sim_transpose hT hkk hwf hp hbase hbn hbm hbz hn fun t ht =>
      ⟨(hasg.range t _ ht rfl).1, hord t ht, (hasg.range t _ ht rfl).2⟩) fun _ _ _ => rfl

/-- C69: a transpose that runs without overflow has a bucket array of fewer than 2^31 elements. -/
theorem C69_transpose_only {sz : CArr → Int} {T k k' base m n : Nat} {vals diag : Bool} {asg : Nat → Int × Int}
    {m0 : Mem (CTy R)} {Q : Unit → Mem (CTy R) → Prop} (hn : 0 < n) (h : (transposeC sz T k k' base m n vals diag asg).Ok m0 Q) :
    ((n : Int) + 1) * T ≤ 2147483647 := by
  unfold transposeC at h
  have hr : (trHeadC k m n T : Prog (CTy R) Int).Rets fun _ => ((n : Int) + 1) * T ≤ 2147483647 := by
    unfold trHeadC
    refine Prog.Rets.bind (P := fun _ => True) (fun _ => trivial) fun l _ => Prog.Rets.bind (P := fun _ => True) (fun _ => trivial) fun b _ =>
      (Prog.Rets.ck _).bind fun z _ => ?_
    rw [if_neg (by omega)]
    refine Prog.Rets.bind (Prog.Rets.iAdd (n : Int) 1) ?_
    rintro _ ⟨rfl, _⟩
    refine Prog.Rets.bind (Prog.Rets.iMul _ _) ?_
    rintro _ ⟨_, hi⟩
    exact hi.2
  obtain ⟨_, h2⟩ := h.rets hr
  exact h2

/-- A matrix with one row, `n` columns and no entries. -/
def wideRow (n : Nat) : Csr Int where
  m := 1
  n := n
  ptr := fun _ => 0
  col := fun _ => 0
  val := fun _ => 0

theorem wideRow_wf (n : Nat) : (wideRow n).WF := ⟨rfl, fun _ _ => Nat.le_refl _, fun j hj => absurd hj (Nat.not_lt_zero j)⟩

/-- C69 is false for all matrices an int can describe: C09 fails, with checked arithmetic, for an empty row of 2^24 columns and 128
threads. -/
theorem C69_transpose_false :
    ¬ (∀ (A : Csr Int) (T : Nat) (m0 : Mem (CTy Int)), A.WF → 0 < A.n → 1 ≤ T → (A.m : Int) < 2147483647 → (A.n : Int) < 2147483647 →
      (A.nnz : Int) + T < 2147483647 → HoldsPat m0 0 0 A → HoldsVal m0 0 A →
      (transposeC (fun _ => 0) T 0 1 0 A.m A.n true false fun t => (simpleBegin T t A.n, simpleEnd T t A.n)).Ok m0 (fun _ m =>
        ∃ B : Csr Int, IsTranspose A B ∧ HoldsPat m 1 0 B)) := by
  intro h
  have h1 := h (wideRow 16777216) 128 (csrMem 0 0 (wideRow 16777216) (fun _ => 0) (fun _ => 0)) (wideRow_wf _)
    (show 0 < 16777216 by omega) (by omega) (show ((1 : Nat) : Int) < 2147483647 by omega) (show ((16777216 : Nat) : Int) < 2147483647 by omega)
    (show ((0 : Nat) : Int) + ((128 : Nat) : Int) < 2147483647 by omega)
    (csrMem_pat 0 0 _ _ _) (csrMem_val 0 0 _ _ _)
  have h2 := C69_transpose_only (show 0 < 16777216 by omega) h1
  omega

-- The same row can be transposed by 127 threads.
example : (transposeC (R := Int) (fun _ => 0) 127 0 1 0 (wideRow 16777216).m (wideRow 16777216).n true false
      fun t => (simpleBegin 127 t (wideRow 16777216).n, simpleEnd 127 t (wideRow 16777216).n)).Ok
    (csrMem 0 0 (wideRow 16777216) (fun _ => 0) (fun _ => 0)) (fun _ m => ∃ B : Csr Int, IsTranspose (wideRow 16777216) B ∧ HoldsPat m 1 0 B) :=
  Script.Ok.mono (C69_transpose_partial (by omega) (by omega) (wideRow_wf _) (show 0 < 16777216 by omega) (by omega)
    (show (((16777216 : Nat) : Int) + 1) * ((127 : Nat) : Int) ≤ 2147483647 by omega) (show ((1 : Nat) : Int) < 2147483647 by omega)
    (show ((0 : Nat) : Int) + ((127 : Nat) : Int) ≤ 2147483647 by omega) (asg_simple 127 _ (by omega))
    (fun t ht => simpleBegin_le_end (by omega) (by omega)) (csrMem_pat 0 0 _ _ _) (fun _ => csrMem_val 0 0 _ _ _))
    (by rintro _ m ⟨B, h1, h2, _⟩; exact ⟨B, h1, h2⟩)

-- And the example matrix in base 1, with values and diagonal pointers.
example : (transposeC (R := Int) (fun _ => 0) 2 0 1 1 exampleCsr.m exampleCsr.n true true
      fun t => (simpleBegin 2 t exampleCsr.n, simpleEnd 2 t exampleCsr.n)).Ok
    (csrMem 0 1 exampleCsr (fun _ => 0) (fun _ => 0)) (fun _ m => ∃ B : Csr Int, IsTranspose exampleCsr B ∧ HoldsPat m 1 1 B ∧ HoldsVal m 1 B) :=
  Script.Ok.mono (C69_transpose_partial (by omega) (by omega) exampleCsr_wf (by decide) (by omega) (by decide) (by decide) (by decide)
    (asg_simple 2 _ (by omega)) (fun t ht => simpleBegin_le_end (by omega) (by omega))
    (csrMem_pat 0 1 exampleCsr _ _) (fun _ => csrMem_val 0 1 exampleCsr _ _))
    (by rintro _ m ⟨B, h1, h2, h3, _⟩; exact ⟨B, h1, h2, h3 rfl⟩)

/-! ## The 27-point Laplacian -/

/-- C69 for generate3D27PtLaplacian: C24 with checked arithmetic, if the number of entries of the matrix is an int. -/
theorem C69_laplacian_partial [Ring R] [Div R] {k nx ny nz base : Nat} {m0 : Mem (CTy R)} (hx : nx = 1 ↔ nz = 1) (hy : ny = 1 ↔ nz = 1)
    (px : 1 ≤ nx) (py : 1 ≤ ny) (pz : 1 ≤ nz) (hn : (3 * (nz : Int) - 2) * ((3 * (ny : Int) - 2) * (3 * (nx : Int) - 2)) ≤ 2147483647)
    (hb : base = 0 ∨ base = 1) :
    (laplacianC k nx ny nz (26 : R) (-1) base).Ok m0 (fun _ m => ∃ A : Csr R, A.m = nx * ny * nz ∧ A.n = nx * ny * nz ∧ A.WF ∧
      HoldsPat m k base A ∧ HoldsVal m k A ∧
      (∀ p, InGrid nx ny nz p → (A.row (gridRow nx ny p)).Pairwise (fun x y => x.1 < y.1) ∧
        ∀ c v, (c, v) ∈ A.row (gridRow nx ny p) ↔
          ∃ q, InGrid nx ny nz q ∧ Near p q ∧ c = gridRow nx ny q ∧ v = if q = p then 26 else -1)) :=
  ((C24_laplacian_partial hx hy hb).sim (sim_laplacian (m0 := m0) hx hy px py pz hn) fun _ _ h => h.elim).mono
    (by rintro _ m ⟨A, h1, h2, h3, h4, h5, h6, _⟩; exact ⟨A, h1, h2, h3, h4, h5, h6⟩)

/-- C69: and only then. -/
theorem C69_laplacian_only [Ring R] [Div R] {k nx ny nz : Nat} {base : Int} {m0 : Mem (CTy R)} {d o : R} {Q : Unit → Mem (CTy R) → Prop}
    (hx : nx = 1 ↔ nz = 1) (hy : ny = 1 ↔ nz = 1) (px : 1 ≤ nx) (py : 1 ≤ ny) (pz : 1 ≤ nz)
    (h : (laplacianC k nx ny nz d o base).Ok m0 Q) :
    (3 * (nz : Int) - 2) * ((3 * (ny : Int) - 2) * (3 * (nx : Int) - 2)) ≤ 2147483647 := by
  unfold laplacianC at h
  obtain ⟨r, h1, h2⟩ := h.rets (rets_lapCount hx hy px py pz)
  rw [h1] at h2
  exact h2.2

/-- C69 for cubes: the generator works up to 430 points in each direction, and overflows from 431 on (where the number of rows is
still below 2^27). -/
theorem C69_cube [Ring R] [Div R] {k n base : Nat} {m0 : Mem (CTy R)} (hn : 1 ≤ n) (hb : base = 0 ∨ base = 1) :
    (laplacianC k n n n (26 : R) (-1) base).Ok m0 (fun _ m => ∃ A : Csr R, A.m = n * n * n ∧ A.WF ∧ HoldsPat m k base A ∧ HoldsVal m k A) ↔
      n ≤ 430 := by
  constructor
  · intro h
    have h1 := C69_laplacian_only Iff.rfl Iff.rfl hn hn hn h
    by_contra hc
    have hx : 1291 ≤ 3 * (n : Int) - 2 := by omega
    have h2 : (1291 : Int) * 1291 ≤ (3 * (n : Int) - 2) * (3 * (n : Int) - 2) := Int.mul_le_mul hx hx (by omega) (by omega)
    have h3 : (1291 : Int) * (1291 * 1291) ≤ (3 * (n : Int) - 2) * ((3 * (n : Int) - 2) * (3 * (n : Int) - 2)) :=
      Int.mul_le_mul hx h2 (by omega) (by omega)
    omega
  · intro h
    have hx : 3 * (n : Int) - 2 ≤ 1288 := by omega
    have h2 : (3 * (n : Int) - 2) * (3 * (n : Int) - 2) ≤ (1288 : Int) * 1288 := Int.mul_le_mul hx hx (by omega) (by omega)
    have h3 : (3 * (n : Int) - 2) * ((3 * (n : Int) - 2) * (3 * (n : Int) - 2)) ≤ (1288 : Int) * (1288 * 1288) :=
      Int.mul_le_mul hx h2 (Int.mul_nonneg (by omega) (by omega)) (by omega)
    exact (C69_laplacian_partial Iff.rfl Iff.rfl hn hn hn (by omega) hb).mono
      (by rintro _ m ⟨A, h1, _, h3, h4, h5, _⟩; exact ⟨A, h1, h3, h4, h5⟩)

-- A grid of 10^6 by 10 by 5 points is fine.
example : (laplacianC 0 1000000 10 5 (26 : Int) (-1) (1 : Nat)).Ok (fun _ _ => none) (fun _ m => ∃ A : Csr Int, A.m = 1000000 * 10 * 5 ∧ HoldsPat m 0 1 A) :=
  (C69_laplacian_partial (by omega) (by omega) (by omega) (by omega) (by omega) (by omega) (Or.inr rfl)).mono
    (by rintro _ m ⟨A, h1, _, _, h4, _⟩; exact ⟨A, h1, h4⟩)

/-! ## The buffers of a schedule's construction -/

/-- C69 for the construction of schedules: if five times `max(T, n + T - 1)` plus 45056 is an int, the sizes of the buffers come out as
the sizes the memory proofs use (`partSize`), the parts of the work buffer of the threads start where these proofs put them, and
they lie in the buffer. -/
theorem C69_schedule_buffers {A : Type} {ty : A → Type} (sz : CArr → Int) (nlev : Nat) (nt : Int) (T n : Nat) (hT : 1 ≤ T)
    (hb : 5 * max (T : Int) ((n : Int) + T - 1) + 45056 ≤ 2147483647) :
    (levPermSizeC n : Prog ty Int) = .ret (partSize sz T n nlev nt revA) ∧
    (levBufSizeC T n : Prog ty Int) = .ret (partSize sz T n nlev nt bufA) ∧
    (bBufSizeC T n : Prog ty Int) = .ret (partSize sz T n nlev nt (.itmp 50)) ∧
    (contPermSizeC n : Prog ty Int) = .ret (partSize sz T n nlev nt (.itmp 54)) ∧
    (contPermSizeC n : Prog ty Int) = .ret (partSize sz T n nlev nt (.itmp 32)) ∧
    ((npOffC T n : Prog ty Int) = .ret (npOff T n) ∧ npOff T n + n ≤ partSize sz T n nlev nt bufA) ∧
    ∀ t : Nat, t < T → (qOffC T n t : Prog ty Int) = .ret (qOff T n t) ∧ (rOffC T n t : Prog ty Int) = .ret (rOff T n t) ∧
      0 ≤ qOff T n t ∧ qOff T n t ≤ rOff T n 0 ∧ rOff T n t ≤ npOff T n := by
  have h1 := lvMx_int T n hT
  have hb' : 5 * (lvMx T n : Int) + 45056 ≤ 2147483647 := by omega
  refine ⟨levPermSizeC_eq (by omega), ?_, ck_eq ⟨by omega, by omega⟩, ck_eq ⟨by omega, by omega⟩, ck_eq ⟨by omega, by omega⟩,
    ⟨npOffC_eq hT hb', ?_⟩, fun t ht => ⟨qOffC_eq ht hb', rOffC_eq ht hb', ?_⟩⟩
  · rw [levBufSizeC_eq hT hb']; rfl
  · show ((lvMx T n * 4 : Nat) : Int) + n ≤ 5 * (lvMx T n : Int) + 2048 * 22
    omega
  · have h2 := lvCap_mul_le (n := n) ht
    unfold qOff rOff npOff
    rw [Nat.mul_zero]
    omega

/-- C69: and only then. -/
theorem C69_schedule_buffers_only {A : Type} {ty : A → Type} (T n : Nat) (hT : 1 ≤ T)
    (hb : 2147483647 < 5 * max (T : Int) ((n : Int) + T - 1) + 45056) : (levBufSizeC T n : Prog ty Int) = .fail :=
  levBufSizeC_fail hT (by rw [← lvMx_int T n hT]; exact hb)

-- 64 threads can order the rows of a matrix with 429 million rows; half a billion rows, one thread: the size of the work buffer
-- overflows.
example : (levBufSizeC (64 : Nat) (429000000 : Nat) : Prog PTy Int) = .ret (partSize (fun _ => 0) 64 429000000 3 7 bufA) :=
  (C69_schedule_buffers (fun _ => 0) 3 7 64 429000000 (by omega) (by omega)).2.1
example : (levBufSizeC (1 : Nat) (500000000 : Nat) : Prog PTy Int) = .fail := C69_schedule_buffers_only 1 500000000 (by omega) (by omega)

/-! ## The arrays of the reordering functions -/

/-- C69 for getRCMPermutation: the sizes of its arrays are the ones the proofs of C45 use, exactly when the number of rows times the
number of threads, 16 times the number of rows plus 16, and the number of threads times the larger of PAR_THR (`thr`) and the
largest degree (`md`) are ints. -/
theorem C69_rcm_buffers {A : Type} {ty : A → Type} (sz : CArr → Int) (m T thr md : Nat) (hT : 1 ≤ T) (a q0 q1 rp w p : Int) :
    (rcmSizesC m T thr md : Prog ty _) = .ret (a, (q0, q1, rp), w, p) ↔
      ((m : Int) * T ≤ 2147483647 ∧ ((m : Int) + 1) * 16 ≤ 2147483647 ∧ (T : Int) * max thr md ≤ 2147483647 ∧ (T : Int) * thr < 2147483647) ∧
      a = rcmSize sz m T thr md rcmChd ∧ q0 = rcmSize sz m T thr md (bfsQ 0) ∧ q1 = rcmSize sz m T thr md (bfsQ 1) ∧
      rp = rcmSize sz m T thr md bufA ∧ w = rcmSize sz m T thr md (.itmp 23) ∧ p = rcmSize sz m T thr md rcmPfx := by
  have e1 : (m : Int) * T = ((m * T : Nat) : Int) := by push_cast; rfl
  have e2 : (T : Int) * max (thr : Int) md = ((T * max thr md : Nat) : Int) := by push_cast; rfl
  have e3 : (T : Int) * (thr : Int) = ((T * thr : Nat) : Int) := by push_cast; rfl
  have e4 : (T : Int) * ((max thr md : Nat) : Int) = ((T * max thr md : Nat) : Int) := by push_cast; rfl
  have e5 : rcmSize sz m T thr md rcmChd = (T : Int) * ((max thr md : Nat) : Int) := rfl
  have e6 : rcmSize sz m T thr md rcmPfx = max ((T : Int) * thr) m + 1 := rfl
  rw [rcmSizesC_ret, e5, e6]
  simp only [Prod.mk.injEq, InInt]
  show _ ↔ _ ∧ _ ∧ q0 = (m : Int) * T ∧ q1 = (m : Int) * T ∧ rp = (T : Int) * m ∧ w = ((m : Int) + 1) * 16 ∧ _
  rw [Int.mul_comm (T : Int) m, e1, e2, e3]
  constructor
  · rintro ⟨⟨h1, h2, h3, h4, h5, h6⟩, rfl, ⟨rfl, rfl, rfl⟩, rfl, rfl⟩
    refine ⟨⟨h2.2, h4.2, ?_, ?_⟩, ?_, rfl, rfl, rfl, rfl, rfl⟩ <;> omega
  · rintro ⟨⟨h1, h2, h3, h4⟩, rfl, rfl, rfl, rfl, rfl, rfl⟩
    refine ⟨⟨⟨?_, ?_⟩, ⟨?_, ?_⟩, ⟨?_, ?_⟩, ⟨?_, ?_⟩, ⟨?_, ?_⟩, ⟨?_, ?_⟩⟩, ?_, ⟨rfl, rfl, rfl⟩, rfl, rfl⟩ <;> omega

/-- C69 for the searches of getBFSPermutation and bfsBipartite (`m` is the larger side there): exactly when the number of rows times
the number of threads is an int. -/
theorem C69_bfs_buffers {A : Type} {ty : A → Type} (sz : CArr → Int) (m T : Nat) (q0 q1 rp : Int) :
    (bfsAuxC m T : Prog ty _) = .ret (q0, q1, rp) ↔ (m : Int) * T ≤ 2147483647 ∧
      q0 = bfsSize sz m T (bfsQ 0) ∧ q1 = bfsSize sz m T (bfsQ 1) ∧ rp = bfsSize sz m T bufA := by
  have e1 : (m : Int) * T = ((m * T : Nat) : Int) := by push_cast; rfl
  rw [bfsAuxC_ret]
  simp only [Prod.mk.injEq, InInt]
  show _ ↔ _ ∧ q0 = (m : Int) * T ∧ q1 = (m : Int) * T ∧ rp = (T : Int) * m
  rw [Int.mul_comm (T : Int) m, e1]
  constructor
  · rintro ⟨h, h'⟩; exact ⟨h.2, h'⟩
  · rintro ⟨h, h'⟩; exact ⟨⟨by omega, h⟩, h'⟩

/-- C69 for findConnectedComponents: exactly when the number of components plus one times the number of threads is an int and, with a
bit vector, the number of rows times the number of threads too. -/
theorem C69_components_buffers {A : Type} {ty : A → Type} (sz : CArr → Int) (k' : Nat) (wb : Bool) (m T mm nc : Nat) (hT : 1 ≤ T) (a b : Int) :
    (ccSizesC wb m T nc : Prog ty _) = .ret (a, b) ↔
      ((wb = true → (m : Int) * T ≤ 2147483647) ∧ ((nc : Int) + 1) * T ≤ 2147483647) ∧
      a = ccSize sz k' m T mm nc (.itmp 7) ∧ b = ccSize sz k' m T mm nc (.rowptr k') := by
  have e1 : (m : Int) * T = ((m * T : Nat) : Int) := by push_cast; rfl
  have e2 : ((nc : Int) + 1) * T = (((nc + 1) * T : Nat) : Int) := by push_cast; rfl
  have e3 : nc + 1 ≤ (nc + 1) * T := Nat.le_mul_of_pos_right _ hT
  have e4 : ccSize sz k' m T mm nc (.rowptr k') = ((nc : Int) + 1) * T := by
    show (if k' = k' then _ else _) = _
    rw [if_pos rfl]
  rw [ccSizesC_ret, e4]
  simp only [Prod.mk.injEq, InInt]
  show _ ↔ _ ∧ a = (m : Int) * T ∧ _
  rw [e1, e2]
  constructor
  · rintro ⟨⟨h1, h2, h3⟩, h'⟩; exact ⟨⟨fun h => (h1 h).2, h3.2⟩, h'⟩
  · rintro ⟨⟨h1, h2⟩, h'⟩; exact ⟨⟨fun h => ⟨by omega, h1 h⟩, ⟨by omega, by omega⟩, by omega, h2⟩, h'⟩

-- With PAR_THR = 65536 and 64 threads, 33 million rows can be reordered and 34 million cannot.
example : (rcmSizesC (33000000 : Nat) (64 : Nat) (65536 : Nat) (100 : Nat) : Prog PTy _) =
    .ret (4194304, (2112000000, 2112000000, 2112000000), 528000016, 33000001) :=
  (C69_rcm_buffers (fun _ => 0) 33000000 64 65536 100 (by omega) _ _ _ _ _ _).mpr
    ⟨⟨by omega, by omega, by omega, by omega⟩, by simp [rcmSize], by simp [rcmSize], by simp [rcmSize], by simp [rcmSize], by simp [rcmSize], by simp [rcmSize]⟩
example : ∀ a q0 q1 rp w p, (rcmSizesC (34000000 : Nat) (64 : Nat) (65536 : Nat) (100 : Nat) : Prog PTy _) ≠ .ret (a, (q0, q1, rp), w, p) :=
  fun a q0 q1 rp w p h => by
    have := ((C69_rcm_buffers (fun _ => 0) 34000000 64 65536 100 (by omega) a q0 q1 rp w p).mp h).1.1
    omega

end SpMP.Props
