import Verif.Spec.Rows
/-
Specification of the diagnostic messages: what each one says about the matrices.
-/

namespace SpMP.Spec
variable {R : Type}

/-- The messages of `equals`. -/
inductive EqMsg (R : Type)
  | base (b b' : Int)
  | rows (m m' : Int)
  | cols (n n' : Int)
  | nnz (z z' : Int)
  | rowptr (i p p' : Int)
  | colidx (i j c c' : Int)
  | value (i j : Int) (v v' : R)

/-- Entries before position `l` are the same. -/
def SameBefore (A B : Csr R) (l : Nat) : Prop := ∀ j, j < l → A.col j = B.col j ∧ A.val j = B.val j

/-- The message is true of the matrices stored with first index `bA` and `bB`, and nothing differs before the place it names. -/
def EqMsg.Says (A B : Csr R) (bA bB : Nat) : EqMsg R → Prop
  | .base b b' => b = bA ∧ b' = bB ∧ bA ≠ bB
  | .rows m m' => m = A.m ∧ m' = B.m ∧ A.m ≠ B.m
  | .cols n n' => n = A.n ∧ n' = B.n ∧ A.n ≠ B.n
  | .nnz z z' => z = A.nnz ∧ z' = B.nnz ∧ A.nnz ≠ B.nnz
  | .rowptr i p p' => ∃ r, r < A.m ∧ i = r ∧ p = A.ptr r + bA ∧ p' = B.ptr r + bB ∧ A.ptr r ≠ B.ptr r ∧
      (∀ q, q < r → A.ptr q = B.ptr q) ∧ SameBefore A B (A.ptr r)
  | .colidx i j c c' => ∃ r l, A.InRow r l ∧ i = r ∧ j = l ∧ c = A.col l + bA ∧ c' = B.col l + bB ∧ A.col l ≠ B.col l ∧
      (∀ q, q ≤ r → A.ptr q = B.ptr q) ∧ SameBefore A B l
  | .value i j v v' => ∃ r l, A.InRow r l ∧ i = r ∧ j = l ∧ v = A.val l ∧ v' = B.val l ∧ A.val l ≠ B.val l ∧ A.col l = B.col l ∧
      (∀ q, q ≤ r → A.ptr q = B.ptr q) ∧ SameBefore A B l

/-- The messages of `isSymmetric`. -/
inductive SymMsg (R : Type)
  | notSquare
  | value (i c : Int) (v : R) (c' i' : Int) (v' : R)
  | missing (i c c' i' : Int)

/-- Entry `j` belongs to the part of row `i` up to `ep i`: the whole row, or the local part of a distributed matrix. -/
def LocalTo (A : Csr R) (ep : Nat → Nat) (i j : Nat) : Prop := i < A.m ∧ A.ptr i ≤ j ∧ j < ep i

/-- The message is true of the matrix, with rows and columns counted from `f`. -/
def SymMsg.Says (A : Csr R) (ep : Nat → Nat) (f : Nat) : SymMsg R → Prop
  | .notSquare => A.m ≠ A.n
  | .value i c v c' i' v' => ∃ r j l, LocalTo A ep r j ∧ LocalTo A ep (A.col j) l ∧ A.col l = r ∧ i = r + f ∧ c = A.col j + f ∧ c' = c ∧
      i' = i ∧ v = A.val j ∧ v' = A.val l ∧ v ≠ v'
  | .missing i c c' i' => ∃ r j, LocalTo A ep r j ∧ (∀ l, LocalTo A ep (A.col j) l → A.col l ≠ r) ∧ i = r + f ∧ c = A.col j + f ∧ c' = c ∧
      i' = i

/-- The entries row by row, rows and columns counted from `b`. -/
def listing (A : Csr R) (b : Nat) : List (Int × Int × R) :=
  (List.range A.m).flatMap fun i => (A.row i).map fun x => ((i : Int) + b, (x.1 : Int) + b, x.2)

end SpMP.Spec
