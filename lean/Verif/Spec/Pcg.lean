import Verif.Spec.Rows
import Verif.Spec.Linear
import Mathlib.Algebra.Field.Basic
import Mathlib.Algebra.Order.Ring.Defs
/-
Specification of the conjugate gradient method preconditioned by symmetric Gauss-Seidel, independent of the code model.
-/
namespace SpMP.Spec
open Finset

variable {R : Type}

/-- The inner product of the first `n` components. -/
def dotN [CommRing R] (n : Nat) (x y : Nat → R) : R := ∑ i ∈ range n, x i * y i

/-- The entry at row `i`, column `c`: the sum of the values stored there. -/
def Csr.entry [CommRing R] (A : Csr R) (i c : Nat) : R := (((A.row i).filter fun e => e.1 = c).map (·.2)).sum

/-- The part of `(A x)_i` strictly below the diagonal. -/
def Csr.lowMul [CommRing R] (A : Csr R) (x : Nat → R) (i : Nat) : R :=
  (((A.row i).filter fun e => e.1 < i).map fun e => e.2 * x e.1).sum

/-- The part of `(A x)_i` strictly above the diagonal. -/
def Csr.upMul [CommRing R] (A : Csr R) (x : Nat → R) (i : Nat) : R :=
  (((A.row i).filter fun e => i < e.1).map fun e => e.2 * x e.1).sum

/-- `M z = r` for the symmetric Gauss-Seidel preconditioner `M = (L + D) D⁻¹ (D + U)`: with `D y = (D + U) z` it says
`(L + D) y = r`. `d` is the diagonal. -/
def SymGS [CommRing R] (A : Csr R) (d z r : Nat → R) : Prop :=
  ∃ y : Nat → R, (∀ i, i < A.m → d i * y i = d i * z i + A.upMul z i) ∧ ∀ i, i < A.m → A.lowMul y i + d i * y i = r i

/-- The matrix is symmetric. -/
def Csr.Symm [CommRing R] (A : Csr R) : Prop := ∀ i c, i < A.m → c < A.m → A.entry i c = A.entry c i

/-- The matrix is positive definite: `0 < x · A x` unless `x = 0`. -/
def Csr.PosDef [CommRing R] [LT R] (A : Csr R) : Prop :=
  ∀ x : Nat → R, (∃ i, i < A.m ∧ x i ≠ 0) → 0 < dotN A.m x (A.mulVec x)

/-- What the method requires of a preconditioner, given as the relation `M z r` ("z is the preconditioned residual of r") on the
first `n` components: it is a function of `r` defined everywhere, symmetric and positive definite. -/
structure Precond [CommRing R] [LT R] (n : Nat) (M : (Nat → R) → (Nat → R) → Prop) : Prop where
  total : ∀ r, ∃ z, M z r
  unique : ∀ z r z' r', M z r → M z' r' → (∀ i, i < n → r i = r' i) → ∀ i, i < n → z i = z' i
  symm : ∀ z r z' r', M z r → M z' r' → dotN n z' r = dotN n z r'
  pos : ∀ z r, M z r → (∃ i, i < n ∧ r i ≠ 0) → 0 < dotN n z r

/-- The textbook preconditioned conjugate gradient method, `K` steps from `x₀ = x 0`: residuals `r`, preconditioned
residuals `z`, directions `p`; `M z r` relates a residual to the preconditioned one. No step divides by zero. -/
structure PcgTrace [Field R] (A : Csr R) (M : (Nat → R) → (Nat → R) → Prop) (b : Nat → R) (K : Nat) (x r z p : Nat → Nat → R) : Prop where
  /-- `r₀ = b - A x₀`. -/
  start : ∀ i, i < A.m → r 0 i = b i - A.mulVec (x 0) i
  /-- `z_k` is the preconditioned `r_k`. -/
  precond : ∀ k, k ≤ K → M (z k) (r k)
  /-- `p₀ = z₀`. -/
  first : ∀ i, i < A.m → p 0 i = z 0 i
  /-- `p_k · A p_k` and `r_k · z_k` are divided by. -/
  defined : ∀ k, k < K → dotN A.m (p k) (A.mulVec (p k)) ≠ 0 ∧ dotN A.m (r k) (z k) ≠ 0
  /-- `x_{k+1} = x_k + α_k p_k` with `α_k = (r_k · z_k) / (p_k · A p_k)`. -/
  iterate : ∀ k, k < K → ∀ i, i < A.m → x (k + 1) i =
    x k i + dotN A.m (r k) (z k) / dotN A.m (p k) (A.mulVec (p k)) * p k i
  /-- `r_{k+1} = r_k - α_k A p_k`. -/
  residual : ∀ k, k < K → ∀ i, i < A.m → r (k + 1) i =
    r k i - dotN A.m (r k) (z k) / dotN A.m (p k) (A.mulVec (p k)) * A.mulVec (p k) i
  /-- `p_{k+1} = z_{k+1} + β_k p_k` with `β_k = (r_{k+1} · z_{k+1}) / (r_k · z_k)`. -/
  direction : ∀ k, k < K → ∀ i, i < A.m → p (k + 1) i =
    z (k + 1) i + dotN A.m (r (k + 1)) (z (k + 1)) / dotN A.m (r k) (z k) * p k i

/-- What the solver may end with, started at `x0` with tolerance `tol` and at most `maxiter` steps: some `K` steps of the
method lead from `x0` to `xf`, no earlier step met the criterion `‖r_k‖ / ‖r_0‖ < tol`, and either step `K` met it, and
`(K, ‖r_K‖ / ‖r_0‖)` is reported, or `K = maxiter` steps did not meet it, and `(K + 1, ‖r_K‖ / ‖r_0‖)` is reported (1 if
there was no step). `nrm` turns `v · v` into `‖v‖`. -/
def PcgEnds [Field R] [LT R] (A : Csr R) (M : (Nat → R) → (Nat → R) → Prop) (b x0 : Nat → R) (nrm : R → R) (tol : R) (maxiter : Nat) (res : Nat × R)
    (xf : Nat → R) : Prop :=
  ∃ (K : Nat) (x r z p : Nat → Nat → R), PcgTrace A M b K x r z p ∧ (∀ i, i < A.m → x 0 i = x0 i) ∧ K ≤ maxiter ∧
    (∀ i, i < A.m → xf i = x K i) ∧
    (∀ k, 0 < k → k < K → ¬ nrm (dotN A.m (r k) (r k)) / nrm (dotN A.m (r 0) (r 0)) < tol) ∧
    ((res = (K, nrm (dotN A.m (r K) (r K)) / nrm (dotN A.m (r 0) (r 0))) ∧ 0 < K ∧ res.2 < tol) ∨
     (res = (K + 1, if K = 0 then 1 else nrm (dotN A.m (r K) (r K)) / nrm (dotN A.m (r 0) (r 0))) ∧ K = maxiter ∧
      (0 < K → ¬ res.2 < tol)))

end SpMP.Spec
