/-
Specification: memory blocks obtained from `_mm_malloc` and given back by `_mm_free`.
-/
namespace SpMP.Spec

/-- The heap: which addresses are those of blocks in use. -/
abbrev InUse := Nat → Bool

/-- What `_mm_malloc` promises about the address it returns, if it does not fail: not null, and not a block in use. -/
def InUse.Fresh (h : InUse) (a : Nat) : Prop := a ≠ 0 ∧ h a = false

end SpMP.Spec
