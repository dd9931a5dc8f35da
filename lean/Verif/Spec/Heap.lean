/-
Specification of the memory a process gets from the operating system and from the C library.
-/

namespace SpMP.Spec

/-- Memory obtained from `mmap` (`mapped`) or from `posix_memalign` and not given back. -/
structure Region where
  mapped : Bool
  addr : Nat
  len : Nat
deriving DecidableEq

/-- The process: the regions it owns and the size_t stored at each byte address. -/
structure Heap where
  regions : List Region
  word : Nat → Nat

/-- The process owns the bytes `x .. x+l-1`. -/
def Heap.Owns (s : Heap) (x l : Nat) : Prop := ∃ r ∈ s.regions, r.addr ≤ x ∧ x + l ≤ r.addr + r.len

instance (s : Heap) (x l : Nat) : Decidable (s.Owns x l) := by unfold Heap.Owns; infer_instance

/-- What `mmap` and `posix_memalign` promise about `len` bytes at `a`: not null, below the top of the address space, aligned, apart from
all memory in use. -/
structure Heap.Fresh (s : Heap) (align a len : Nat) : Prop where
  pos : 0 < a
  top : a + len < 2 ^ 64
  aligned : a % align = 0
  apart : ∀ r ∈ s.regions, a + len ≤ r.addr ∨ r.addr + r.len ≤ a

/-- Bytes `x .. x+l-1` overwritten: every word that has one of them changes in an unknown way. -/
def Heap.scribble (s : Heap) (x l : Nat) (f : Nat → Nat) : Heap :=
  { s with word := fun k => if x < k + 8 ∧ k < x + l then f k else s.word k }

end SpMP.Spec
