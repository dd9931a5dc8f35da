import Verif.Own

/-!
# Specification: who releases which array

`managed` says which pointers an object is responsible for; `Proper` says which calls a caller may
make if nothing is to be released wrongly; `Tidy` says which calls a caller may make if, moreover,
nothing is to be lost.
-/

namespace SpMP.Own

/-- The fields an object answers for.  A matrix always answers for its diagonal arrays, and for its
row pointers, columns, values and external pointers exactly if it owns its data; a triplet matrix
answers for its three arrays; a schedule answers for all its arrays unless they come from the
pool. -/
def managed (a : Attr) : Slot → Bool
  | .rowptr => a.cls = .csr && a.own
  | .colidx => a.cls = .csr && a.own
  | .values => a.cls = .csr && a.own
  | .extptr => a.cls = .csr && a.own
  | .idiag => a.cls = .csr
  | .diag => a.cls = .csr
  | .diagptr => a.cls = .csr
  | .cooRow => a.cls = .coo
  | .cooCol => a.cls = .coo
  | .cooVal => a.cls = .coo
  | .npF => a.cls = .sched && !a.pool
  | .npB => a.cls = .sched && !a.pool
  | .pF => a.cls = .sched && !a.pool
  | .pB => a.cls = .sched && !a.pool
  | .fin => a.cls = .sched && !a.pool
  | .o2t => a.cls = .sched && !a.pool
  | .t2o => a.cls = .sched && !a.pool
  | .buf0 => a.cls = .sched && !a.pool
  | .buf1 => a.cls = .sched && !a.pool
  | .fused => a.cls = .sched && !a.pool
  | .fNp => a.cls = .sched && !a.pool
  | .fP => a.cls = .sched && !a.pool
  | .fBuf => a.cls = .sched && !a.pool
  | _ => false

/-- The seven arrays of a matrix. -/
def csrSlots : List Slot := [.rowptr, .colidx, .values, .idiag, .diag, .diagptr, .extptr]

/-- The arrays of a schedule. -/
def schedSlots : List Slot :=
  [.npF, .npB, .pF, .pB, .fin, .o2t, .t2o, .buf0, .buf1, .fused, .fNp, .fP, .fBuf]

/-- A matrix that is about to own its data must not have a foreign `extptr`: it owns its data
already, or the field is null, or the library allocated it for this matrix. -/
def ExtOk (s : St) (h : Nat) : Prop :=
  ∀ o, s.objs h = some o → o.attr.own = true ∨
    ∀ b, o.ptr .extptr = some b → s.status b = .lib h .extptr

/-- The calls after which nothing is ever released wrongly.  Not among them: overwriting `diagptr`,
setting `extptr` of a matrix that owns its data, copy assignment of matrices, copies of triplet
matrices and schedules, a second construction of a schedule in the pool, and a construction in the
pool without transitive reduction. -/
def Proper (s : St) : Call → Prop
  | .alloc h _ => ExtOk s h
  | .loadBin h _ => ExtOk s h
  | .setExt h _ => ∀ o, s.objs h = some o → o.attr.own = false
  | .setDiagptr _ _ => False
  | .assign _ _ => False
  | .cooCopy _ _ => False
  | .schedCopy _ _ => False
  | .build h reduction _ => ∀ o, s.objs h = some o → o.attr.pool = true →
      reduction = true ∧ o.ptr .o2t = none ∧ o.ptr .t2o = none
  | _ => True

/-- The calls after which nothing is lost either.  Not among them, besides the above: borrowing an
array in the pool, `alloc` on a matrix that has arrays, generating a Laplacian into a matrix that
does not own its data, transposing, permuting, splitting into matrices that do not own their data,
reading a triplet file that is rejected half-way, constructing a schedule twice or without
transitive reduction, and a fused schedule in the pool. -/
def Tidy (s : St) : Call → Prop
  | .csrBorrow _ r _ _ => s.status r = .caller
  | .alloc h _ => ∀ o, s.objs h = some o → ∀ σ ∈ csrSlots, o.ptr σ = none
  | .loadBin h _ => ∀ o, s.objs h = some o → o.attr.own = true ∨ o.ptr .extptr = none
  | .laplacian h => ∀ o, s.objs h = some o → o.attr.own = true
  | .transpose _ _ _ => False
  | .permute _ _ => False
  | .splitLU _ l u => l ≠ u ∧ (∀ o, s.objs l = some o → o.attr.own = true) ∧
      (∀ o, s.objs u = some o → o.attr.own = true)
  | .setExt h _ => ∀ o, s.objs h = some o → o.attr.own = false
  | .setDiagptr _ _ => False
  | .assign _ _ => False
  | .loadCoo _ _ outcome => outcome ≠ .badBody
  | .cooCopy _ _ => False
  | .schedCopy _ _ => False
  | .build h reduction fuse => reduction = true ∧
      ∀ o, s.objs h = some o → (∀ σ ∈ schedSlots, o.ptr σ = none) ∧
        (o.attr.pool = true → fuse = false)
  | _ => True

/-- Every call of the history is allowed at the moment it is made. -/
def Follows (P : St → Call → Prop) : St → List Call → Prop
  | _, [] => True
  | s, c :: cs => P s c ∧ ∀ s', step s c = .ok s' → Follows P s' cs

/-- An array obtained by the library that has not been released. -/
def Live (s : St) (b : Nat) : Prop := ∃ h σ, s.status b = .lib h σ

end SpMP.Own
