import Verif.IntRange
import Verif.PartMem
/-
The sizes and positions of the buffers of a schedule's construction, computed with 32-bit ints as in the code. The construction itself
(Levels.lean, PartMem.lean) uses the same sizes as unbounded integers.
-/

namespace SpMP

section
variable {A : Type} {ty : A → Type} {α : Type}

/-- LevelSchedule.cpp:503-505: the size of levContToOrigPerm. -/
def levPermSizeC (n : Int) : Prog ty Int := do
  let s ← iAdd n 15
  let s ← iDiv s 16
  let s ← iMul s 16
  iAdd s 128

/-- `max(nthreads, n + nthreads - 1)` (LevelSchedule.cpp:508, 510, 540, 541). -/
def lvMxC (T n : Int) : Prog ty Int := do
  let s ← iAdd n T
  let s ← iSub s 1
  pure (max T s)

/-- LevelSchedule.cpp:508: the size of the work buffer; NUM_MAX_THREADS is 2048 (LevelSchedule.cpp:188). -/
def levBufSizeC (T n : Int) : Prog ty Int := do
  let x ← lvMxC T n
  let x ← iMul 5 x
  let s ← iAdd 2 16
  let s ← iAdd s 2
  let s ← iAdd s 2
  let y ← iMul 2048 s
  iAdd x y

/-- LevelSchedule.cpp:510: the position of nparents in the buffer. -/
def npOffC (T n : Int) : Prog ty Int := do
  let x ← lvMxC T n
  iMul x 4

/-- LevelSchedule.cpp:540: the position of thread `tid`'s queue in the buffer. -/
def qOffC (T n tid : Int) : Prog ty Int := do
  let x ← lvMxC T n
  let x ← iDiv x T
  let x ← iMul x 2
  iMul x tid

/-- LevelSchedule.cpp:541: the position of thread `tid`'s row offsets in the buffer. The two offsets are added to the pointer one
after the other (no int addition). -/
def rOffC (T n tid : Int) : Prog ty Int := do
  let x ← lvMxC T n
  let y ← iMul x 2
  let z ← qOffC T n tid
  pure (y + z)

/-- LevelSchedule.cpp:612: the size of bBuffer. -/
def bBufSizeC (T n : Int) : Prog ty Int := iAdd n T

/-- LevelSchedule.cpp:736-737: the size of the two permutations of a schedule. -/
def contPermSizeC (m : Int) : Prog ty Int := iAdd m 64

theorem iAdd_bind {a b : Int} {f : Int → Prog ty α} (h : InInt (a + b)) : ((iAdd a b : Prog ty Int) >>= f) = f (a + b) := ck_bind h
theorem iSub_bind {a b : Int} {f : Int → Prog ty α} (h : InInt (a - b)) : ((iSub a b : Prog ty Int) >>= f) = f (a - b) := ck_bind h
theorem iMul_bind {a b : Int} {f : Int → Prog ty α} (h : InInt (a * b)) : ((iMul a b : Prog ty Int) >>= f) = f (a * b) := ck_bind h
theorem ck_eq {v : Int} (h : InInt v) : (ck v : Prog ty Int) = .ret v := by unfold ck; rw [if_pos h]

theorem lvMx_int (T n : Nat) (hT : 1 ≤ T) : max (T : Int) ((n : Int) + T - 1) = lvMx T n := by
  unfold lvMx; omega

theorem lvMxC_bind {T n : Nat} (hT : 1 ≤ T) (hb : (n : Int) + T ≤ 2147483647) {f : Int → Prog ty α} :
    ((lvMxC T n : Prog ty Int) >>= f) = f (lvMx T n) := by
  have e : (lvMxC T n : Prog ty Int) = .ret (lvMx T n) := by
    unfold lvMxC
    rw [iAdd_bind ⟨by omega, hb⟩, iSub_bind ⟨by omega, by omega⟩, lvMx_int T n hT]; rfl
  rw [e]; rfl

theorem levPermSizeC_eq {n : Nat} (hb : (n : Int) + 143 ≤ 2147483647) :
    (levPermSizeC n : Prog ty Int) = .ret (((n : Int) + 15) / 16 * 16 + 128) := by
  unfold levPermSizeC
  rw [iAdd_bind ⟨by omega, by omega⟩, iDiv_bind (by omega) (by omega) ⟨by omega, by omega⟩, iMul_bind ⟨by omega, by omega⟩]
  exact ck_eq ⟨by omega, by omega⟩

theorem levBufSizeC_eq {T n : Nat} (hT : 1 ≤ T) (hb : 5 * (lvMx T n : Int) + 45056 ≤ 2147483647) :
    (levBufSizeC T n : Prog ty Int) = .ret (5 * (lvMx T n : Int) + 45056) := by
  have h1 := lvMx_int T n hT
  unfold levBufSizeC
  rw [lvMxC_bind hT (by omega), iMul_bind ⟨by omega, by omega⟩, iAdd_bind ⟨by omega, by omega⟩, iAdd_bind ⟨by omega, by omega⟩,
    iAdd_bind ⟨by omega, by omega⟩, iMul_bind ⟨by omega, by omega⟩]
  exact ck_eq ⟨by omega, by omega⟩

theorem npOffC_eq {T n : Nat} (hT : 1 ≤ T) (hb : 5 * (lvMx T n : Int) + 45056 ≤ 2147483647) :
    (npOffC T n : Prog ty Int) = .ret (npOff T n) := by
  have h1 := lvMx_int T n hT
  unfold npOffC npOff
  rw [lvMxC_bind hT (by omega)]
  refine (ck_eq ⟨by omega, by omega⟩).trans ?_
  push_cast; rfl

theorem lvCap_mul_le {T n t : Nat} (ht : t < T) : lvCap T n * t ≤ 2 * lvMx T n := by
  have h1 := Nat.div_mul_le_self (lvMx T n) T
  have h2 := Nat.mul_le_mul_left (lvMx T n / T) (Nat.le_of_lt ht)
  unfold lvCap
  have e : lvMx T n / T * 2 * t = 2 * (lvMx T n / T * t) := by rw [Nat.mul_comm (lvMx T n / T) 2, Nat.mul_assoc]
  omega

theorem qOffC_eq {T n t : Nat} (ht : t < T) (hb : 5 * (lvMx T n : Int) + 45056 ≤ 2147483647) :
    (qOffC T n t : Prog ty Int) = .ret (qOff T n t) := by
  have h1 := lvMx_int T n (by omega)
  have h2 := lvCap_mul_le (n := n) ht
  have h3 := Nat.div_le_self (lvMx T n) T
  have e : ((lvMx T n : Int) / T * 2 * t) = ((lvCap T n * t : Nat) : Int) := by unfold lvCap; push_cast; rfl
  have e2 : ((lvMx T n : Int) / T) = ((lvMx T n / T : Nat) : Int) := by push_cast; rfl
  have e3 : 0 ≤ (lvMx T n : Int) / T ∧ (lvMx T n : Int) / T ≤ lvMx T n := ⟨Int.ediv_nonneg (by omega) (by omega), by omega⟩
  unfold qOffC qOff
  rw [lvMxC_bind (by omega) (by omega), iDiv_bind (by omega) (by omega) ⟨by omega, by omega⟩, iMul_bind ⟨by omega, by omega⟩]
  refine (ck_eq ⟨?_, ?_⟩).trans ?_
  · rw [e]; omega
  · rw [e]; omega
  · rw [e]

theorem rOffC_eq {T n t : Nat} (ht : t < T) (hb : 5 * (lvMx T n : Int) + 45056 ≤ 2147483647) :
    (rOffC T n t : Prog ty Int) = .ret (rOff T n t) := by
  have h1 := lvMx_int T n (by omega)
  unfold rOffC
  rw [lvMxC_bind (by omega) (by omega), iMul_bind ⟨by omega, by omega⟩, qOffC_eq ht hb]
  show Prog.ret _ = Prog.ret _
  unfold rOff qOff
  push_cast; rfl

theorem ck_fail {v : Int} (h : ¬ InInt v) : (ck v : Prog ty Int) = .fail := by unfold ck; rw [if_neg h]

theorem ck_fail_bind {v : Int} {f : Int → Prog ty α} (h : ¬ InInt v) : ((ck v : Prog ty Int) >>= f) = .fail := by
  rw [ck_fail h]; rfl

theorem levBufSizeC_fail {T n : Nat} (hT : 1 ≤ T) (hb : 2147483647 < 5 * (lvMx T n : Int) + 45056) :
    (levBufSizeC T n : Prog ty Int) = .fail := by
  have h1 := lvMx_int T n hT
  unfold levBufSizeC
  by_cases h2 : (n : Int) + T ≤ 2147483647
  · rw [lvMxC_bind hT h2]
    by_cases h3 : 5 * (lvMx T n : Int) ≤ 2147483647
    · rw [iMul_bind ⟨by omega, h3⟩, iAdd_bind ⟨by omega, by omega⟩, iAdd_bind ⟨by omega, by omega⟩,
        iAdd_bind ⟨by omega, by omega⟩, iMul_bind ⟨by omega, by omega⟩]
      exact ck_fail fun h => by have := h.2; omega
    · exact ck_fail_bind fun h => h3 h.2
  · have e : (lvMxC T n : Prog ty Int) = .fail := ck_fail_bind fun h => h2 h.2
    rw [e]; rfl

end
end SpMP
