import Verif.Singleton

/-
C78: the shared barrier object.
-/
namespace SpMP.Props
open SpMP

/-- What the first call leaves: object number `o` of geometry `(C, P)` has been constructed, nothing else, it is the shared
object, every one of the `T` threads has called `init` on it exactly once, with its own number, and no other call was made. -/
structure MadeOne (T C P : Nat) (m : List (Nat × Nat)) (n : Nat → Nat → Nat) (g : SingG) : Prop where
  inst : g.inst = some m.length
  made : g.made = m ++ [(C, P)]
  own : ∀ t, t < T → g.inits m.length t = n m.length t + 1
  other : ∀ o t, o ≠ m.length ∨ T ≤ t → g.inits o t = n o t

theorem sing_post {T C P : Nat} {m : List (Nat × Nat)} {n : Nat → Nat → Nat} {ls : Nat → SingL} {g : SingG}
    (h : SingInv T C P m n ls g) (hT : 0 < T) (hd : ∀ t, t < T → (ls t).pc = .done) :
    MadeOne T C P m n g ∧ ∀ t, t < T → (ls t).ret = some m.length := by
  obtain ⟨h1, h2⟩ := h.after (by rw [hd 0 hT]; simp [SingPc.rank])
  refine ⟨⟨h1, h2, fun t ht => ?_, fun o t ho => ?_⟩, fun t ht => h.ret t ht (hd t ht)⟩
  · rw [h.calls, if_pos ⟨rfl, ht, by rw [hd t ht]; simp [SingPc.rank]⟩]
  · rw [h.calls, if_neg]
    · rfl
    · rintro ⟨a, b, _⟩
      rcases ho with ho | ho
      · exact ho a
      · omega

/-- **C78, first call.**  If no shared barrier exists and a team of `T` threads calls `getInstance` in a parallel region, then
in every interleaving nobody follows a null pointer, nobody waits forever, exactly one barrier is constructed, every thread
initialises it once, and every thread gets it. -/
theorem C78_first_partial {T C P : Nat} (hT : 0 < T) (m : List (Nat × Nat)) (n : Nat → Nat → Nat) :
    TeamOk (singMachine T C P) T (fun ls g => MadeOne T C P m n g ∧ ∀ t, t < T → (ls t).ret = some m.length)
      singL0 (singG0 none m n) := by
  refine teamOk_of_inv (SingInv T C P m n) (sing_acc T C P) (fun ls g t l' g' h ht hs => h.step hT ht hs) ?_ ?_ ?_
    (singInv_init m n)
  · rintro ls g t h ht ⟨hpc, hn⟩
    have := h.inst_of_late hT ht (by rw [hpc]; simp [SingPc.rank])
    rw [hn] at this
    cases this
  · intro ls g h hx; exact h.prog hT hx
  · intro ls g h hd; exact sing_post h hT hd

/-- **C78, first call outside of a parallel region.**  The caller constructs the barrier and the `T` threads of a parallel
region initialise it: the same holds. -/
theorem C78_serial_partial {T C P : Nat} (hT : 0 < T) (m : List (Nat × Nat)) (n : Nat → Nat → Nat) :
    TeamOk (singMachine T C P) T (fun ls g => MadeOne T C P m n g ∧ ∀ t, t < T → (ls t).ret = some m.length)
      (fun t => ⟨t, .init, none⟩) { singNew C P (singG0 none m n) with arr1 := fun _ => true, arr2 := fun _ => true } := by
  refine teamOk_of_inv (SingInv T C P m n) (sing_acc T C P) (fun ls g t l' g' h ht hs => h.step hT ht hs) ?_ ?_ ?_ ?_
  · rintro ls g t h ht ⟨hpc, hn⟩
    have := h.inst_of_late hT ht (by rw [hpc]; simp [SingPc.rank])
    rw [hn] at this
    cases this
  · intro ls g h hx; exact h.prog hT hx
  · intro ls g h hd; exact sing_post h hT hd
  · refine ⟨fun _ _ => rfl, fun _ _ => ?_, fun _ _ => ?_, fun _ _ _ _ _ => ?_, fun _ _ _ _ _ => ?_, fun _ _ h => (by cases h),
      fun h => ?_, fun _ => ⟨rfl, rfl⟩, fun o t => ?_, fun _ _ h => (by cases h)⟩
    · simp [SingPc.rank]
    · simp [SingPc.rank]
    · simp [SingPc.rank]
    · simp [SingPc.rank]
    · simp [SingPc.rank] at h
    · simp [SingPc.rank, singNew, singG0]

/-- **C78, later calls.**  If the shared barrier exists, every thread of every team gets it, and nothing is constructed or
initialised. -/
theorem C78_later_partial {T C P : Nat} (o : Nat) (m : List (Nat × Nat)) (n : Nat → Nat → Nat) :
    TeamOk (singMachine T C P) T (fun ls g => g = singG0 (some o) m n ∧ ∀ t, t < T → (ls t).ret = some o)
      singL0 (singG0 (some o) m n) := by
  refine teamOk_of_inv (fun ls g => g = singG0 (some o) m n ∧ ∀ t, t < T →
    (ls t).pc = .test ∨ (ls t).pc = .load ∨ ((ls t).pc = .done ∧ (ls t).ret = some o)) (sing_acc T C P) ?_ ?_ ?_ ?_ ?_
  · rintro ls g t l' g' ⟨rfl, h⟩ ht hs
    have hs' : singNext T C P (ls t) (singG0 (some o) m n) l' g' := hs
    unfold singNext at hs'
    have key : g' = singG0 (some o) m n ∧ (l'.pc = .load ∨ (l'.pc = .done ∧ l'.ret = some o)) := by
      rcases h t ht with e | e | ⟨e, _⟩
      · simp only [e] at hs'
        obtain ⟨rfl, rfl⟩ := hs'
        exact ⟨rfl, .inl rfl⟩
      · simp only [e] at hs'
        obtain ⟨rfl, rfl⟩ := hs'
        exact ⟨rfl, .inr ⟨rfl, rfl⟩⟩
      · simp only [e] at hs'
    refine ⟨key.1, fun u hu => ?_⟩
    by_cases eu : u = t
    · subst eu; rw [updT_same]; exact .inr key.2
    · rw [updT_other _ _ eu]; exact h u hu
  · rintro ls g t ⟨rfl, h⟩ ht ⟨hpc, hn⟩
    cases hn
  · rintro ls g ⟨rfl, h⟩ ⟨t, ht, hd⟩
    rcases h t ht with e | e | ⟨e, _⟩
    · refine ⟨t, ⟨(ls t).tid, .load, (ls t).ret⟩, singG0 (some o) m n, ht, ?_⟩
      show singNext T C P (ls t) _ _ _
      unfold singNext
      rw [e]
      exact ⟨by simp [singG0], rfl⟩
    · refine ⟨t, ⟨(ls t).tid, .done, some o⟩, singG0 (some o) m n, ht, ?_⟩
      show singNext T C P (ls t) _ _ _
      unfold singNext
      rw [e]
      exact ⟨rfl, rfl⟩
    · exact absurd e hd
  · rintro ls g ⟨rfl, h⟩ hd
    refine ⟨rfl, fun t ht => ?_⟩
    have := hd t ht
    rcases h t ht with e | e | ⟨_, e⟩
    · have this : (ls t).pc = .done := this
      rw [e] at this; cases this
    · have this : (ls t).pc = .done := this
      rw [e] at this; cases this
    · exact e
  · exact ⟨rfl, fun t _ => .inl rfl⟩

/-- **C78, no race on the pointer.**  When a thread of the first team is about to store the pointer, no other thread is about
to read or store it. -/
theorem C78_no_race {T C P : Nat} (hT : 0 < T) (m : List (Nat × Nat)) (n : Nat → Nat → Nat) {ls : Nat → SingL} {g : SingG}
    (h : TeamReach (singMachine T C P) T singL0 (singG0 none m n) ls g) {t u : Nat} (ht : t < T) (hu : u < T) (hne : u ≠ t)
    (hw : (ls t).pc = .master) : (ls u).pc ≠ .test ∧ (ls u).pc ≠ .master ∧ (ls u).pc ≠ .init ∧ (ls u).pc ≠ .load := by
  have inv := reach_inv (SingInv T C P m n) (fun ls g t l' g' h ht hs => h.step hT ht hs) (singInv_init m n) h
  have h2 := inv.b1 t u ht hu (by rw [hw]; simp [SingPc.rank])
  have h5 : (ls u).pc.rank ≤ 5 := by
    rcases Nat.lt_or_ge 5 (ls u).pc.rank with h6 | h6
    · have := inv.b2 u t hu ht (by omega)
      rw [hw] at this
      simp [SingPc.rank] at this
    · exact h6
  refine ⟨fun e => ?_, fun e => ?_, fun e => ?_, fun e => ?_⟩
  · rw [e] at h2; simp [SingPc.rank] at h2
  · have a := inv.only t ht hw
    have b := inv.only u hu e
    omega
  · rw [e] at h5; simp [SingPc.rank] at h5
  · rw [e] at h5; simp [SingPc.rank] at h5

/-- **C78, size.**  The barrier `Barrier::getInstance` constructs for `n` threads is one for `n` threads; so is that of
`LoadImba::getInstance`, except on the coprocessor. -/
theorem C78_size_partial (mic : Bool) (n : Nat) :
    n / barTpc mic n * barTpc mic n = n ∧ n / limTpc false n * limTpc false n = n := by
  refine ⟨?_, by simp [limTpc]⟩
  unfold barTpc
  cases mic with
  | false => simp
  | true =>
    simp only [if_true]
    split
    · omega
    · split <;> omega

/-- Teams of 3 and of 5 threads with two shared objects made before and deleted. -/
example : TeamOk (singMachine 3 3 1) 3 (fun ls g => MadeOne 3 3 1 [(2, 1), (4, 1)] (fun _ _ => 1) g ∧
    ∀ t, t < 3 → (ls t).ret = some 2) singL0 (singG0 none [(2, 1), (4, 1)] fun _ _ => 1) :=
  C78_first_partial (by omega) _ _
example : TeamOk (singMachine 5 5 1) 5 (fun ls g => g = singG0 (some 2) [(2, 1), (4, 1), (5, 1)] (fun _ _ => 1) ∧
    ∀ t, t < 5 → (ls t).ret = some 2) singL0 (singG0 (some 2) [(2, 1), (4, 1), (5, 1)] fun _ _ => 1) :=
  C78_later_partial 2 _ _
/-- The hypotheses of the race theorem are met: both threads of two have arrived and thread 0 is about to store. -/
example : ∃ ls g, TeamReach (singMachine 2 2 1) 2 singL0 (singG0 none [] fun _ _ => 0) ls g ∧ (ls 0).pc = .master := by
  have st : ∀ {ls g}, TeamReach (singMachine 2 2 1) 2 singL0 (singG0 none [] fun _ _ => 0) ls g → ∀ t l' g', t < 2 →
      singNext 2 2 1 (ls t) g l' g' → TeamReach (singMachine 2 2 1) 2 singL0 (singG0 none [] fun _ _ => 0) (updT ls t l') g' :=
    fun h t l' g' ht hs => .step h ⟨t, ht, l', hs, rfl⟩
  have h1 := st .init 0 ⟨0, .arrive1, none⟩ _ (by omega) ⟨rfl, rfl⟩
  have h2 := st h1 1 ⟨1, .arrive1, none⟩ _ (by omega) ⟨rfl, rfl⟩
  have h3 := st h2 0 ⟨0, .wait1, none⟩ _ (by omega) ⟨rfl, rfl⟩
  have h4 := st h3 1 ⟨1, .wait1, none⟩ _ (by omega) ⟨rfl, rfl⟩
  have h5 := st h4 0 ⟨0, .master, none⟩ _ (by omega) ⟨fun t ht => by
    have : t = 0 ∨ t = 1 := by omega
    rcases this with rfl | rfl <;> rfl, rfl, rfl⟩
  exact ⟨_, _, h5, rfl⟩

/-- A team of 4 threads that asks after a team of 2 gets the barrier of the 2: its threads 2 and 3 have no place in it. -/
theorem C78_resize_false (n : Nat → Nat → Nat) :
    TeamOk (singMachine 2 2 1) 2 (fun _ g => g.inst = some 0 ∧ g.made = [(2, 1)]) singL0 (singG0 none [] n) ∧
    TeamOk (singMachine 4 4 1) 4 (fun ls g => (∀ t, t < 4 → (ls t).ret = some 0) ∧
      ∃ c p, g.made[0]? = some (c, p) ∧ c * p < 4) singL0 (singG0 (some 0) [(2, 1)] n) :=
  ⟨(C78_first_partial (by omega) [] n).mono fun _ _ h => ⟨h.1.inst, h.1.made⟩,
   (C78_later_partial 0 [(2, 1)] n).mono fun _ _ h => ⟨h.2, 2, 1, by rw [h.1]; rfl, by omega⟩⟩

/-- On the coprocessor the instrumented barrier assumes 4 threads per core: 6 threads get one for 4. -/
theorem C78_loadimba_mic_false : 6 / limTpc true 6 * limTpc true 6 = 4 := by decide

end SpMP.Props
