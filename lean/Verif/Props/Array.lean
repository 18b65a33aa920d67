import Verif.Proof.Arrayblk
/-!
  Properties C19 - C26 (tommyarray, tommyarrayof, tommyarrayblk, tommyarrayblkof).
-/
set_option linter.unusedSimpArgs false
set_option autoImplicit false
namespace Tommy

variable [Arch]
open ArraySpec

namespace ArraySpec
variable {T : Type} {I : Impl T} {P : T → Mem → Ab → Prop} {adr : T → Mem → Nat → Ref} {start : MM T} {m0 : Mem}

theorem arr_step (ho : ImplOk I P adr) : ∀ (s : St T) (a : Ab) op, P s.arr s.mem a → (sys I start m0).legal a op →
    ∃ out s', (sys I start m0).step op s = some (out, s') ∧ (sys I start m0).allowed a op out ∧
      P s'.arr s'.mem ((sys I start m0).next a op out) := fun s a op h hl => by
  obtain ⟨out, s', e, al, h', _⟩ := step_ok ho s a op h hl
  exact ⟨out, s', e, al, h'⟩

/-- What C20 says of two states, the second one being later. -/
def StableRefs (I : Impl T) (s : St T) (a : Ab) (s' : St T) (a' : Ab) : Prop :=
  a.size ≤ a'.size ∧
  ∀ pos, pos < a.size → ∃ r, I.ref s.arr pos s.mem = some (r, s.mem) ∧ I.ref s'.arr pos s'.mem = some (r, s'.mem)

/-- What C21 says of a state: each cell of each element is in a live vector not of the rest of the program, and
    it is of that element only. -/
def Disjoint (I : Impl T) (s : St T) (a : Ab) : Prop :=
  ∃ R : Nat → Ref, (∀ pos, pos < a.size → I.ref s.arr pos s.mem = some (R pos, s.mem)) ∧
    (∀ pos off, pos < a.size → off < I.es → s.mem.inside ((R pos).add off) = true ∧ a.other (R pos).vec = false) ∧
    ∀ pos off pos' off', pos < a.size → off < I.es → pos' < a.size → off' < I.es →
      (R pos).add off = (R pos').add off' → pos = pos' ∧ off = off'

/-- What C21 says of a call: the vectors of the rest of the program are not touched. -/
def KeepsOther (I : Impl T) (s : St T) (a : Ab) : Prop :=
  ∀ op out s', legal I a op → isCall op → step I op s = some (out, s') → Untouched a.other s.mem s'.mem

/-- What C25 says of a state: after done() the live vectors are exactly the ones of the rest of the program,
    with the same content. -/
def DoneOk (I : Impl T) (s : St T) (a : Ab) : Prop :=
  ∃ m', I.done s.arr s.mem = some ((), m') ∧ Untouched a.other s.mem m' ∧ ∀ v, m'.vlen v ≠ none ↔ a.other v = true

variable {s s' : St T} {a a' : Ab}

theorem stable_of (ho : ImplOk I P adr) (hf : (sys I start m0).From s a s' a') (h : P s.arr s.mem a) :
    StableRefs I s a s' a' := by
  have key : P s'.arr s'.mem a' ∧ a.size ≤ a'.size ∧ ∀ pos, pos < a.size → adr s'.arr s'.mem pos = adr s.arr s.mem pos := by
    induction hf with
    | refl => exact ⟨h, Nat.le_refl _, fun _ _ => rfl⟩
    | @step s1 a1 op out s2 _ hl e ih =>
      obtain ⟨h1, h2, h3⟩ := ih
      obtain ⟨out', s2', e', _, h', _, ha⟩ := step_ok ho s1 a1 op h1 hl
      have he : ArraySpec.step I op s1 = some (out, s2) := e
      rw [he] at e'
      simp only [Option.some.injEq, Prod.mk.injEq] at e'
      obtain ⟨rfl, rfl⟩ := e'
      refine ⟨h', Nat.le_trans h2 ?_, fun pos hp => by rw [ha pos (by omega), h3 pos hp]⟩
      show a1.size ≤ (ArraySpec.next a1 op out).size
      cases op <;> cases out <;> simp only [ArraySpec.next] <;> omega
  exact ⟨key.2.1, fun pos hp => ⟨_, ho.ref h hp, by rw [← key.2.2 pos hp]; exact ho.ref key.1 (by omega)⟩⟩

theorem disjoint_of (ho : ImplOk I P adr) (h : P s.arr s.mem a) : Disjoint I s a := by
  obtain ⟨cap, own, hc, c⟩ := ho.core h
  refine ⟨adr s.arr s.mem, fun pos hp => ho.ref h hp, fun pos off hp ho' => ⟨?_, ?_⟩, fun p o p' o' hp h1 hp' h2 e => ?_⟩
  · exact Mem.cell_inside (c.cell pos off (by omega) ho')
  · exact c.sep _ (c.vec pos (by omega))
  · exact c.inj p o p' o' (by omega) h1 (by omega) h2 e

theorem frame_of (ho : ImplOk I P adr) (h : P s.arr s.mem a) : KeepsOther I s a := by
  intro op out s' hl hc e
  obtain ⟨out', s2', e', _, _, u, _⟩ := step_ok ho s a op h hl
  rw [e] at e'
  simp only [Option.some.injEq, Prod.mk.injEq] at e'
  obtain ⟨rfl, rfl⟩ := e'
  exact u hc

end ArraySpec

/-! The invariant of the reachable states of each array. -/

abbrev arraySys (m0 : Mem) := sys arrayImpl arrayInit m0
abbrev arrayofSys (es : Nat) (m0 : Mem) := sys (arrayofImpl es) (arrayofInit es) m0
abbrev arrayblkSys (m0 : Mem) := sys arrayblkImpl arrayblkInit m0
abbrev arrayblkofSys (es : Nat) (m0 : Mem) := sys (arrayblkofImpl es) (arrayblkofInit es) m0

theorem array_init (m0 : Mem) (s a) (h : (arraySys m0).init s a) : ArrP s.arr s.mem a := by
  obtain ⟨h0, e, h1, h2, h3⟩ := h
  obtain ⟨t, m, vs, e', h'⟩ := arrayInit_run h0 a h1 h2 h3
  rw [e] at e'
  simp only [Option.some.injEq, Prod.mk.injEq] at e'
  rw [e'.1, e'.2]; exact ⟨vs, h'⟩

theorem arrayof_init {es : Nat} (hes : 64 * es < 2 ^ sizeBit) (m0 : Mem) (s a) (h : (arrayofSys es m0).init s a) :
    ArrOfP es s.arr s.mem a := by
  obtain ⟨h0, e, h1, h2, h3⟩ := h
  obtain ⟨t, m, vs, e', h'⟩ := arrayofInit_run hes h0 a h1 h2 h3
  rw [e] at e'
  simp only [Option.some.injEq, Prod.mk.injEq] at e'
  rw [e'.1, e'.2]; exact ⟨vs, h'⟩

theorem arrayblk_init (m0 : Mem) (s a) (h : (arrayblkSys m0).init s a) : ArrBlkP s.arr s.mem a := by
  obtain ⟨h0, e, h1, h2, h3⟩ := h
  obtain ⟨t, m, e', h'⟩ := arrayblkInit_run h0 a h1 h2 h3
  rw [e] at e'
  simp only [Option.some.injEq, Prod.mk.injEq] at e'
  rw [e'.1, e'.2]; exact h'

theorem arrayblkof_init {es : Nat} (hes : 4096 * es < 2 ^ sizeBit) (m0 : Mem) (s a) (h : (arrayblkofSys es m0).init s a) :
    ArrBlkOfP es s.arr s.mem a := by
  obtain ⟨h0, e, h1, h2, h3⟩ := h
  obtain ⟨t, m, e', h'⟩ := arrayblkofInit_run hes h0 a h1 h2 h3
  rw [e] at e'
  simp only [Option.some.injEq, Prod.mk.injEq] at e'
  rw [e'.1, e'.2]; exact h'

theorem array_reach (m0 : Mem) : ∀ s a, (arraySys m0).Reach s a → ArrP s.arr s.mem a :=
  Sys.reach_inv (array_init m0) (arr_step array_ok)

theorem arrayof_reach {es : Nat} (hes : 64 * es < 2 ^ sizeBit) (m0 : Mem) :
    ∀ s a, (arrayofSys es m0).Reach s a → ArrOfP es s.arr s.mem a :=
  Sys.reach_inv (arrayof_init hes m0) (arr_step (arrayof_ok es))

theorem arrayblk_reach (m0 : Mem) : ∀ s a, (arrayblkSys m0).Reach s a → ArrBlkP s.arr s.mem a :=
  Sys.reach_inv (arrayblk_init m0) (arr_step arrayblk_ok)

theorem arrayblkof_reach {es : Nat} (hes : 4096 * es < 2 ^ sizeBit) (m0 : Mem) :
    ∀ s a, (arrayblkofSys es m0).Reach s a → ArrBlkOfP es s.arr s.mem a :=
  Sys.reach_inv (arrayblkof_init hes m0) (arr_step (arrayblkof_ok es))

/-- **C19** Every history of calls on a `tommy_array`, with the rest of the program allocating, freeing and writing
    its own memory between the calls, has no undefined behaviour and no out of bounds access, terminates, and gives
    the results of a growing vector with the new elements at 0. -/
theorem C19_array_partial (m0 : Mem) (h0 : StartOk m0) :
    (∃ s a, (arraySys m0).init s a) ∧ (arraySys m0).Correct := by
  obtain ⟨t, m, vs, e, _⟩ := arrayInit_run h0 ⟨0, fun _ _ => 0, fun v => (m0.vlen v).isSome⟩ rfl rfl rfl
  exact ⟨⟨⟨m, t⟩, ⟨0, fun _ _ => 0, fun v => (m0.vlen v).isSome⟩, h0, e, rfl, rfl, rfl⟩, Sys.correct_of_inv (array_init m0) (arr_step array_ok)⟩

/-- **C22** The same for `tommy_arrayof`, with any element size. -/
theorem C22_arrayof_partial (es : Nat) (hes : 64 * es < 2 ^ sizeBit) (m0 : Mem) (h0 : StartOk m0) :
    (∃ s a, (arrayofSys es m0).init s a) ∧ (arrayofSys es m0).Correct := by
  obtain ⟨t, m, vs, e, _⟩ := arrayofInit_run hes h0 ⟨0, fun _ _ => 0, fun v => (m0.vlen v).isSome⟩ rfl rfl rfl
  exact ⟨⟨⟨m, t⟩, ⟨0, fun _ _ => 0, fun v => (m0.vlen v).isSome⟩, h0, e, rfl, rfl, rfl⟩,
    Sys.correct_of_inv (arrayof_init hes m0) (arr_step (arrayof_ok es))⟩

/-- **C23** The same for `tommy_arrayblk`. -/
theorem C23_arrayblk_partial (m0 : Mem) (h0 : StartOk m0) :
    (∃ s a, (arrayblkSys m0).init s a) ∧ (arrayblkSys m0).Correct := by
  obtain ⟨t, m, e, _⟩ := arrayblkInit_run h0 ⟨0, fun _ _ => 0, fun v => (m0.vlen v).isSome⟩ rfl rfl rfl
  exact ⟨⟨⟨m, t⟩, ⟨0, fun _ _ => 0, fun v => (m0.vlen v).isSome⟩, h0, e, rfl, rfl, rfl⟩, Sys.correct_of_inv (arrayblk_init m0) (arr_step arrayblk_ok)⟩

/-- **C24** The same for `tommy_arrayblkof`, with any element size. -/
theorem C24_arrayblkof_partial (es : Nat) (hes : 4096 * es < 2 ^ sizeBit) (m0 : Mem) (h0 : StartOk m0) :
    (∃ s a, (arrayblkofSys es m0).init s a) ∧ (arrayblkofSys es m0).Correct := by
  obtain ⟨t, m, e, _⟩ := arrayblkofInit_run hes h0 ⟨0, fun _ _ => 0, fun v => (m0.vlen v).isSome⟩ rfl rfl rfl
  exact ⟨⟨⟨m, t⟩, ⟨0, fun _ _ => 0, fun v => (m0.vlen v).isSome⟩, h0, e, rfl, rfl, rfl⟩, Sys.correct_of_inv (arrayblkof_init hes m0) (arr_step (arrayblkof_ok es))⟩

/-- **C20** The address of an element is the same in any later state. -/
theorem C20_array_partial (m0 : Mem) (s a s' a') (hr : (arraySys m0).Reach s a) (hf : (arraySys m0).From s a s' a') :
    StableRefs arrayImpl s a s' a' := stable_of array_ok hf (array_reach m0 s a hr)

theorem C20_arrayof_partial (es : Nat) (hes : 64 * es < 2 ^ sizeBit) (m0 : Mem) (s a s' a')
    (hr : (arrayofSys es m0).Reach s a) (hf : (arrayofSys es m0).From s a s' a') :
    StableRefs (arrayofImpl es) s a s' a' := stable_of (arrayof_ok es) hf (arrayof_reach hes m0 s a hr)

theorem C20_arrayblk_partial (m0 : Mem) (s a s' a') (hr : (arrayblkSys m0).Reach s a) (hf : (arrayblkSys m0).From s a s' a') :
    StableRefs arrayblkImpl s a s' a' := stable_of arrayblk_ok hf (arrayblk_reach m0 s a hr)

theorem C20_arrayblkof_partial (es : Nat) (hes : 4096 * es < 2 ^ sizeBit) (m0 : Mem) (s a s' a')
    (hr : (arrayblkofSys es m0).Reach s a) (hf : (arrayblkofSys es m0).From s a s' a') :
    StableRefs (arrayblkofImpl es) s a s' a' := stable_of (arrayblkof_ok es) hf (arrayblkof_reach hes m0 s a hr)

/-- **C21** The elements are in bounds, do not overlap, and the calls do not touch the rest of the program. -/
theorem C21_array_partial (m0 : Mem) (s a) (hr : (arraySys m0).Reach s a) : Disjoint arrayImpl s a ∧ KeepsOther arrayImpl s a :=
  ⟨disjoint_of array_ok (array_reach m0 s a hr), frame_of array_ok (array_reach m0 s a hr)⟩

theorem C21_arrayof_partial (es : Nat) (hes : 64 * es < 2 ^ sizeBit) (m0 : Mem) (s a)
    (hr : (arrayofSys es m0).Reach s a) : Disjoint (arrayofImpl es) s a ∧ KeepsOther (arrayofImpl es) s a :=
  have h := arrayof_reach hes m0 s a hr
  ⟨disjoint_of (arrayof_ok es) h, frame_of (arrayof_ok es) h⟩

theorem C21_arrayblk_partial (m0 : Mem) (s a) (hr : (arrayblkSys m0).Reach s a) :
    Disjoint arrayblkImpl s a ∧ KeepsOther arrayblkImpl s a :=
  ⟨disjoint_of arrayblk_ok (arrayblk_reach m0 s a hr), frame_of arrayblk_ok (arrayblk_reach m0 s a hr)⟩

theorem C21_arrayblkof_partial (es : Nat) (hes : 4096 * es < 2 ^ sizeBit) (m0 : Mem) (s a) (hr : (arrayblkofSys es m0).Reach s a) :
    Disjoint (arrayblkofImpl es) s a ∧ KeepsOther (arrayblkofImpl es) s a :=
  have h := arrayblkof_reach hes m0 s a hr
  ⟨disjoint_of (arrayblkof_ok es) h, frame_of (arrayblkof_ok es) h⟩

/-- **C25** done() frees all the vectors of the array, once, and nothing else. -/
theorem C25_array_partial (m0 : Mem) (s a) (hr : (arraySys m0).Reach s a) : DoneOk arrayImpl s a := by
  obtain ⟨vs, h⟩ := array_reach m0 s a hr
  obtain ⟨m', e, b1, b2, b3, b4⟩ := arrayDone_run h
  have c := h.seg.core
  refine ⟨m', e, ⟨b1, fun v hv => ⟨?_, by rw [b2]⟩⟩, fun v => ?_⟩
  · rw [b4 v (fun ho => by have := c.sep v ho; rw [hv] at this; cases this)]
  · by_cases ho : sown s.arr.bucketBit vs v
    · rw [b3 v ho]; simp [c.sep v ho]
    · rw [b4 v ho, c.live]; simp [ho]

theorem C25_arrayof_partial (es : Nat) (hes : 64 * es < 2 ^ sizeBit) (m0 : Mem) (s a)
    (hr : (arrayofSys es m0).Reach s a) : DoneOk (arrayofImpl es) s a := by
  obtain ⟨vs, h⟩ := arrayof_reach hes m0 s a hr
  obtain ⟨m', e, b1, b2, b3, b4⟩ := arrayofDone_run h
  have c := h.seg.core
  refine ⟨m', e, ⟨b1, fun v hv => ⟨?_, by rw [b2]⟩⟩, fun v => ?_⟩
  · rw [b4 v (fun ho => by have := c.sep v ho; rw [hv] at this; cases this)]
  · by_cases ho : sown s.arr.bucketBit vs v
    · rw [b3 v ho]; simp [c.sep v ho]
    · rw [b4 v ho, c.live]; simp [ho]

theorem C25_arrayblk_partial (m0 : Mem) (s a) (hr : (arrayblkSys m0).Reach s a) : DoneOk arrayblkImpl s a :=
  arrayblkDone_run (arrayblk_reach m0 s a hr)

theorem C25_arrayblkof_partial (es : Nat) (hes : 4096 * es < 2 ^ sizeBit) (m0 : Mem) (s a) (hr : (arrayblkofSys es m0).Reach s a) :
    DoneOk (arrayblkofImpl es) s a := arrayblkofDone_run (arrayblkof_reach hes m0 s a hr)

omit [Arch] in
theorem pow_tight {k n : Nat} (h6 : 6 ≤ k) (h : k = 6 ∨ 2 ^ (k - 1) < n) : 2 ^ k = 64 ∨ 2 ^ k < 2 * n := by
  rcases h with rfl | h
  · exact .inl rfl
  · right
    have : 2 ^ k = 2 ^ (k - 1) * 2 := by rw [← Nat.pow_succ]; congr 1; omega
    omega

/-- **C26** memory_usage() is the size in bytes of the vectors of the array (`ptrSize` for each pointer), that is linear. -/
theorem C26_array_partial (m0 : Mem) (s a) (hr : (arraySys m0).Reach s a) :
    ∃ vs, OwnVecs a.other s.mem vs ∧ arrayMemoryUsage s.arr = ptrSize * cellCount s.mem vs ∧
      (cellCount s.mem vs = 64 ∨ cellCount s.mem vs < 2 * a.size) := by
  obtain ⟨vs, h⟩ := array_reach m0 s a hr
  obtain ⟨o, hc⟩ := array_own h
  rw [Nat.mul_one] at hc
  refine ⟨_, o, ?_, ?_⟩
  · rw [hc, arrayMemoryUsage, h.max, sizeT, Nat.mod_eq_of_lt h.seg.fit, Nat.mul_comm]
  · rw [hc]; exact pow_tight h.seg.k6 h.tight

theorem C26_arrayof_partial (es : Nat) (hes : 64 * es < 2 ^ sizeBit) (m0 : Mem) (s a)
    (hr : (arrayofSys es m0).Reach s a) :
    ∃ vs, OwnVecs a.other s.mem vs ∧ arrayofMemoryUsage s.arr = cellCount s.mem vs ∧
      (cellCount s.mem vs = 64 * es ∨ cellCount s.mem vs < 2 * a.size * es) := by
  obtain ⟨vs, h⟩ := arrayof_reach hes m0 s a hr
  obtain ⟨o, hc⟩ := arrayof_own h
  refine ⟨_, o, ?_, ?_⟩
  · rw [hc, arrayofMemoryUsage, h.max, h.esz, sizeT, Nat.mod_eq_of_lt h.seg.fit]
  · rw [hc]
    rcases pow_tight h.seg.k6 h.tight with h1 | h1
    · exact .inl (by rw [h1])
    · rcases Nat.eq_zero_or_pos es with rfl | hpos
      · exact .inl (by omega)
      · exact .inr (Nat.mul_lt_mul_of_pos_right h1 hpos)

/-- For the blocks the first vectors are of pointers, the index, and the second ones of elements. Each allocation is
    below 2^sizeBit bytes but in the model nothing limits the total, so the result is modulo 2^sizeBit. -/
theorem C26_arrayblk_partial (m0 : Mem) (s a) (hr : (arrayblkSys m0).Reach s a) :
    ∃ vs1 vs2, OwnVecs a.other s.mem (vs1 ++ vs2) ∧
      arrayblkMemoryUsage s.arr = (ptrSize * cellCount s.mem vs1 + ptrSize * cellCount s.mem vs2) % 2 ^ sizeBit ∧
      cellCount s.mem vs2 = (a.size + 4095) / 4096 * 4096 ∧
      (cellCount s.mem vs1 = 64 ∨ cellCount s.mem vs1 < 2 * ((a.size + 4095) / 4096)) := by
  have h := arrayblk_reach m0 s a hr
  obtain ⟨vs1, vs2, o, c1, c2, hm, ht⟩ := arrayblk_own h
  obtain ⟨bv, b⟩ := h.inv
  obtain ⟨vs, hi⟩ := b.inner
  rw [h.blocks] at c2 ht
  rw [Nat.mul_one] at c2
  refine ⟨vs1, vs2, o, ?_, c2, by rw [c1]; exact pow_tight hi.seg.k6 ht⟩
  rw [c1, c2, arrayblkMemoryUsage, arrayMemoryUsage, hm, sizeT, sizeT, Nat.mod_eq_of_lt hi.seg.fit]
  congr 1
  rw [arraySize, h.blocks]
  show _ + _ * (4 * 1024) * ptrSize = _
  rw [Nat.mul_comm ptrSize, Nat.mul_comm ptrSize]

theorem C26_arrayblkof_partial (es : Nat) (hes : 4096 * es < 2 ^ sizeBit) (m0 : Mem) (s a) (hr : (arrayblkofSys es m0).Reach s a) :
    ∃ vs1 vs2, OwnVecs a.other s.mem (vs1 ++ vs2) ∧
      arrayblkofMemoryUsage s.arr = (ptrSize * cellCount s.mem vs1 + cellCount s.mem vs2) % 2 ^ sizeBit ∧
      cellCount s.mem vs2 = (a.size + 4095) / 4096 * 4096 * es ∧
      (cellCount s.mem vs1 = 64 ∨ cellCount s.mem vs1 < 2 * ((a.size + 4095) / 4096)) := by
  have h := arrayblkof_reach hes m0 s a hr
  obtain ⟨vs1, vs2, o, c1, c2, hm, ht⟩ := arrayblkof_own h
  obtain ⟨bv, b⟩ := h.inv
  obtain ⟨vs, hi⟩ := b.inner
  rw [h.blocks] at c2 ht
  refine ⟨vs1, vs2, o, ?_, c2, by rw [c1]; exact pow_tight hi.seg.k6 ht⟩
  rw [c1, c2, arrayblkofMemoryUsage, arrayMemoryUsage, hm, sizeT, sizeT, Nat.mod_eq_of_lt hi.seg.fit, sizeT,
    arraySize, h.blocks, h.esz, Nat.add_mod_mod]
  congr 1
  rw [Nat.mul_comm ptrSize]
  rfl

/-! ### Concrete cases -/

/-- A memory with two vectors of the program, the first one freed. -/
def arrExMem : Mem where
  heap := ⟨fun _ => false, fun _ => 0, fun _ => 0, fun _ => 0, fun _ => 0⟩
  vlen := fun v => if v = 1 then some 3 else none
  vcell := fun _ _ => none
  vnext := 2

omit [Arch] in
theorem arrExMem_ok : StartOk arrExMem := by
  intro v hv
  have hv : 2 ≤ v := hv
  simp only [arrExMem]; rw [if_neg (by omega)]

/- The loops are `partial_fixpoint`, so the model does not reduce: the values are obtained from the theorems. -/

omit [Arch] in
/-- A legal history, with its final abstract state, exists: the hypotheses of C19 - C26 are satisfied with a size of
    more than a segment. -/
theorem arrExReach {T : Type} {I : Impl T} {start : MM T} (hc : (∃ s a, (sys I start arrExMem).init s a) ∧ (sys I start arrExMem).Correct)
    (hp : I.ptr.isSome = true) (hf : ∀ n, n ≤ 5000 → I.fits n) :
    ∃ s a s' a', (sys I start arrExMem).Reach s a ∧ (sys I start arrExMem).From s a s' a' ∧ a.size = 5 ∧ a.val 0 0 = 7 ∧
      a.val 4 0 = 0 ∧ a'.size = 5000 ∧ a'.val 0 0 = 7 ∧ a'.val 4 0 = 3 ∧ a'.val 4999 0 = 0 := by
  obtain ⟨⟨s0, a0, h0⟩, hc⟩ := hc
  have r0 := Sys.Reach.init (sys := sys I start arrExMem) h0
  obtain ⟨_, _, z1, z2, _⟩ := h0
  obtain ⟨o1, s1, e1, al1⟩ := hc _ _ r0 (.insert 7) ⟨hp, hf _ (by rw [z1]; decide)⟩
  have r1 := Sys.Reach.step (sys := sys I start arrExMem) (op := .insert 7) r0 ⟨hp, hf _ (by rw [z1]; decide)⟩ e1
  obtain ⟨o2, s2, e2, al2⟩ := hc _ _ r1 (.grow 5) (hf _ (by decide))
  have r2 := Sys.Reach.step (sys := sys I start arrExMem) (op := .grow 5) r1 (hf _ (by decide)) e2
  have l3 : (sys I start arrExMem).legal ((sys I start arrExMem).next ((sys I start arrExMem).next a0 (.insert 7) o1) (.grow 5) o2) (.set 4 3) :=
    ⟨hp, by simp [sys, next, z1]⟩
  obtain ⟨o3, s3, e3, al3⟩ := hc _ _ r2 (.set 4 3) l3
  have r3 := Sys.Reach.step (sys := sys I start arrExMem) (op := .set 4 3) r2 l3 e3
  obtain ⟨o4, s4, e4, al4⟩ := hc _ _ r3 (.grow 5000) (hf _ (by decide))
  have f4 := Sys.From.step (sys := sys I start arrExMem) (op := .grow 5000) (.step .refl l3 e3) (hf 5000 (by decide)) e4
  refine ⟨s2, _, s4, _, r2, f4, ?_, ?_, ?_, ?_, ?_, ?_, ?_⟩ <;>
    simp [sys, next, z1, z2, upd]

omit [Arch] in
/-- The same for the arrays of structs, here with elements of 12 bytes. -/
theorem arrExReachOf {T : Type} {I : Impl T} {start : MM T} (hc : (∃ s a, (sys I start arrExMem).init s a) ∧ (sys I start arrExMem).Correct)
    (hes : I.es = 12) (hf : ∀ n, n ≤ 5000 → I.fits n) :
    ∃ s a s' a', (sys I start arrExMem).Reach s a ∧ (sys I start arrExMem).From s a s' a' ∧ a.size = 5 ∧ a.val 4 11 = 0 ∧
      a'.size = 5000 ∧ a'.val 4 11 = 3 ∧ a'.val 4 10 = 0 ∧ a'.val 4999 0 = 0 := by
  obtain ⟨⟨s0, a0, h0⟩, hc⟩ := hc
  have r0 := Sys.Reach.init (sys := sys I start arrExMem) h0
  obtain ⟨_, _, z1, z2, _⟩ := h0
  obtain ⟨o2, s2, e2, al2⟩ := hc _ _ r0 (.grow 5) (hf _ (by decide))
  have r2 := Sys.Reach.step (sys := sys I start arrExMem) (op := .grow 5) r0 (hf _ (by decide)) e2
  have l3 : (sys I start arrExMem).legal ((sys I start arrExMem).next a0 (.grow 5) o2) (.refWrite 4 11 3) :=
    ⟨by simp [sys, next, z1], by rw [hes]; decide⟩
  obtain ⟨o3, s3, e3, al3⟩ := hc _ _ r2 (.refWrite 4 11 3) l3
  have r3 := Sys.Reach.step (sys := sys I start arrExMem) (op := .refWrite 4 11 3) r2 l3 e3
  obtain ⟨o4, s4, e4, al4⟩ := hc _ _ r3 (.grow 5000) (hf _ (by decide))
  have f4 := Sys.From.step (sys := sys I start arrExMem) (op := .grow 5000) (.step .refl l3 e3) (hf 5000 (by decide)) e4
  refine ⟨s2, _, s4, _, r2, f4, ?_, ?_, ?_, ?_, ?_, ?_⟩ <;>
    simp [sys, next, z1, z2, upd]

theorem fitsSeg_small {bytes n : Nat} (hb : bytes ≤ 100) (h : n ≤ 5000) : fitsSeg bytes n :=
  ⟨13, by omega, by arch, by
    have : 2 ^ 13 * bytes ≤ 2 ^ 13 * 100 := Nat.mul_le_mul_left _ hb
    arch⟩

example := arrExReach (C19_array_partial arrExMem arrExMem_ok) rfl (fun _ h => fitsSeg_small (by arch) h)
example := arrExReach (C23_arrayblk_partial arrExMem arrExMem_ok) rfl (fun n h => (show n + 4096 ≤ 2 ^ sizeBit by arch))
example := arrExReachOf (C22_arrayof_partial 12 (by arch) arrExMem arrExMem_ok) rfl (fun _ h => fitsSeg_small (by arch) h)
example := arrExReachOf (C24_arrayblkof_partial 12 (by arch) arrExMem arrExMem_ok) rfl (fun n h => (show n + 4096 ≤ 2 ^ sizeBit by arch))

/-- From the examples: in that state done() frees everything but the vector 1 of the program. -/
example : ∃ s a, (arrayblkSys arrExMem).Reach s a ∧ a.size = 5000 ∧ DoneOk arrayblkImpl s a ∧ Disjoint arrayblkImpl s a := by
  obtain ⟨s, a, s', a', hr, hf, _, _, _, h, _⟩ :=
    arrExReach (C23_arrayblk_partial arrExMem arrExMem_ok) rfl (fun n h => (show n + 4096 ≤ 2 ^ sizeBit by arch))
  exact ⟨s', a', hf.reach hr, h, C25_arrayblk_partial _ _ _ (hf.reach hr), (C21_arrayblk_partial _ _ _ (hf.reach hr)).1⟩

end Tommy
