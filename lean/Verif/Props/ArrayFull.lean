import Verif.Proof.ArrayFull
import Verif.Props.Array
/-!
  Properties C19 - C26 with any argument of grow, in a memory of 2^sizeBit bytes: what is true for all the sizes, and the
  negations of what is not.
-/
set_option linter.unusedSimpArgs false
set_option autoImplicit false
namespace Tommy

variable [Arch]
open ArraySpec

/-! ### The reachable states -/

theorem array_mach {m0 : Mem} {s a} (hr : (arrayMach m0).Reach s a) : (arraySys m0).Reach s a := by
  induction hr with
  | init h => exact .init h.1
  | step _ hl e ih => exact .step ih (array_legal (array_reach m0 _ _ ih) hl (machine_step e).1 (machine_step e).2) (machine_step e).1

theorem array_mach_from {m0 : Mem} {s a s' a'} (hr : (arrayMach m0).Reach s a) (hf : (arrayMach m0).From s a s' a') :
    (arraySys m0).From s a s' a' := by
  have h0 := array_mach hr
  induction hf with
  | refl => exact .refl
  | step _ hl e ih =>
    exact .step ih (array_legal (array_reach m0 _ _ (ih.reach h0)) hl (machine_step e).1 (machine_step e).2) (machine_step e).1

/-- With elements of 2^sizeBit / 64 bytes or more also init fails. -/
theorem arrayof_init_big {es : Nat} (hes : 2 ^ sizeBit ≤ 64 * es) (m0 : Mem) : arrayofInit es m0 = none := by
  have hz : bcalloc (2 ^ 6) es m0 = none := by unfold bcalloc; rw [if_neg (by arch)]
  have ha : ashl 6 m0 = some (2 ^ 6, m0) := if_pos (by arch)
  simp only [arrayofInit, arrayofBIT, StateT.bind, bind, ha, Option.bind_some, hz, Option.bind_none]

theorem arrayof_mach_es {es : Nat} {m0 : Mem} {s a} (hr : (arrayofMach es m0).Reach s a) : 64 * es < 2 ^ sizeBit := by
  induction hr with
  | init h =>
    by_contra hes
    obtain ⟨⟨_, e, _⟩, _⟩ := h
    rw [arrayof_init_big (by omega)] at e
    cases e
  | step _ _ _ ih => exact ih

theorem arrayof_mach {es : Nat} {m0 : Mem} {s a} (hr : (arrayofMach es m0).Reach s a) : (arrayofSys es m0).Reach s a := by
  have hes := arrayof_mach_es hr
  induction hr with
  | init h => exact .init h.1
  | step hr hl e ih =>
    exact .step (ih) (arrayof_legal hes (arrayof_reach hes m0 _ _ ih) hl (machine_step e).1 (machine_step e).2) (machine_step e).1

theorem arrayof_mach_from {es : Nat} {m0 : Mem} {s a s' a'} (hr : (arrayofMach es m0).Reach s a)
    (hf : (arrayofMach es m0).From s a s' a') : (arrayofSys es m0).From s a s' a' := by
  have hes := arrayof_mach_es hr
  have h0 := arrayof_mach hr
  induction hf with
  | refl => exact .refl
  | step _ hl e ih =>
    exact .step ih (arrayof_legal hes (arrayof_reach hes m0 _ _ (ih.reach h0)) hl (machine_step e).1 (machine_step e).2) (machine_step e).1

/-! ### What is true -/

/-- **C20** for `tommy_array` and `tommy_arrayof`, with all the sizes. Missing from the full property: the arrays of
    blocks, where it is false over 2^sizeBit - 4096 elements. -/
theorem C20_array_all_partial (m0 : Mem) (s a s' a') (hr : (arrayMach m0).Reach s a) (hf : (arrayMach m0).From s a s' a') :
    StableRefs arrayImpl s a s' a' := C20_array_partial m0 s a s' a' (array_mach hr) (array_mach_from hr hf)

theorem C20_arrayof_all_partial (es : Nat) (m0 : Mem) (s a s' a') (hr : (arrayofMach es m0).Reach s a)
    (hf : (arrayofMach es m0).From s a s' a') : StableRefs (arrayofImpl es) s a s' a' :=
  C20_arrayof_partial es (arrayof_mach_es hr) m0 s a s' a' (arrayof_mach hr) (arrayof_mach_from hr hf)

/-- **C21** for `tommy_array` and `tommy_arrayof`, with all the sizes. Missing from the full property: the arrays of
    blocks, where it is false over 2^sizeBit - 4096 elements. -/
theorem C21_array_all_partial (m0 : Mem) (s a) (hr : (arrayMach m0).Reach s a) : Disjoint arrayImpl s a :=
  (C21_array_partial m0 s a (array_mach hr)).1

theorem C21_arrayof_all_partial (es : Nat) (m0 : Mem) (s a) (hr : (arrayofMach es m0).Reach s a) :
    Disjoint (arrayofImpl es) s a := (C21_arrayof_partial es (arrayof_mach_es hr) m0 s a (arrayof_mach hr)).1

/-- **C25** done() frees all the vectors of the array, once, and nothing else: in every state reachable with any
    arguments, also over the sizes where the access to the elements fails. -/
theorem C25_array (m0 : Mem) (s a) (hr : (arrayMach m0).Reach s a) : DoneOk arrayImpl s a :=
  C25_array_partial m0 s a (array_mach hr)

theorem C25_arrayof (es : Nat) (m0 : Mem) (s a) (hr : (arrayofMach es m0).Reach s a) : DoneOk (arrayofImpl es) s a :=
  C25_arrayof_partial es (arrayof_mach_es hr) m0 s a (arrayof_mach hr)

theorem C25_arrayblk (m0 : Mem) (s a) (hr : (arrayblkMach m0).Reach s a) : DoneOk arrayblkImpl s a := by
  rcases wrap_reach arrayblk_ok arrayblk_wrap (arrayblk_init m0) (machine_reach hr).1 with h | ⟨n, h⟩
  · exact arrayblkDone_run h
  · obtain ⟨m', e, u, hv⟩ := arrayblkDone_run h.inv
    refine ⟨m', ?_, u, hv⟩
    have hloop : ∀ d i m, i + d = s.arr.block.count →
        arrayblkDoneLoop { s.arr with count := n } i m = arrayblkDoneLoop s.arr i m := by
      intro d
      induction d with
      | zero =>
        intro i m hd
        conv => lhs; rw [arrayblkDoneLoop]
        conv => rhs; rw [arrayblkDoneLoop]
        rw [if_neg (by simp only [arraySize]; omega), if_neg (by simp only [arraySize]; omega)]
      | succ d ih =>
        intro i m hd
        conv => lhs; rw [arrayblkDoneLoop]
        conv => rhs; rw [arrayblkDoneLoop]
        rw [if_pos (by simp only [arraySize]; omega), if_pos (by simp only [arraySize]; omega)]
        simp only [StateT.bind, bind]
        congr 1; funext x
        congr 1; funext y
        congr 1; funext z
        exact ih (i + 1) _ (by omega)
    have h1 := hloop s.arr.block.count 0 s.mem (by omega)
    simp only [arrayblkImpl, arrayblkDone, StateT.bind, bind] at e ⊢
    rw [← h1]; exact e

theorem C25_arrayblkof (es : Nat) (m0 : Mem) (s a) (hr : (arrayblkofMach es m0).Reach s a) : DoneOk (arrayblkofImpl es) s a := by
  rcases Nat.lt_or_ge (4096 * es) (2 ^ sizeBit) with hes | hes
  · rcases wrap_reach (arrayblkof_ok es) (arrayblkof_wrap es) (arrayblkof_init hes m0) (machine_reach hr).1 with h | ⟨n, h⟩
    · exact arrayblkofDone_run h
    · obtain ⟨m', e, u, hv⟩ := arrayblkofDone_run h.inv
      refine ⟨m', ?_, u, hv⟩
      have hloop : ∀ d i m, i + d = s.arr.block.count →
          arrayblkofDoneLoop { s.arr with count := n } i m = arrayblkofDoneLoop s.arr i m := by
        intro d
        induction d with
        | zero =>
          intro i m hd
          conv => lhs; rw [arrayblkofDoneLoop]
          conv => rhs; rw [arrayblkofDoneLoop]
          rw [if_neg (by simp only [arraySize]; omega), if_neg (by simp only [arraySize]; omega)]
        | succ d ih =>
          intro i m hd
          conv => lhs; rw [arrayblkofDoneLoop]
          conv => rhs; rw [arrayblkofDoneLoop]
          rw [if_pos (by simp only [arraySize]; omega), if_pos (by simp only [arraySize]; omega)]
          simp only [StateT.bind, bind]
          congr 1; funext x
          congr 1; funext y
          congr 1; funext z
          exact ih (i + 1) _ (by omega)
      have h1 := hloop s.arr.block.count 0 s.mem (by omega)
      simp only [arrayblkofImpl, arrayblkofDone, StateT.bind, bind] at e ⊢
      rw [← h1]; exact e
  · exact (noBlocks_reach hes (machine_reach hr).1).done

/-- **C26** for `tommy_array`: memory_usage() is exactly the size in bytes of the vectors of the array, that is the 64
    initial elements, or less than twice the elements. -/
theorem C26_array (m0 : Mem) (s a) (hr : (arrayMach m0).Reach s a) :
    ∃ vs, OwnVecs a.other s.mem vs ∧ arrayMemoryUsage s.arr = ptrSize * cellCount s.mem vs ∧
      (cellCount s.mem vs = 64 ∨ cellCount s.mem vs < 2 * a.size) := C26_array_partial m0 s a (array_mach hr)

theorem C26_arrayof (es : Nat) (m0 : Mem) (s a) (hr : (arrayofMach es m0).Reach s a) :
    ∃ vs, OwnVecs a.other s.mem vs ∧ arrayofMemoryUsage s.arr = cellCount s.mem vs ∧
      (cellCount s.mem vs = 64 * es ∨ cellCount s.mem vs < 2 * a.size * es) :=
  C26_arrayof_partial es (arrayof_mach_es hr) m0 s a (arrayof_mach hr)

/-- **C26** for `tommy_arrayblk`: `vs1` is the index of the blocks, and `vs2` the blocks. -/
theorem C26_arrayblk (m0 : Mem) (s a) (hr : (arrayblkMach m0).Reach s a) :
    ∃ vs1 vs2, OwnVecs a.other s.mem (vs1 ++ vs2) ∧
      arrayblkMemoryUsage s.arr = ptrSize * cellCount s.mem vs1 + ptrSize * cellCount s.mem vs2 ∧
      cellCount s.mem vs2 ≤ a.size + 4095 ∧
      (cellCount s.mem vs1 = 64 ∨ cellCount s.mem vs1 < 2 * ((a.size + 4095) / 4096)) := by
  obtain ⟨hr, hb⟩ := machine_reach hr
  have key : ∀ t a', ArrBlkP t s.mem a' → t.block = s.arr.block → a'.other = a.other → (a'.size + 4095) / 4096 ≤ (a.size + 4095) / 4096 →
      ∃ vs1 vs2, OwnVecs a.other s.mem (vs1 ++ vs2) ∧
      arrayblkMemoryUsage s.arr = ptrSize * cellCount s.mem vs1 + ptrSize * cellCount s.mem vs2 ∧
      cellCount s.mem vs2 ≤ a.size + 4095 ∧
      (cellCount s.mem vs1 = 64 ∨ cellCount s.mem vs1 < 2 * ((a.size + 4095) / 4096)) := by
    intro t a' h ht ho hsz
    obtain ⟨vs1, vs2, o, c1, c2, hm, ht2⟩ := arrayblk_own h
    obtain ⟨bv, b⟩ := h.inv
    obtain ⟨vs, hi⟩ := b.inner
    have hbl := h.blocks
    rw [h.blocks] at c2 ht2
    rw [Nat.mul_one] at c2
    refine ⟨vs1, vs2, by rw [← ho]; exact o, ?_, by omega, ?_⟩
    · have hlt := hb (vs1 ++ vs2) o.nodup
      rw [cellCount_append] at hlt
      have he : arrayMemoryUsage s.arr.block + arraySize s.arr.block * arrayblkSIZE * ptrSize = ptrSize * cellCount s.mem vs1 + ptrSize * cellCount s.mem vs2 := by
        rw [← ht, c1, c2, arrayMemoryUsage, hm, sizeT, Nat.mod_eq_of_lt hi.seg.fit, arraySize, h.blocks]
        show _ + _ * (4 * 1024) * ptrSize = _
        rw [Nat.mul_comm ptrSize, Nat.mul_comm ptrSize]
      rw [arrayblkMemoryUsage, he, sizeT, Nat.mod_eq_of_lt (by arch)]
    · rw [c1]
      rcases pow_tight hi.seg.k6 ht2 with h1 | h1
      · exact .inl h1
      · exact .inr (by omega)
  rcases wrap_reach arrayblk_ok arrayblk_wrap (arrayblk_init m0) hr with h | ⟨n, h⟩
  · exact key _ _ h rfl rfl (Nat.le_refl _)
  · refine key _ _ h.inv rfl rfl ?_
    have h1 := h.le
    have h2 := h.big
    simp only
    omega

/-- **C26** for `tommy_arrayblkof`, with any element size. The index is of pointers and the blocks of bytes, and their
    total is less than 2^sizeBit bytes in any memory of the machine. -/
theorem C26_arrayblkof (es : Nat) (m0 : Mem) (s a) (hr : (arrayblkofMach es m0).Reach s a) :
    ∃ vs1 vs2, OwnVecs a.other s.mem (vs1 ++ vs2) ∧
      (ptrSize * cellCount s.mem vs1 + cellCount s.mem vs2 < 2 ^ sizeBit →
        arrayblkofMemoryUsage s.arr = ptrSize * cellCount s.mem vs1 + cellCount s.mem vs2) ∧
      cellCount s.mem vs2 ≤ (a.size + 4095) * es ∧
      (cellCount s.mem vs1 = 64 ∨ cellCount s.mem vs1 < 2 * ((a.size + 4095) / 4096)) := by
  obtain ⟨hr, _⟩ := machine_reach hr
  rcases Nat.lt_or_ge (4096 * es) (2 ^ sizeBit) with hes | hes
  · have key : ∀ t a', ArrBlkOfP es t s.mem a' → t.block = s.arr.block → t.elementSize = s.arr.elementSize → a'.other = a.other →
        (a'.size + 4095) / 4096 ≤ (a.size + 4095) / 4096 →
        ∃ vs1 vs2, OwnVecs a.other s.mem (vs1 ++ vs2) ∧
        (ptrSize * cellCount s.mem vs1 + cellCount s.mem vs2 < 2 ^ sizeBit →
          arrayblkofMemoryUsage s.arr = ptrSize * cellCount s.mem vs1 + cellCount s.mem vs2) ∧
        cellCount s.mem vs2 ≤ (a.size + 4095) * es ∧
        (cellCount s.mem vs1 = 64 ∨ cellCount s.mem vs1 < 2 * ((a.size + 4095) / 4096)) := by
      intro t a' h ht hte ho hsz
      obtain ⟨vs1, vs2, o, c1, c2, hm, ht2⟩ := arrayblkof_own h
      obtain ⟨bv, b⟩ := h.inv
      obtain ⟨vs, hi⟩ := b.inner
      have hbl := h.blocks
      rw [h.blocks] at c2 ht2
      refine ⟨vs1, vs2, by rw [← ho]; exact o, fun hlt => ?_, ?_, ?_⟩
      · have hc2 : (a'.size + 4095) / 4096 * 4096 * es < 2 ^ sizeBit := by rw [← c2]; omega
        have hc1 : 2 ^ t.block.bucketBit * ptrSize < 2 ^ sizeBit := hi.seg.fit
        rw [c1, c2] at hlt ⊢
        have hz : (a'.size + 4095) / 4096 * arrayblkofSIZE * es = (a'.size + 4095) / 4096 * 4096 * es := rfl
        rw [arrayblkofMemoryUsage, arrayMemoryUsage, ← ht, ← hte, hm, arraySize, h.blocks, h.esz, sizeT, sizeT, sizeT,
          Nat.mod_eq_of_lt hc1, hz, Nat.mod_eq_of_lt hc2, Nat.mul_comm _ ptrSize, Nat.mod_eq_of_lt hlt]
      · rw [c2]; exact Nat.mul_le_mul_right es (by omega)
      · rw [c1]
        rcases pow_tight hi.seg.k6 ht2 with h1 | h1
        · exact .inl h1
        · exact .inr (by omega)
    rcases wrap_reach (arrayblkof_ok es) (arrayblkof_wrap es) (arrayblkof_init hes m0) hr with h | ⟨n, h⟩
    · exact key _ _ h rfl rfl rfl (Nat.le_refl _)
    · refine key _ _ h.inv rfl rfl rfl ?_
      have h1 := h.le
      have h2 := h.big
      simp only
      omega
  · have h := noBlocks_reach hes hr
    obtain ⟨vs, hi⟩ := h.inv
    obtain ⟨o, hc⟩ := array_own hi
    rw [Nat.mul_one] at hc
    have ht : s.arr.block.bucketBit = 6 := by
      rcases hi.tight with h1 | h1
      · exact h1
      · exact absurd h1 (Nat.not_lt_zero _)
    have h0 : cellCount s.mem [] = 0 := rfl
    refine ⟨_, [], by rw [List.append_nil]; exact o, fun _ => ?_, by rw [h0]; exact Nat.zero_le _, .inl (by rw [hc, ht]; rfl)⟩
    rw [hc, h0, arrayblkofMemoryUsage, arrayMemoryUsage, hi.max, ht, arraySize, h.empty, Nat.zero_mul, Nat.zero_mul]
    unfold sizeT
    arch

/-! ### What is false -/

/-- The initial states, in a memory that has room for the first segment. -/
theorem array_mach_init {m0 : Mem} (h0 : StartOk m0) (hb : ∀ t m, arrayInit m0 = some (t, m) → Bounded ptrSize m) :
    ∃ s a, (arrayMach m0).init s a := by
  obtain ⟨t, m, vs, e, _⟩ := arrayInit_run h0 ⟨0, fun _ _ => 0, fun v => (m0.vlen v).isSome⟩ rfl rfl rfl
  exact ⟨⟨m, t⟩, ⟨0, fun _ _ => 0, fun v => (m0.vlen v).isSome⟩, ⟨h0, e, rfl, rfl, rfl⟩, hb t m e⟩

/-- **C19** is false for the sizes over 2^60 (2^29 in the 32 bit build), as no memory has room for the array: calloc() fails, and it is not
    checked. It is so in every state and not only in the initial one. -/
theorem C19_array_false (m0 : Mem) (s a) (hr : (arrayMach m0).Reach s a) (n : Nat) (hn : 2 ^ (sizeBit - 1) / ptrSize < n) :
    (arrayMach m0).step (.grow n) s = none ∧ (n < 2 ^ sizeBit → ¬ (arrayMach m0).Correct) := by
  suffices h : (arrayMach m0).step (.grow n) s = none from ⟨h, fun hn' hc => by
    obtain ⟨out, s', e, _⟩ := hc s a hr (.grow n) hn'
    rw [h] at e; cases e⟩
  cases e : (arrayMach m0).step (.grow n) s with
  | none => rfl
  | some r =>
    exfalso
    obtain ⟨e1, hb⟩ := machine_step (out := r.1) (s' := r.2) e
    have e1 : (arrayGrow s.arr n s.mem).map (fun r => ((Out.unit : Out), (⟨r.2, r.1⟩ : St Arr))) = some r := e1
    obtain ⟨⟨t', m'⟩, e2, e3⟩ := Option.map_eq_some_iff.1 e1
    subst e3
    obtain ⟨k, _, _, h1, h2⟩ := arrayGrow_fits (array_reach m0 _ _ (array_mach hr)) e2 hb
    have : k ≤ bktBit := by
      by_contra hk
      have : 2 ^ (bktBit + 1) ≤ 2 ^ k := Nat.pow_le_pow_right (by omega) (by omega)
      arch
    have : 2 ^ k ≤ 2 ^ bktBit := Nat.pow_le_pow_right (by omega) this
    arch

/-- **C22** is false in the same way, for every element size, over 2^sizeBit bytes. -/
theorem C22_arrayof_false (es : Nat) (m0 : Mem) (s a) (hr : (arrayofMach es m0).Reach s a) (n : Nat)
    (hn : 2 ^ sizeBit ≤ n * es) : (arrayofMach es m0).step (.grow n) s = none ∧ (n < 2 ^ sizeBit → ¬ (arrayofMach es m0).Correct) := by
  suffices h : (arrayofMach es m0).step (.grow n) s = none from ⟨h, fun hn' hc => by
    obtain ⟨out, s', e, _⟩ := hc s a hr (.grow n) hn'
    rw [h] at e; cases e⟩
  cases e : (arrayofMach es m0).step (.grow n) s with
  | none => rfl
  | some r =>
    exfalso
    have hes := arrayof_mach_es hr
    obtain ⟨e1, hb⟩ := machine_step (out := r.1) (s' := r.2) e
    have e1 : (arrayofGrow s.arr n s.mem).map (fun r => ((Out.unit : Out), (⟨r.2, r.1⟩ : St ArrOf))) = some r := e1
    obtain ⟨⟨t', m'⟩, e2, e3⟩ := Option.map_eq_some_iff.1 e1
    subst e3
    obtain ⟨k, _, _, h1, h2⟩ := arrayofGrow_fits hes (arrayof_reach hes m0 _ _ (arrayof_mach hr)) e2 hb
    have := Nat.mul_le_mul_right es h1
    omega

/-- **C20** and **C21** are false for `tommy_arrayblk`: after grow() over 2^sizeBit - 4096 elements the elements have no
    address. (A memory of 2^sizeBit bytes does not help, because grow() allocates nothing.) -/
theorem C20_C21_arrayblk_false (m0 : Mem) (s a) (hi : (arrayblkMach m0).init s a) (n : Nat) (hn : 2 ^ sizeBit - 4096 < n) (hn' : n < 2 ^ sizeBit) :
    ∃ s' a', (arrayblkMach m0).Reach s' a' ∧ (arrayblkMach m0).From s a s' a' ∧ a'.size = n ∧
      ¬ StableRefs arrayblkImpl s' a' s' a' ∧ ¬ Disjoint arrayblkImpl s' a' := by
  have hP := arrayblk_init m0 s a hi.1
  have hs : a.size = 0 := hi.1.2.2.1
  have hc : s.arr.count = 0 := by rw [hP.count, hs]
  have hbl : s.arr.block.count = 0 := by rw [hP.blocks, hs]
  have hg := arrayblk_wrap.grow s.arr n s.mem (by show s.arr.count < n; omega) hn hn'
  have e : (arrayblkMach m0).step (.grow n) s = some (.unit, ⟨s.mem, { s.arr with count := n }⟩) :=
    machine_step_of (S := sys (full arrayblkImpl) arrayblkInit m0) (by
      show (arrayblkImpl.grow s.arr n s.mem).map _ = _
      rw [hg]; rfl) hi.2
  have hf := Sys.From.step (sys := arrayblkMach m0) (op := .grow n) (.refl (s := s) (a := a)) hn' e
  have hz : arrayblkImpl.ref { s.arr with count := n } 0 s.mem = none := by
    have hg : arrayGet s.arr.block (0 / arrayblkSIZE) s.mem = none := arrayGet_out (by rw [Nat.zero_div]; omega)
    have h0 : 0 < n := by omega
    simp only [arrayblkImpl, arrayblkRef, assertM, StateT.bind, bind, if_pos h0, Option.bind_some, hg, Option.bind_none]
  have hsz : ((arrayblkMach m0).next a (.grow n) .unit).size = n := by
    show max a.size n = n
    omega
  refine ⟨_, _, hf.reach (.init hi), hf, hsz, fun h => ?_, fun h => ?_⟩
  · obtain ⟨r, e1, _⟩ := h.2 0 (by rw [hsz]; omega)
    rw [hz] at e1; cases e1
  · obtain ⟨R, h1, _⟩ := h
    have := h1 0 (by rw [hsz]; omega)
    rw [hz] at this; cases this

/-- The same for `tommy_arrayblkof`, with any element size. -/
theorem C20_C21_arrayblkof_false (es : Nat) (m0 : Mem) (s a) (hi : (arrayblkofMach es m0).init s a) (n : Nat)
    (hn : 2 ^ sizeBit - 4096 < n) (hn' : n < 2 ^ sizeBit) :
    ∃ s' a', (arrayblkofMach es m0).Reach s' a' ∧ (arrayblkofMach es m0).From s a s' a' ∧ a'.size = n ∧
      ¬ StableRefs (arrayblkofImpl es) s' a' s' a' ∧ ¬ Disjoint (arrayblkofImpl es) s' a' := by
  have hs : a.size = 0 := hi.1.2.2.1
  have hcb : s.arr.count = 0 ∧ s.arr.block.count = 0 := by
    obtain ⟨⟨h0, e, h1, h2, h3⟩, _⟩ := hi
    obtain ⟨t, m, vs, e', h'⟩ := arrayInit_run h0 a h1 h2 h3
    simp only [arrayblkofInit, StateT.bind, bind, e', Option.bind_some, pure, StateT.pure, Option.some.injEq, Prod.mk.injEq] at e
    rw [← e.1]
    exact ⟨rfl, by rw [h'.count, h1]⟩
  have hg := (arrayblkof_wrap es).grow s.arr n s.mem (by show s.arr.count < n; omega) hn hn'
  have e : (arrayblkofMach es m0).step (.grow n) s = some (.unit, ⟨s.mem, { s.arr with count := n }⟩) :=
    machine_step_of (S := sys (full (arrayblkofImpl es)) (arrayblkofInit es) m0) (by
      show ((arrayblkofImpl es).grow s.arr n s.mem).map _ = _
      rw [hg]; rfl) hi.2
  have hf := Sys.From.step (sys := arrayblkofMach es m0) (op := .grow n) (.refl (s := s) (a := a)) hn' e
  have hz : (arrayblkofImpl es).ref { s.arr with count := n } 0 s.mem = none := by
    have hg : arrayGet s.arr.block (0 / arrayblkofSIZE) s.mem = none := arrayGet_out (by rw [Nat.zero_div]; omega)
    have h0 : 0 < n := by omega
    simp only [arrayblkofImpl, arrayblkofRef, assertM, StateT.bind, bind, if_pos h0, Option.bind_some, hg, Option.bind_none]
  have hsz : ((arrayblkofMach es m0).next a (.grow n) .unit).size = n := by
    show max a.size n = n
    omega
  refine ⟨_, _, hf.reach (.init hi), hf, hsz, fun h => ?_, fun h => ?_⟩
  · obtain ⟨r, e1, _⟩ := h.2 0 (by rw [hsz]; omega)
    rw [hz] at e1; cases e1
  · obtain ⟨R, h1, _⟩ := h
    have := h1 0 (by rw [hsz]; omega)
    rw [hz] at this; cases this

/-! ### Concrete cases -/

/-- After init in the memory of the examples, with a vector of 3 cells, the total is small. -/
theorem arrEx_bounded {c len : Nat} (h : c * (3 + len) < 2 ^ sizeBit) {m : Mem}
    (hm : m.vlen = upd arrExMem.vlen 2 (some len)) : Bounded c m := by
  intro vs hv
  have h1 := cellCount_le m 3 (fun v hv => by
    rw [hm, upd_ne (by omega)]
    simp only [arrExMem]; rw [if_neg (by omega)]) vs hv
  have h2 : cellCount m (List.range 3) = 3 + len := by
    unfold cellCount
    rw [hm]
    simp [List.range_succ, arrExMem, upd]
  rw [h2] at h1
  exact Nat.lt_of_le_of_lt (Nat.mul_le_mul_left c h1) h

theorem arrEx_init : ∃ t m, arrayInit arrExMem = some (t, m) ∧ m.vlen = upd arrExMem.vlen 2 (some 64) := by
  obtain ⟨bk, eb, hb⟩ := arrayInitLoop_run { arrExMem with
    vlen := upd arrExMem.vlen 2 (some 64), vcell := upd arrExMem.vcell 2 (fun _ => some 0), vnext := 3 }
    ⟨2, 0⟩ 5 1 (upd (fun _ => none) 0 (some ⟨2, 0⟩)) (by arch) (by omega) (fun j hj => by
      have : j = 0 := by omega
      subst this; rw [upd_same])
  refine ⟨⟨bk, 2 ^ 6, 0, 6⟩, { arrExMem with
    vlen := upd arrExMem.vlen 2 (some 64), vcell := upd arrExMem.vcell 2 (fun _ => some 0), vnext := 3 }, ?_, rfl⟩
  have hc : pcalloc (2 ^ 6) arrExMem = some (⟨2, 0⟩, { arrExMem with
    vlen := upd arrExMem.vlen 2 (some 64), vcell := upd arrExMem.vcell 2 (fun _ => some 0), vnext := 3 }) := by
    simp only [pcalloc, vcalloc, Nat.reducePow, if_pos (show 64 * ptrSize < 2 ^ sizeBit by arch)]
    rfl
  have ha : ashl 6 arrExMem = some (2 ^ 6, arrExMem) := if_pos (by arch)
  simp only [arrayInit, arrayBIT, StateT.bind, bind, ha, Option.bind_some, hc, segSet, if_pos (show 0 < sizeBit by arch),
    Nat.add_one_sub_one, eb, pure, StateT.pure]

/-- An initial state of a tommy_array in a memory of 2^sizeBit bytes, and the failure of grow() there. -/
example : ∃ s a, (arrayMach arrExMem).Reach s a ∧ (arrayMach arrExMem).step (.grow (2 ^ (sizeBit - 2))) s = none ∧
    ¬ (arrayMach arrExMem).Correct := by
  obtain ⟨t, m, e, hm⟩ := arrEx_init
  have hi : (arrayMach arrExMem).init ⟨m, t⟩ ⟨0, fun _ _ => 0, fun v => (arrExMem.vlen v).isSome⟩ :=
    ⟨⟨arrExMem_ok, e, rfl, rfl, rfl⟩, arrEx_bounded (by arch) hm⟩
  have h := C19_array_false arrExMem _ _ (.init hi) (2 ^ (sizeBit - 2)) (by arch)
  exact ⟨_, _, .init hi, h.1, h.2 (by arch)⟩

/-- A tommy_arrayblk where the size has wrapped: no element has an address, but done() and memory_usage() are right. -/
example : ∃ s a, (arrayblkMach arrExMem).Reach s a ∧ a.size = 2 ^ sizeBit - 1 ∧ ¬ Disjoint arrayblkImpl s a ∧ DoneOk arrayblkImpl s a := by
  obtain ⟨t, m, e, hm⟩ := arrEx_init
  have hi : (arrayblkMach arrExMem).init ⟨m, ⟨t, 0⟩⟩ ⟨0, fun _ _ => 0, fun v => (arrExMem.vlen v).isSome⟩ :=
    ⟨⟨arrExMem_ok, by simp only [arrayblkInit, StateT.bind, bind, e, Option.bind_some, pure, StateT.pure], rfl, rfl, rfl⟩,
      arrEx_bounded (by arch) hm⟩
  obtain ⟨s, a, hr, _, hs, _, hd⟩ := C20_C21_arrayblk_false arrExMem _ _ hi (2 ^ sizeBit - 1) (by arch) (by arch)
  exact ⟨s, a, hr, hs, hd, C25_arrayblk _ _ _ hr⟩

end Tommy
