import Verif.Proof.HashCost
/-
  C57, C58: the cost of the resizes of tommy_hashdyn, and of the moves of nodes in tommy_hashlin.
  The work is counted by the ghost fields `work` of `Hashdyn` and `moved` of `Hashlin`, which nothing reads.
-/
set_option autoImplicit false
namespace Tommy

variable [Arch]
open HashSpec

/-- **C57** The total work of the resizes of `tommy_hashdyn` in any history, one for each bucket visited and for each
    node moved, is at most 6 for each insert and 4 for each remove. -/
theorem C57_hashdyn_amortized (m0 : Mem) (s a n) (hr : (sys hashdynImpl hashdynInit m0).ReachCost dynCost s a n) :
    s.tbl.work ≤ n := by
  have := dyn_work hr
  omega

/-- **C57** The work of a single call is at most 4 times the number of elements, and it is 0 if the number of buckets
    does not change. -/
theorem C57_hashdyn_call (m0 : Mem) (s a) (hr : (sys hashdynImpl hashdynInit m0).Reach s a) (op : Op)
    (hl : legal a op) (out s') (e : step hashdynImpl op s = some (out, s')) :
    s'.tbl.work ≤ s.tbl.work + 4 * a.elems.length ∧
    (s'.tbl.bucketMax = s.tbl.bucketMax → s'.tbl.work = s.tbl.work) := by
  have i := (dynSys_correct m0).2 s a hr
  obtain ⟨c, hc, hc0⟩ := i.p.max16
  have hload := i.p.load
  have hlow := i.p.low16
  rcases dyn_step i hl e with ⟨h1, h2⟩ | ⟨_, h1, h2, h3⟩ | ⟨_, h1, h2, h3, h4⟩
  · exact ⟨by omega, fun _ => h2⟩
  · exact ⟨by omega, fun h => by omega⟩
  · exact ⟨by omega, fun h => by omega⟩

/-- The history that inserts `c` nodes: there are at most 16 buckets, or 4 for each element. -/
theorem dyn_path {N : Nat} (h : N < 2 ^ (bktBit - 1) - 1) : ∀ c, c ≤ N →
    ∃ s, (dynSys (pathMem N)).Reach s (pathAb N c) ∧ (s.tbl.bucketMax = 16 ∨ s.tbl.bucketMax ≤ 4 * c) := by
  intro c
  induction c with
  | zero =>
    intro _
    obtain ⟨t, m, e, i, hh⟩ := hashdynInit_spec (pathMem_ok h)
    refine ⟨⟨m, t⟩, .init ⟨pathMem_ok h, e, rfl, rfl⟩, Or.inl ?_⟩
    have := i.low16
    simpa using this
  | succ c ih =>
    intro hc
    obtain ⟨s, hr, hm⟩ := ih (by omega)
    obtain ⟨hcor, hinv⟩ := dynSys_correct (pathMem N)
    have hleg := pathInsert_legal (N := N) (c := c) (by omega)
    obtain ⟨out, s', e, _⟩ := hcor s _ hr (pathInsert c) hleg
    have hr' := Sys.Reach.step (sys := dynSys (pathMem N)) (op := pathInsert c) hr hleg e
    have hd := dyn_step (hinv _ _ hr) hleg e
    simp only [sys, next, pathInsert, pathAb] at hr'
    rw [← pathElems_succ] at hr'
    refine ⟨s', hr', ?_⟩
    simp only [pathAb, pathElems_length] at hd
    rcases hd with ⟨h1, _⟩ | ⟨_, h1, h2, _⟩ | ⟨ho, _⟩
    · omega
    · omega
    · rcases ho with ⟨_, _, ho, _⟩ | ⟨_, ho⟩ <;> simp [pathInsert] at ho

/-- **C57** The bound of a single call is linear indeed: for every power of two up to the limits of the address space,
    there is a history where the insert of the element number `2^k` does a work of `3 * 2^k`. -/
theorem C57_hashdyn_call_linear (k : Nat) (hk : 3 ≤ k) (hk' : k ≤ sizeBit - 7) :
    ∃ m0 s a p d h out s', StartOk m0 ∧ (sys hashdynImpl hashdynInit m0).Reach s a ∧ legal a (.insert p d h) ∧
      step hashdynImpl (.insert p d h) s = some (out, s') ∧ a.elems.length + 1 = 2 ^ k ∧
      s'.tbl.work = s.tbl.work + 3 * 2 ^ k := by
  have hp : 2 ^ k ≤ 2 ^ (sizeBit - 7) := Nat.pow_le_pow_right (by omega) hk'
  have h8 : 2 ^ 3 ≤ 2 ^ k := Nat.pow_le_pow_right (by omega) hk
  have hN : 2 ^ k < 2 ^ (bktBit - 1) - 1 := by arch
  obtain ⟨s, hr, hm⟩ := dyn_path hN (2 ^ k - 1) (by omega)
  obtain ⟨hcor, hinv⟩ := dynSys_correct (pathMem (2 ^ k))
  have hleg := pathInsert_legal (N := 2 ^ k) (c := 2 ^ k - 1) (by omega)
  obtain ⟨out, s', e, _⟩ := hcor s _ hr (pathInsert (2 ^ k - 1)) hleg
  have hr' := Sys.Reach.step (sys := dynSys (pathMem (2 ^ k))) (op := pathInsert (2 ^ k - 1)) hr hleg e
  have hd := dyn_step (hinv _ _ hr) hleg e
  have i := hinv _ _ hr
  have i' := hinv _ _ hr'
  have hload := i.p.load
  have hload' := i'.p.load
  simp only [sys, next, pathInsert, pathAb, List.length_append, List.length_singleton, pathElems_length] at hd hload hload'
  refine ⟨_, s, _, _, _, _, out, s', pathMem_ok hN, hr, hleg, e, ?_, ?_⟩
  · simp only [pathAb, pathElems_length]; omega
  · -- the number of buckets is a power of two between 2 (2^k - 1) and 4 (2^k - 1)
    have hmax : s.tbl.bucketMax = 2 * 2 ^ k := by
      obtain ⟨b, hb⟩ : ∃ b, s.tbl.bucketMax = 2 ^ b := ⟨_, i.p.max⟩
      rcases hm with hm | hm
      · have : k < 4 := by
          by_contra hc
          have : 2 ^ 4 ≤ 2 ^ k := Nat.pow_le_pow_right (by omega) (by omega)
          omega
        obtain rfl : k = 3 := by omega
        exact hm
      · have h1 : 2 ^ k < 2 ^ b := by omega
        have h2 : 2 ^ b < 2 ^ (k + 2) := by rw [Nat.pow_add]; omega
        have h3 : k < b := bit_of_lt h1
        have h4 : b < k + 2 := bit_of_lt h2
        obtain rfl : b = k + 1 := by omega
        rw [hb, Nat.pow_succ]; omega
    rcases hd with ⟨h1, _⟩ | ⟨_, h1, h2, h3⟩ | ⟨ho, _⟩
    · omega
    · rw [h3]; omega
    · rcases ho with ⟨_, _, ho, _⟩ | ⟨_, ho⟩ <;> simp at ho

/-- **C58** The total number of nodes moved by the splits of `tommy_hashlin` in any history is at most 4 for each insert
    and 1 for each remove. -/
theorem C58_hashlin_moved (m0 : Mem) (s a n) (hr : (sys hashlinImpl hashlinInit m0).ReachCost movedCost s a n) :
    s.tbl.moved ≤ n := by
  have := lin_moved hr
  omega

/-- **C58** A single call can move all the nodes: for every power of two up to the limits of the address space, there is
    a history where the insert of the element number `2^k + 1` moves all the `2^k + 1` nodes, because they have the same
    hash. -/
theorem C58_hashlin_call_linear (k : Nat) (hk : 6 ≤ k) (hk' : k ≤ sizeBit - 7) :
    ∃ m0 s a p d h out s', StartOk m0 ∧ (sys hashlinImpl hashlinInit m0).Reach s a ∧ legal a (.insert p d h) ∧
      step hashlinImpl (.insert p d h) s = some (out, s') ∧ a.elems.length = 2 ^ k ∧
      s'.tbl.moved = s.tbl.moved + (2 ^ k + 1) := by
  have hp : 2 ^ k ≤ 2 ^ (sizeBit - 7) := Nat.pow_le_pow_right (by omega) hk'
  have h64 : 2 ^ 6 ≤ 2 ^ k := Nat.pow_le_pow_right (by omega) hk
  have hN : 2 ^ k + 1 < 2 ^ (bktBit - 1) - 1 := by arch
  obtain ⟨w, s, hr, hn⟩ := LQ.full hN (k + 1) (by omega) (show 2 ^ k ≤ 2 ^ k + 1 by omega)
  simp only [Nat.add_sub_cancel] at hr hn
  have hleg := pathInsert_legal (N := 2 ^ k + 1) (c := 2 ^ k) (by omega)
  obtain ⟨s', e, hr', hn'⟩ := path_insert (N := 2 ^ k + 1) (c := 2 ^ k) (by omega) hr
  have i := (linSys_correct _).2 _ _ hr
  have i' := (linSys_correct _).2 _ _ hr'
  have hm := (lin_step_num i hleg e).2
  have hst : s.tbl.state = .stable := congrArg Num.state hn
  have hct : s.tbl.count = 2 ^ k := congrArg Num.count hn
  have hbt : s.tbl.bucketBit = k + 1 := congrArg Num.bit hn
  have hp2 : 2 ^ (k + 1) = 2 * 2 ^ k := by rw [Nat.pow_succ]; omega
  have hmax : s.tbl.bucketMax = 2 * 2 ^ k := by rw [i.p.max, hbt, hp2]
  refine ⟨_, s, _, _, _, _, _, s', pathMem_ok hN, hr, hleg, e, pathElems_length _, ?_⟩
  simp only [pathInsert] at hm
  rw [if_pos ⟨hst, by omega⟩] at hm
  have hlt : ¬ (2 ^ (k + 1) - 0 ≤ 2 * (2 ^ k + 1) - (2 ^ (k + 1) + 0)) := by omega
  have hfire : 2 ^ k + 1 > 2 ^ (k + 1) / 2 := by omega
  rw [hn] at hn'
  simp only [Num.insert, Num.growStep, Num.growStart, Num.growTo, Num.low, ne_eq, reduceCtorEq, not_false_eq_true,
    hfire, and_self, if_true, if_false, Nat.add_sub_cancel, hlt] at hn'
  have hst' : s'.tbl.state = .grow := congrArg Num.state hn'
  have hsp' : s'.tbl.split = 0 + (2 * (2 ^ k + 1) - (2 ^ (k + 1) + 0)) := congrArg Num.split hn'
  have h0 : pend s'.tbl ((pathAb (2 ^ k + 1) (2 ^ k)).elems ++ [⟨(nodeSize * (2 ^ k + 1) : Nat), 0, 0⟩]) = 0 := by
    simp only [pathAb]
    rw [← pathElems_succ]
    simp only [pend, hst']
    rw [List.length_eq_zero_iff, List.filter_eq_nil_iff]
    intro x hx
    simp only [pathElems, List.mem_map] at hx
    obtain ⟨j, _, rfl⟩ := hx
    have hpos : s'.tbl.split ≠ 0 := by omega
    simp [hpos]
  rw [h0] at hm
  simp only [pathAb, pathElems_length] at hm
  exact hm

/-- C57: an insert that does a work of 24. -/
example : ∃ m0 s a p d h out s', StartOk m0 ∧ (sys hashdynImpl hashdynInit m0).Reach s a ∧ legal a (.insert p d h) ∧
      step hashdynImpl (.insert p d h) s = some (out, s') ∧ a.elems.length + 1 = 8 ∧ s'.tbl.work = s.tbl.work + 24 :=
  C57_hashdyn_call_linear 3 (by omega) (by arch)

/-- C57: a history with a total cost of 6. -/
example : ∃ s a, (sys hashdynImpl hashdynInit (pathMem 5)).ReachCost dynCost s a 6 := by
  obtain ⟨t, m, e, i, hh⟩ := hashdynInit_spec (pathMem_ok (N := 5) (by arch))
  have hr := Sys.ReachCost.init (sys := dynSys (pathMem 5)) (cost := dynCost) (s := ⟨m, t⟩) (a := pathAb 5 0)
    ⟨pathMem_ok (by arch), e, rfl, rfl⟩
  have hleg := pathInsert_legal (N := 5) (c := 0) (by omega)
  obtain ⟨out, s', e', _⟩ := (dynSys_correct (pathMem 5)).1 _ _ hr.reach (pathInsert 0) hleg
  exact ⟨_, _, Sys.ReachCost.step (op := pathInsert 0) hr hleg e'⟩

/-- C58: an insert that moves 65 nodes. -/
example : ∃ m0 s a p d h out s', StartOk m0 ∧ (sys hashlinImpl hashlinInit m0).Reach s a ∧ legal a (.insert p d h) ∧
      step hashlinImpl (.insert p d h) s = some (out, s') ∧ a.elems.length = 64 ∧ s'.tbl.moved = s.tbl.moved + 65 :=
  C58_hashlin_call_linear 6 (by omega) (by arch)

end Tommy
