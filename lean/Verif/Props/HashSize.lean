import Verif.Proof.HashSize
/-
  C67, C68: when the dynamic hashtables are resized.
-/
set_option autoImplicit false
namespace Tommy

variable [Arch]
open HashSpec

/-- **C67** A `tommy_hashdyn` starts with 16 buckets. -/
theorem C67_hashdyn_start (m0 : Mem) (s a) (hi : (sys hashdynImpl hashdynInit m0).init s a) : s.tbl.bucketMax = 16 := by
  have := ((dynSys_correct m0).2 s a (.init hi)).p.low16
  have ha : a.elems = [] := hi.2.2.1
  rw [ha] at this
  simpa using this

/-- **C67** The number of buckets of a `tommy_hashdyn` after any call in any history. -/
theorem C67_hashdyn_size (m0 : Mem) (s a) (hr : (sys hashdynImpl hashdynInit m0).Reach s a) (op : Op)
    (hl : legal a op) (out s') (e : step hashdynImpl op s = some (out, s')) :
    s'.tbl.bucketMax = dynSize s.tbl.bucketMax a.elems.length (next a op out).elems.length :=
  dyn_size hr hl e

/-- **C67** The size of a new `tommy_hashlin`. -/
theorem C67_hashlin_start (m0 : Mem) (s a) (hi : (sys hashlinImpl hashlinInit m0).init s a) :
    linSize s.tbl = ⟨64, 64, .stable⟩ := by
  obtain ⟨h0, e, -⟩ := id hi
  have i := (linSys_correct m0).2 s a (.init hi)
  rw [linSize_num i.p]
  obtain ⟨t, m, e1, _, _, hn, _⟩ := hashlinInit_spec h0
  rw [e] at e1
  simp only [Option.some.injEq, Prod.mk.injEq] at e1
  rw [e1.1, hn]
  rfl

/-- **C67** The size of a `tommy_hashlin` after any call in any history. -/
theorem C67_hashlin_size (m0 : Mem) (s a) (hr : (sys hashlinImpl hashlinInit m0).Reach s a) (op : Op)
    (hl : legal a op) (out s') (e : step hashlinImpl op s = some (out, s')) :
    linSize s'.tbl = (linSize s.tbl).next a.elems.length (next a op out).elems.length :=
  lin_size hr hl e

/-- **C67** What the fields of the sizes are for the memory: the vectors allocated by the table have this number of cells in
    total, and memory_usage() tells it. -/
theorem C67_memory (m0 : Mem) :
    (∀ s a, (sys hashdynImpl hashdynInit m0).Reach s a → (∃ vs, NewVecs m0 s.mem vs ∧ cellCount s.mem vs = s.tbl.bucketMax) ∧
      hashdynMemoryUsage s.tbl = (ptrSize * s.tbl.bucketMax + nodeSize * a.elems.length) % 2 ^ sizeBit) ∧
    (∀ s a, (sys hashlinImpl hashlinInit m0).Reach s a → (∃ vs, NewVecs m0 s.mem vs ∧ cellCount s.mem vs = (linSize s.tbl).size) ∧
      hashlinMemoryUsage s.tbl = (ptrSize * (linSize s.tbl).size + nodeSize * a.elems.length) % 2 ^ sizeBit) := by
  refine ⟨fun s a hr => ?_, fun s a hr => ?_⟩
  · have i := ((dynSys_correct m0).2 s a hr).p
    refine ⟨⟨_, i.flat.vecs⟩, ?_⟩
    rw [hashdynMemoryUsage, hashdynCount, i.count, sizeT, Nat.mul_comm ptrSize, Nat.mul_comm nodeSize]
  · have i := ((linSys_correct m0).2 s a hr).p
    obtain ⟨vs, sg⟩ := i.segs
    refine ⟨⟨_, (sg.vecs i.bit).1, ?_⟩, ?_⟩
    · rw [(sg.vecs i.bit).2]; exact i.max.symm
    · rw [hashlinMemoryUsage, i.count, sizeT, Nat.mul_comm ptrSize, Nat.mul_comm nodeSize]; rfl

/-! ### The documented thresholds -/

/-- What tommyhashdyn.h:31-33 says: the size is doubled with a load factor greater than 0.5, and halved with one lower than 0.125. -/
def docSize (b n n' : Nat) : Nat :=
  if n < n' ∧ b < 2 * n' then 2 * b
  else if n' < n ∧ 8 * n' < b ∧ 16 < b then b / 2
  else b

/-- In a history of `tommy_hashdyn` there are `c` elements and `b` buckets. -/
def DynAt (c b : Nat) : Prop := ∃ s, (dynSys (pathMem 8)).Reach s (pathAb 8 c) ∧ s.tbl.bucketMax = b

theorem DynAt.insert {c b : Nat} (hc : c < 8) (h : DynAt c b) : DynAt (c + 1) (dynSize b c (c + 1)) ∧
    ∃ s p d h out s', (dynSys (pathMem 8)).Reach s (pathAb 8 c) ∧ s.tbl.bucketMax = b ∧ legal (pathAb 8 c) (.insert p d h) ∧
      step hashdynImpl (.insert p d h) s = some (out, s') ∧ s'.tbl.bucketMax = dynSize b c (c + 1) := by
  obtain ⟨s, hr, rfl⟩ := h
  have hleg := pathInsert_legal (N := 8) hc
  obtain ⟨out, s', e, _⟩ := (dynSys_correct (pathMem 8)).1 s _ hr (pathInsert c) hleg
  have hr' := Sys.Reach.step (sys := dynSys (pathMem 8)) (op := pathInsert c) hr hleg e
  have hs := dyn_size hr hleg e
  simp only [sys, next, pathInsert, pathAb] at hr' hs
  rw [← pathElems_succ] at hr' hs
  simp only [pathElems_length] at hs
  exact ⟨⟨s', hr', hs⟩, s, _, _, _, out, s', hr, rfl, hleg, e, hs⟩

theorem DynAt.remove {c b : Nat} (h : DynAt (c + 1) b) : DynAt c (dynSize b (c + 1) c) ∧
    ∃ s p out s', (dynSys (pathMem 8)).Reach s (pathAb 8 (c + 1)) ∧ s.tbl.bucketMax = b ∧ legal (pathAb 8 (c + 1)) (.removeExisting p) ∧
      step hashdynImpl (.removeExisting p) s = some (out, s') ∧ s'.tbl.bucketMax = dynSize b (c + 1) c := by
  obtain ⟨s, hr, rfl⟩ := h
  have he : (⟨nodeSize * (c + 1), 0, 0⟩ : Elem) ∈ (pathAb 8 (c + 1)).elems := by simp [pathAb, pathElems_succ]
  have hleg : legal (pathAb 8 (c + 1)) (.removeExisting (nodeSize * (c + 1) : Nat)) := List.mem_map_of_mem he
  obtain ⟨out, s', e, _⟩ := (dynSys_correct (pathMem 8)).1 s _ hr (.removeExisting (nodeSize * (c + 1) : Nat)) hleg
  have hr' := Sys.Reach.step (sys := dynSys (pathMem 8)) (op := .removeExisting (nodeSize * (c + 1) : Nat)) hr hleg e
  have hs := dyn_size hr hleg e
  have hf : (pathElems (c + 1)).filter (fun e => e.node ≠ (nodeSize * (c + 1) : Nat)) = pathElems c := by
    rw [pathElems_succ, List.filter_append]
    have h1 : (pathElems c).filter (fun e => e.node ≠ (nodeSize * (c + 1) : Nat)) = pathElems c := by
      rw [List.filter_eq_self]
      intro x hx
      have : x.node ≠ (nodeSize * (c + 1) : Nat) := fun h => pathElems_not_mem c (h ▸ List.mem_map_of_mem hx)
      simpa using this
    rw [h1]; simp
  simp only [sys, next, pathAb] at hr' hs
  rw [hf] at hr' hs
  simp only [pathElems_length] at hs
  exact ⟨⟨s', hr', hs⟩, s, _, out, s', hr, rfl, hleg, e, hs⟩

theorem dynAt_small : ∀ c, c < 8 → DynAt c 16 := by
  intro c
  induction c with
  | zero =>
    intro _
    obtain ⟨t, m, e, _, _⟩ := hashdynInit_spec (pathMem_ok (N := 8) (by arch))
    have hi : (dynSys (pathMem 8)).init ⟨m, t⟩ (pathAb 8 0) := ⟨pathMem_ok (by arch), e, rfl, rfl⟩
    exact ⟨⟨m, t⟩, .init hi, C67_hashdyn_start _ _ _ hi⟩
  | succ c ih =>
    intro hc
    have := ((ih (by omega)).insert (by omega)).1
    rwa [dynSize, if_neg (by omega), if_neg (by omega)] at this

/-- **C68** is false: with 16 buckets the insert of the element number 8 doubles the table, and the load factor is exactly 0.5. -/
theorem C68_doubles_at_half_false : ∃ m0 s a p d h out s', StartOk m0 ∧ (sys hashdynImpl hashdynInit m0).Reach s a ∧
    legal a (.insert p d h) ∧ step hashdynImpl (.insert p d h) s = some (out, s') ∧
    s.tbl.bucketMax = 16 ∧ a.elems.length = 7 ∧ s'.tbl.bucketMax = 32 ∧ docSize 16 7 8 = 16 := by
  obtain ⟨_, s, p, d, h, out, s', hr, hb, hl, e, hs⟩ := (dynAt_small 7 (by omega)).insert (by omega)
  exact ⟨_, s, _, p, d, h, out, s', pathMem_ok (by arch), hr, hl, e, hb, pathElems_length 7, hs, by decide⟩

/-- **C68** is false: with 32 buckets the remove that leaves 4 elements halves the table, and the load factor is exactly 0.125. -/
theorem C68_halves_at_eighth_false : ∃ m0 s a p out s', StartOk m0 ∧ (sys hashdynImpl hashdynInit m0).Reach s a ∧
    legal a (.removeExisting p) ∧ step hashdynImpl (.removeExisting p) s = some (out, s') ∧
    s.tbl.bucketMax = 32 ∧ a.elems.length = 5 ∧ s'.tbl.bucketMax = 16 ∧ docSize 32 5 4 = 32 := by
  have h8 : DynAt 8 32 := ((dynAt_small 7 (by omega)).insert (by omega)).1
  have h7 : DynAt 7 32 := h8.remove.1
  have h6 : DynAt 6 32 := h7.remove.1
  have h5 : DynAt 5 32 := h6.remove.1
  obtain ⟨_, s, p, out, s', hr, hb, hl, e, hs⟩ := h5.remove
  exact ⟨_, s, _, p, out, s', pathMem_ok (by arch), hr, hl, e, hb, pathElems_length 5, hs, by decide⟩

/-- **C68** is false: a `tommy_hashlin` never starts with the 16 buckets of tommyhashlin.h:34. -/
theorem C68_hashlin_start_false (m0 : Mem) (h0 : StartOk m0) : (∃ s a, (sys hashlinImpl hashlinInit m0).init s a) ∧
    ∀ s a, (sys hashlinImpl hashlinInit m0).init s a → s.tbl.bucketMax ≠ 16 := by
  refine ⟨?_, fun s a hi h => ?_⟩
  · obtain ⟨t, m, e, _⟩ := hashlinInit_spec h0
    exact ⟨⟨m, t⟩, ⟨[], m0.heap.valid⟩, h0, e, rfl, rfl⟩
  · have := congrArg LinSize.size (C67_hashlin_start m0 s a hi)
    simp only [linSize] at this
    omega

/-- **C68** for `tommy_hashdyn` when the load factor after the call is not exactly 0.5 or 0.125. Missing from the full property: these
    two values, where it is false. -/
theorem C68_hashdyn_partial (m0 : Mem) (s a) (hr : (sys hashdynImpl hashdynInit m0).Reach s a) (op : Op)
    (hl : legal a op) (out s') (e : step hashdynImpl op s = some (out, s'))
    (h2 : 2 * (next a op out).elems.length ≠ s.tbl.bucketMax) (h8 : 8 * (next a op out).elems.length ≠ s.tbl.bucketMax) :
    s'.tbl.bucketMax = docSize s.tbl.bucketMax a.elems.length (next a op out).elems.length := by
  rw [dyn_size hr hl e]
  unfold dynSize docSize
  split_ifs <;> omega

/-- **C68** for a `tommy_hashlin` that is not changing its size: the doubling starts with a load factor greater than 0.5, and the
    halving with one lower than 0.125, as documented. Missing from the full property: the initial size, and the tables that are
    already changing size. -/
theorem C68_hashlin_partial (m0 : Mem) (s a) (hr : (sys hashlinImpl hashlinInit m0).Reach s a) (op : Op)
    (hl : legal a op) (out s') (e : step hashlinImpl op s = some (out, s')) (hst : s.tbl.state = .stable) :
    (s'.tbl.state = .grow ↔ a.elems.length < (next a op out).elems.length ∧ s.tbl.bucketMax < 2 * (next a op out).elems.length) ∧
    (s'.tbl.state = .grow → s'.tbl.bucketMax = 2 * s.tbl.bucketMax) ∧
    (s'.tbl.state = .shrink ↔ (next a op out).elems.length < a.elems.length ∧ 8 * (next a op out).elems.length < s.tbl.bucketMax ∧
      64 < s.tbl.bucketMax) ∧
    (s'.tbl.state ≠ .grow → s'.tbl.bucketMax = s.tbl.bucketMax) := by
  have h := lin_size hr hl e
  have l1 := ((linSys_correct m0).2 _ _ hr).p.num.stable hst
  have hc : (Hashlin.num s.tbl).count = a.elems.length := ((linSys_correct m0).2 _ _ hr).p.count
  have hb : 2 ^ (Hashlin.num s.tbl).bit = s.tbl.bucketMax := ((linSys_correct m0).2 _ _ hr).p.max.symm
  have hg : 6 ≤ (Hashlin.num s.tbl).bit := ((linSys_correct m0).2 _ _ hr).p.bit
  obtain ⟨x, hx, hx0⟩ := pow_64 hg
  rw [hb] at hx
  rw [hb, hc] at l1
  have hsmall : (Hashlin.num s.tbl).bit = 6 → s.tbl.bucketMax = 64 := fun h6 => by rw [← hb, h6]; rfl
  have hnext := length_next_lin ((linSys_correct m0).2 _ _ hr) hl out
  have hlen : (next a op out).elems.length ≤ a.elems.length + 1 ∧ a.elems.length ≤ (next a op out).elems.length + 1 := by
    rw [hnext]
    cases op <;> simp only <;> (try split) <;> omega
  have hm : s'.tbl.bucketMax = (linSize s'.tbl).size := rfl
  have hs : s'.tbl.state = (linSize s'.tbl).mode := rfl
  rw [hm, hs, h]
  simp only [LinSize.next, linSize, hst, LinSize.grow, LinSize.shrink, ne_eq, reduceCtorEq, not_false_eq_true, true_and, if_true]
  clear hnext h hm hs
  generalize (next a op out).elems.length = n' at *
  split_ifs <;> simp_all <;> omega

/-! ### Non vacuity -/

/-- C67: the law of `tommy_hashdyn` on some sizes. -/
example : dynSize 16 6 7 = 16 ∧ dynSize 16 7 8 = 32 ∧ dynSize 32 8 9 = 32 ∧ dynSize 32 6 5 = 32 ∧ dynSize 32 5 4 = 16 ∧ dynSize 16 1 0 = 16 ∧
    dynSize 64 8 8 = 64 := by decide

/-- C67: the law of `tommy_hashlin` on some sizes: a growth, its end, a shrink, its change of direction, its end. -/
example : (⟨64, 64, .stable⟩ : LinSize).next 32 33 = ⟨128, 66, .grow⟩ ∧ (⟨128, 126, .grow⟩ : LinSize).next 63 64 = ⟨128, 128, .stable⟩ ∧
    (⟨128, 128, .stable⟩ : LinSize).next 16 15 = ⟨128, 120, .shrink⟩ ∧ (⟨128, 72, .shrink⟩ : LinSize).next 64 65 = ⟨128, 128, .stable⟩ ∧
    (⟨128, 72, .shrink⟩ : LinSize).next 9 8 = ⟨64, 64, .stable⟩ ∧ (⟨64, 64, .stable⟩ : LinSize).next 1 0 = ⟨64, 64, .stable⟩ := by decide

/-- C67: a history where the table has grown and shrunk. -/
example : ∃ s a, (sys hashdynImpl hashdynInit (pathMem 8)).Reach s a ∧ a.elems.length = 5 ∧ s.tbl.bucketMax = 32 := by
  have h8 : DynAt 8 32 := ((dynAt_small 7 (by omega)).insert (by omega)).1
  have h7 : DynAt 7 32 := h8.remove.1
  have h6 : DynAt 6 32 := h7.remove.1
  obtain ⟨s, hr, hb⟩ : DynAt 5 32 := h6.remove.1
  exact ⟨s, _, hr, pathElems_length 5, hb⟩

/-- C67, C68: a stable table of `tommy_hashlin` and the insert that starts the doubling. -/
example : ∃ m0 s a p d h out s', StartOk m0 ∧ (sys hashlinImpl hashlinInit m0).Reach s a ∧ legal a (.insert p d h) ∧
    step hashlinImpl (.insert p d h) s = some (out, s') ∧ s.tbl.state = .stable ∧ linSize s.tbl = ⟨64, 64, .stable⟩ ∧
    linSize s'.tbl = ⟨128, 66, .grow⟩ := by
  have hN : 33 < 2 ^ (bktBit - 1) - 1 := by arch
  obtain ⟨w, s, hr, hn⟩ := LQ.small hN 32 (by omega) (by omega)
  have hleg := pathInsert_legal (N := 33) (c := 32) (by omega)
  obtain ⟨s', e, hr', hn'⟩ := path_insert (N := 33) (c := 32) (by omega) hr
  have i := (linSys_correct _).2 _ _ hr
  have i' := (linSys_correct _).2 _ _ hr'
  refine ⟨_, s, _, _, _, _, _, s', pathMem_ok hN, hr, hleg, e, congrArg Num.state hn, ?_, ?_⟩
  · rw [linSize_num i.p, hn]; rfl
  · rw [linSize_num i'.p, hn', Num.insert_size i.p.num, hn]; rfl

end Tommy
