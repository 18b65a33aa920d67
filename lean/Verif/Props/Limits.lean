import Verif.Props.Hash
import Verif.Props.Bits
import Verif.Props.Array
import Verif.Props.Alloc
/-!
  The properties C08, C14, C23, C24, C27 in their full extent are false: the negations, and the true parts.
-/
set_option linter.unusedSimpArgs false
set_option autoImplicit false
namespace Tommy

variable [Arch]

section Hash
open HashSpec

theorem big_roundup {n : Nat} (hn : maxBuckets < n) (hn' : n < 2 ^ sizeBit) : ∃ j, roundupPow2 n = 2 ^ (bktBit + 1) * j := by
  rw [maxBuckets_eq] at hn
  have hsz : 2 ^ sizeBit = 2 ^ (bktBit + 1) * ptrSize := by arch
  rw [roundupPow2_spec (by arch) hn']
  have h61 : bktBit + 1 ≤ (n - 1).log2 + 1 := by
    have : bktBit ≤ (n - 1).log2 := (Nat.le_log2 (by arch)).2 (by omega)
    omega
  obtain ⟨c, hc⟩ := Nat.exists_eq_add_of_le h61
  rw [hc, Nat.pow_add _ (bktBit + 1)]
  exact ⟨2 ^ c % ptrSize, by rw [hsz, Nat.mul_mod_mul_left]⟩

/-- **C08** is false for every initial size over 2^60: the table is created, and the search is an access out of bounds. -/
theorem C08_hashtable_false (n : Nat) (hn : maxBuckets < n) (hn' : n < 2 ^ sizeBit) (m0 : Mem) (h0 : StartOk m0) :
    (∃ s a, (sys hashtableImpl (hashtableInit n) m0).init s a) ∧
    ¬ (sys hashtableImpl (hashtableInit n) m0).Correct := by
  obtain ⟨t, m, e, _, hs⟩ := C18_init_buckets_false n hn hn' m0
  have hi : (sys hashtableImpl (hashtableInit n) m0).init ⟨m, t⟩ ⟨[], m0.heap.valid⟩ := ⟨h0, e, rfl, rfl⟩
  refine ⟨⟨_, _, hi⟩, fun hc => ?_⟩
  obtain ⟨out, s', e', _⟩ := hc _ _ (.init hi) (.search (fun _ => 0) 0) trivial
  have hz : hashtableImpl.search t (fun _ => 0) 0 m = none := hs _ _
  simp only [sys, step, hz, Option.map_none] at e'
  cases e'

/-- **C08** up to 2^60 buckets. Missing from the full property: the bigger sizes, where it is false. -/
theorem C08_hashtable_partial (n : Nat) (hn : n ≤ maxBuckets) (m0 : Mem) (h0 : StartOk m0) :
    (∃ s a, (sys hashtableImpl (hashtableInit n) m0).init s a) ∧
    (sys hashtableImpl (hashtableInit n) m0).Correct := C08_hashtable n hn m0 h0

/-- **C14** is false: the elements can be more than half of `bucket_max`. -/
theorem C14_hashlin_load_false : ¬ ∀ m0 s a, StartOk m0 → (sys hashlinImpl hashlinInit m0).Reach s a →
    2 * a.elems.length ≤ s.tbl.bucketMax := by
  intro h
  obtain ⟨m0, s, a, h0, hr, _, _, h2⟩ := C14_hashlin_load_tight 6 (by omega) (by arch)
  have := h m0 s a h0 hr
  omega

/-- **C14** with half of `bucket_max` plus one. Missing from the full property: that one element. -/
theorem C14_hashlin_load_partial (m0 : Mem) (s a) (hr : (sys hashlinImpl hashlinInit m0).Reach s a) :
    2 * a.elems.length ≤ s.tbl.bucketMax + 2 ∧ a.elems.length ≤ s.tbl.lowMax + s.tbl.split ∧
    (s.tbl.state ≠ .shrink → s.tbl.bucketMax = 64 ∨ s.tbl.bucketMax ≤ 8 * a.elems.length) := by
  obtain ⟨h1, h2, _, _, h5⟩ := C14_hashlin_load m0 s a hr
  exact ⟨h1, h2, h5⟩

/-- A table of more than 2^60 buckets after any history: as no bucket can be accessed, it is still empty. -/
structure Dead (m0 : Mem) (s : St Hashtable) (a : Ab) : Prop where
  start : StartOk m0
  elems : a.elems = []
  bucket : s.tbl.bucket = ⟨m0.vnext, 0⟩
  max : ∃ j, s.tbl.bucketMax = 2 ^ (bktBit + 1) * j
  count : s.tbl.count = 0
  vlen : s.mem.vlen = upd m0.vlen m0.vnext (some 0)
  vcell : ∀ v, v ≠ m0.vnext → s.mem.vcell v = m0.vcell v

theorem Dead.cell {m0 : Mem} {s : St Hashtable} {a : Ab} (h : Dead m0 s a) (pos : Nat) :
    s.mem.cell? (s.tbl.bucket.add pos) = none := by
  simp [Mem.cell?, Ref.add, h.bucket, h.vlen]

theorem Dead.read {m0 : Mem} {s : St Hashtable} {a : Ab} (h : Dead m0 s a) (pos : Nat) :
    readRef (s.tbl.bucket.add pos) s.mem = none := by
  simp [readRef, h.cell pos]

/-- The only calls that return are the ones that do not access a bucket. -/
theorem Dead.call {m0 : Mem} {s s' : St Hashtable} {a : Ab} (h : Dead m0 s a) {op : Op} {out : Out} (hl : legal a op)
    (hc : isCall op) (e : step hashtableImpl op s = some (out, s')) : op = .count ∧ s' = s := by
  cases op with
  | insert p d k =>
    simp [step, hashtableImpl, hashtableInsert, run_bind, cellInsertTail, h.read] at e
  | remove cmp k => simp [step, hashtableImpl, hashtableRemove, run_bind, h.read] at e
  | removeExisting p =>
    simp [legal, Ab.stored, h.elems] at hl
  | search cmp k => simp [step, hashtableImpl, hashtableSearch, hashtableBucket, run_bind, h.read] at e
  | bucket k => simp [step, walkBucket, hashtableImpl, hashtableBucket, run_bind, h.read] at e
  | count =>
    simp only [step, Option.some.injEq, Prod.mk.injEq] at e
    exact ⟨rfl, e.2.symm⟩
  | alloc p => cases hc
  | free p => cases hc
  | scribble p _ _ _ _ => cases hc

theorem dead_reach {n : Nat} (hn : maxBuckets < n) (hn' : n < 2 ^ sizeBit) {m0 : Mem} {s a}
    (hr : (sys hashtableImpl (hashtableInit n) m0).Reach s a) : Dead m0 s a := by
  induction hr with
  | @init s a hi =>
    obtain ⟨h0, e, h1, _⟩ := hi
    have hb : ∃ j, roundupPow2 n = 2 ^ (bktBit + 1) * j := big_roundup hn hn'
    obtain ⟨j, hj⟩ := hb
    have hr := hashtableInit_run n m0
    have h16 : ¬ n < 16 := by rw [maxBuckets_eq] at hn; arch
    simp only [h16, if_false, hj] at hr
    have hz : sizeT (2 ^ (bktBit + 1) * j * ptrSize) / ptrSize = 0 := by unfold sizeT; arch
    rw [hz, e] at hr
    simp only [Option.some.injEq, Prod.mk.injEq] at hr
    obtain ⟨e1, e2⟩ := hr
    refine ⟨h0, h1, by rw [e1], ⟨j, by rw [e1]⟩, by rw [e1], by rw [e2], fun v hv => ?_⟩
    rw [e2]
    simp only [upd_ne hv]
  | @step s a op out s' hr hl e ih =>
    by_cases hc : isCall op
    · obtain ⟨rfl, rfl⟩ := ih.call hl hc e
      exact ⟨ih.start, ih.elems, ih.bucket, ih.max, ih.count, ih.vlen, ih.vcell⟩
    · cases op <;> first
        | exact absurd trivial hc
        | (simp only [sys, step, Option.some.injEq, Prod.mk.injEq] at e
           obtain ⟨-, rfl⟩ := e
           exact ⟨ih.start, ih.elems, ih.bucket, ih.max, ih.count, ih.vlen, ih.vcell⟩)

theorem dead_max {n : Nat} (hn : maxBuckets < n) (hn' : n ≤ 2 ^ (sizeBit - 1)) {m0 : Mem} {s a}
    (hr : (sys hashtableImpl (hashtableInit n) m0).Reach s a) : 0 < s.tbl.bucketMax := by
  induction hr with
  | @init s a hi =>
    obtain ⟨h0, e, h1, _⟩ := hi
    have hr := hashtableInit_run n m0
    have h16 : ¬ n < 16 := by rw [maxBuckets_eq] at hn; arch
    simp only [h16, if_false] at hr
    rw [e] at hr
    simp only [Option.some.injEq, Prod.mk.injEq] at hr
    rw [hr.1]
    show 0 < roundupPow2 n
    obtain ⟨k, hk, _⟩ := C46_roundup n (by omega) hn'
    rw [hk]; exact Nat.two_pow_pos _
  | @step s a op out s' hr hl e ih =>
    by_cases hc : isCall op
    · obtain ⟨rfl, rfl⟩ := (dead_reach hn (by arch) hr).call hl hc e
      exact ih
    · cases op <;> first
        | exact absurd trivial hc
        | (simp only [sys, step, Option.some.injEq, Prod.mk.injEq] at e
           obtain ⟨-, rfl⟩ := e
           exact ih)

theorem Dead.keep {m0 : Mem} {s : St Hashtable} {a : Ab} (h : Dead m0 s a) (r : Ref) (p : Nat) (hc : m0.cell? r = some p) :
    s.mem.cell? r = some p := by
  have hv : r.vec ≠ m0.vnext := by
    rintro e
    have := h.start.2 m0.vnext (Nat.le_refl _)
    simp [Mem.cell?, e, this] at hc
  simpa [Mem.cell?, h.vlen, upd_ne hv, h.vcell _ hv] using hc

/-- **C17** for `tommy_hashtable`, with any initial size. -/
theorem C17_done_hashtable (n : Nat) (hn : n < 2 ^ sizeBit) (m0 : Mem) (s a)
    (hr : (sys hashtableImpl (hashtableInit n) m0).Reach s a) : DoneOk hashtableImpl m0 s := by
  rcases Nat.lt_or_ge maxBuckets n with h | h
  · have d := dead_reach h hn hr
    refine ⟨{ s.mem with vlen := upd s.mem.vlen m0.vnext none }, ?_, rfl, ?_, fun r p hp => ?_⟩
    · simp [hashtableImpl, hashtableDone, vfree, d.bucket, d.vlen]
    · funext v
      simp only [d.vlen, upd]
      split
      · rename_i hv
        rw [hv]; exact (d.start.2 _ (Nat.le_refl _)).symm
      · rfl
    · have hv : r.vec ≠ m0.vnext := by
        intro e
        simp [Mem.cell?, e, d.start.2 m0.vnext (Nat.le_refl _)] at hp
      simpa [Mem.cell?, d.vlen, upd_ne hv, d.vcell _ hv] using hp
  · exact C17_done_hashtable_partial n h m0 s a hr

/-- **C48** for `tommy_hashtable`, with any initial size. -/
theorem C48_frame_hashtable (n : Nat) (hn : n < 2 ^ sizeBit) (m0 : Mem) (s a)
    (hr : (sys hashtableImpl (hashtableInit n) m0).Reach s a) (op : Op) (hl : legal a op) (hc : isCall op) (out s')
    (e : step hashtableImpl op s = some (out, s')) : FrameOk m0 s s' a op := by
  rcases Nat.lt_or_ge maxBuckets n with h | h
  · have d := dead_reach h hn hr
    obtain ⟨_, rfl⟩ := d.call hl hc e
    exact ⟨rfl, fun q _ => ⟨rfl, rfl, rfl, rfl⟩, d.keep⟩
  · exact C48_frame_hashtable_partial n h m0 s a hr op hl hc out s' e

/-- **C11** is false for a `tommy_hashtable` of more than 2^60 buckets, in every reachable state. -/
theorem C11_bucket_hashtable_false (n : Nat) (hn : maxBuckets < n) (hn' : n < 2 ^ sizeBit) (m0 : Mem) (s a)
    (hr : (sys hashtableImpl (hashtableInit n) m0).Reach s a) (h : Nat) : ¬ BucketOk hashtableImpl s a h := by
  rintro ⟨l, e, _⟩
  simp [walkBucket, hashtableImpl, hashtableBucket, run_bind, (dead_reach hn hn' hr).read] at e

/-- **C12** is false for a `tommy_hashtable` of more than 2^60 buckets: foreach reads a bucket out of bounds, for every
    callback. (Over 2^63 also the number of buckets wraps, to 0, and foreach does nothing.) -/
theorem C12_foreach_hashtable_false (n : Nat) (hn : maxBuckets < n) (hn' : n ≤ 2 ^ (sizeBit - 1)) (m0 : Mem) (s a)
    (hr : (sys hashtableImpl (hashtableInit n) m0).Reach s a) : (∀ func, hashtableImpl.foreach s.tbl func s.mem = none) ∧
    ¬ ForeachOk hashtableImpl s a := by
  have d := dead_reach hn (by arch) hr
  have hz : ∀ func, hashtableImpl.foreach s.tbl func s.mem = none := by
    intro func
    obtain ⟨k, hk⟩ : ∃ k, s.tbl.bucketMax = k + 1 := by
      have := dead_max hn hn' hr
      exact ⟨s.tbl.bucketMax - 1, by omega⟩
    have h0 := d.read 0
    simp only [hashtableImpl, hashtableForeach, hk, posForeachLoop, run_bind, run_pure, Option.bind_some]
    simp only [h0, Option.bind_none]
  refine ⟨hz, ?_⟩
  rintro ⟨L, hp, hf⟩
  rw [d.elems, List.perm_nil] at hp
  subst hp
  have := hf (fun _ => pure ()) (fun as x bs h => by simp at h)
  rw [hz] at this
  cases this

/-- **C49** for `tommy_hashtable`, with any initial size. Missing from the full property: it is modulo 2^64. -/
theorem C49_usage_hashtable_all_partial (n : Nat) (hn : n < 2 ^ sizeBit) (m0 : Mem) (s a)
    (hr : (sys hashtableImpl (hashtableInit n) m0).Reach s a) : UsageOk hashtableMemoryUsage m0 s a := by
  rcases Nat.lt_or_ge maxBuckets n with h | h
  · have d := dead_reach h hn hr
    obtain ⟨j, hj⟩ := d.max
    refine ⟨[m0.vnext], ⟨by simp, fun v => ?_⟩, ?_⟩
    · rw [List.mem_singleton]
      constructor
      · rintro rfl
        exact ⟨d.start.2 _ (Nat.le_refl _), by simp [d.vlen]⟩
      · rintro ⟨h1, h2⟩
        by_contra hv
        rw [d.vlen, upd_ne hv] at h2
        exact h2 h1
    · simp [hashtableMemoryUsage, hashtableCount, cellCount, d.count, d.vlen, d.elems, hj, sizeT]
      arch
  · exact C49_usage_hashtable_partial n h m0 s a hr

end Hash

section Array
open ArraySpec

/-- The number of blocks computed by grow when `count + 4096` overflows. -/
theorem blk_wrap {n : Nat} (hn : 2 ^ sizeBit - 4096 < n) (hn' : n < 2 ^ sizeBit) : decT (sizeT (n + 4096)) / 4096 = 0 := by
  unfold sizeT decT
  have : (n + 4096) % 2 ^ sizeBit = n + 4096 - 2 ^ sizeBit := by arch
  rw [this, if_neg (by omega)]
  omega

/-- **C23** is false for `count` over 2^64 - 4096: the number of blocks wraps to 0, grow() of an empty array allocates
    nothing and sets the size, and the access to an element fails, also to the first one. -/
theorem C23_arrayblk_false (n : Nat) (hn : 2 ^ sizeBit - 4096 < n) (hn' : n < 2 ^ sizeBit) (m0 : Mem) (h0 : StartOk m0) :
    ∃ t m t', arrayblkInit m0 = some (t, m) ∧ arrayblkGrow t n m = some (t', m) ∧ arrayblkSize t' = n ∧
      ∀ pos, arrayblkGet t' pos m = none := by
  obtain ⟨b, m, vs, e, h⟩ := arrayInit_run h0 ⟨0, fun _ _ => 0, fun v => (m0.vlen v).isSome⟩ rfl rfl rfl
  have hc : b.count = 0 := h.count
  have hw : decT (sizeT (n + arrayblkSIZE)) / arrayblkSIZE = 0 := blk_wrap hn hn'
  refine ⟨⟨b, 0⟩, m, ⟨b, n⟩, by simp only [arrayblkInit, StateT.bind, bind, e, Option.bind_some, pure, StateT.pure], ?_, rfl, fun pos => ?_⟩
  · have h1 : ¬ 0 ≥ n := by omega
    simp only [arrayblkGrow, h1, if_false, hw, Nat.not_lt_zero]
    rfl
  · simp only [arrayblkGet, arrayblkRef, arrayGet, arrayRef, assertM, bind, StateT.bind, hc, Nat.not_lt_zero, if_false]
    split <;> simp

/-- **C24** is false in the same way, for every element size. -/
theorem C24_arrayblkof_false (es n : Nat) (hn : 2 ^ sizeBit - 4096 < n) (hn' : n < 2 ^ sizeBit) (m0 : Mem) (h0 : StartOk m0) :
    ∃ t m t', arrayblkofInit es m0 = some (t, m) ∧ arrayblkofGrow t n m = some (t', m) ∧ arrayblkofSize t' = n ∧
      ∀ pos, arrayblkofRef t' pos m = none := by
  obtain ⟨b, m, vs, e, h⟩ := arrayInit_run h0 ⟨0, fun _ _ => 0, fun v => (m0.vlen v).isSome⟩ rfl rfl rfl
  have hc : b.count = 0 := h.count
  have hw : decT (sizeT (n + arrayblkofSIZE)) / arrayblkofSIZE = 0 := blk_wrap hn hn'
  refine ⟨⟨b, es, 0⟩, m, ⟨b, es, n⟩, by simp only [arrayblkofInit, StateT.bind, bind, e, Option.bind_some, pure, StateT.pure], ?_, rfl, fun pos => ?_⟩
  · have h1 : ¬ 0 ≥ n := by omega
    simp only [arrayblkofGrow, h1, if_false, hw, Nat.not_lt_zero]
    rfl
  · simp only [arrayblkofRef, arrayGet, arrayRef, assertM, bind, StateT.bind, hc, Nat.not_lt_zero, if_false]
    split <;> simp

end Array

section Alloc
open AllocSpec

/-- Writing the blocks of a segment does not change which memory is live. -/
theorem pushLoop_live {bs : Nat} : ∀ (n : Nat) (t : Alloc) (data size : Nat) (m : AMem), t.blockSize = bs → ptrSize ≤ bs →
    (n + 1) * bs ≤ size → size < (n + 1) * bs + bs → size < 2 ^ sizeBit →
    ∀ r, allocatorPushLoop t data size m = some r → r.2.live = m.live := by
  intro n
  induction n with
  | zero =>
    intro t data size m hbs h8 h1 h2 h3 r e
    rw [allocatorPushLoop] at e
    by_cases hw : m.acc data ptrSize
    · simp only [bind, StateT.bind, writeP, if_pos hw, Option.bind_some, hbs] at e
      have hs : subT size bs = size - bs := by unfold subT; arch
      rw [hs, if_neg (by omega)] at e
      cases e
      rfl
    · simp only [bind, StateT.bind, writeP, if_neg hw] at e
      cases e
  | succ n ih =>
    intro t data size m hbs h8 h1 h2 h3 r e
    rw [allocatorPushLoop] at e
    rw [Nat.add_mul, Nat.one_mul] at h1 h2
    have hn : bs ≤ (n + 1) * bs := Nat.le_mul_of_pos_left _ (by omega)
    by_cases hw : m.acc data ptrSize
    · simp only [bind, StateT.bind, writeP, if_pos hw, Option.bind_some, hbs] at e
      have hs : subT size bs = size - bs := by unfold subT; arch
      rw [hs, if_pos (by omega)] at e
      have := ih _ _ _ _ rfl h8 (by omega) (by omega) (by omega) r e
      exact this
    · simp only [bind, StateT.bind, writeP, if_neg hw] at e
      cases e

/-- The first alloc() of blocks of the size of a pointer, in a memory where nothing else is live and only the requested bytes are usable. -/
theorem allocP_none (content : Nat → Nat) (m : AMem) (hm : ∀ b, m.live b = none) :
    firstAlloc 0 ptrSize ptrSize 16 content m = none := by
  cases he : firstAlloc 0 ptrSize ptrSize 16 content m with
  | none => rfl
  | some x =>
    exfalso
    unfold firstAlloc allocatorAlloc at he
    have e : allocatorInit ptrSize ptrSize = ⟨0, 0, ptrSize, ptrSize, 0⟩ := by cases ‹Arch› <;> rfl
    rw [e] at he
    simp only [bind, StateT.bind, if_true] at he
    obtain ⟨r, hs, he⟩ := Option.bind_eq_some_iff.1 he
    obtain ⟨v, hr, _⟩ := Option.bind_eq_some_iff.1 he
    unfold allocatorSegment at hs
    have hsz : (if allocatorBlockSize < addT (addT ptrSize ptrSize) ptrSize then addT (addT ptrSize ptrSize) ptrSize else allocatorBlockSize) = 4032 := by archd
    have g3 : addT 16 ptrSize = 16 + ptrSize := by archd
    simp only [hsz, g3, StateT.bind, bind, amalloc, Option.bind_some] at hs
    obtain ⟨w, hw, hs⟩ := Option.bind_eq_some_iff.1 hs
    have hmis : ¬ (16 + ptrSize) % ptrSize ≠ 0 := by archd
    simp only [if_neg hmis] at hs
    have h1 := pushLoop_head (bs := ptrSize) (4032 / ptrSize - 1) _ _ _ _ (by rfl) (by archd) (by archd) (by archd) (by archd) (by archd) r hs
    have h2 := pushLoop_live (bs := ptrSize) (4032 / ptrSize - 1) _ _ _ _ (by rfl) (by archd) (by archd) (by archd) (by archd) r hs
    have h3 : w.2.live = upd m.live 16 (some 4032) := by
      unfold writeP at hw
      split at hw
      · cases hw; rfl
      · cases hw
    unfold readP at hr
    split at hr
    · rename_i ha
      unfold AMem.acc at ha
      obtain ⟨b, _, hb⟩ := List.any_eq_true.1 ha
      rw [h1, h2, h3] at hb
      by_cases hb16 : b = 16
      · subst hb16
        simp only [upd_same, decide_eq_true_eq] at hb
        arch
      · simp [upd_ne hb16, hm] at hb
    · cases hr

/-- **C27** (and C29, C30, that are about the same histories) is false if only the requested bytes are usable: init with
    blocks of the size of a pointer, and the first alloc() is an access out of the memory obtained from malloc(). -/
theorem C27_false : ¬ (sys 0 anyUse).Correct := by
  intro hc
  have r0 : (sys 0 anyUse).Reach ⟨⟨fun _ => 0, fun _ => none⟩, fun _ => none⟩ ⟨fun _ => none, fun _ => none⟩ :=
    .init ⟨fun _ => rfl, fun _ => rfl, fun _ => rfl, fun _ => rfl⟩
  have r1 := Sys.Reach.step (sys := sys 0 anyUse) (op := .init 0 ptrSize ptrSize) r0 ⟨rfl, by archd, by archd, trivial⟩ rfl
  have hreg : ∀ b n, ¬ ((sys 0 anyUse).next ⟨fun _ => none, fun _ => none⟩ (.init 0 ptrSize ptrSize) .unit).Region b n := by
    intro b n h
    rcases h with h | ⟨id, P, h, hb, _⟩
    · cases h
    · simp only [sys, next, upd] at h
      split at h
      · cases h; cases hb
      · cases h
  obtain ⟨out, s', e, _⟩ := hc _ _ r1 (.alloc 0 16 fun _ => 0) ⟨trivial, ⟨ptrSize, ptrSize, [], [], []⟩, by cases ‹Arch› <;> rfl, by decide, by archd,
    fun n => hreg 16 n, fun b n h => absurd h (hreg b n)⟩
  have hz := allocP_none (fun _ => 0) ⟨fun _ => 0, fun _ => none⟩ (fun _ => rfl)
  unfold firstAlloc at hz
  simp only [sys, step, upd_same, bind, Option.bind_some, hz, Option.bind_none] at e
  cases e

/-- **C27** Missing from the full property: the heaps where less than the size of a pointer over the requested ones are usable. -/
theorem C27_partial (slack : Nat) (hs : ptrSize ≤ slack) (u : Use) : (sys slack u).Correct := C27 slack hs u

end Alloc

/-! The hypotheses are met. -/
open HashSpec (maxBuckets maxBuckets_eq)
example : maxBuckets < maxBuckets + 1 ∧ maxBuckets + 1 < 2 ^ sizeBit := by rw [maxBuckets_eq]; arch
/-- A table of 2^30 or 2^62 buckets in the memory of the examples of the hashtables: a reachable state to which the
    theorems on the tables of any size apply. -/
example : ∃ s a, (HashSpec.sys HashSpec.hashtableImpl (hashtableInit (2 ^ (sizeBit - 2))) HashEx.m0).Reach s a ∧
    DoneOk HashSpec.hashtableImpl HashEx.m0 s ∧ ¬ BucketOk HashSpec.hashtableImpl s a 5 := by
  have h1 : maxBuckets < 2 ^ (sizeBit - 2) := by rw [maxBuckets_eq]; arch
  have h2 : 2 ^ (sizeBit - 2) < 2 ^ sizeBit := by arch
  have h3 : 2 ^ (sizeBit - 2) ≤ 2 ^ (sizeBit - 1) := by arch
  obtain ⟨⟨s, a, hi⟩, _⟩ := C08_hashtable_false (2 ^ (sizeBit - 2)) h1 (by first | exact h2 | exact h3) HashEx.m0 HashEx.start
  have hr := Sys.Reach.init (sys := HashSpec.sys HashSpec.hashtableImpl (hashtableInit (2 ^ (sizeBit - 2))) HashEx.m0) hi
  exact ⟨s, a, hr, C17_done_hashtable _ (by first | exact h2 | exact h3) _ s a hr,
    C11_bucket_hashtable_false _ h1 (by first | exact h2 | exact h3) _ s a hr 5⟩
example : 2 ^ sizeBit - 4096 < 2 ^ sizeBit - 1 ∧ 2 ^ sizeBit - 1 < 2 ^ sizeBit := by arch
end Tommy
