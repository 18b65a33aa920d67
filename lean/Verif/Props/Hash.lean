import Verif.Proof.HashProps
/-!
  Properties C08 - C18, C48, C49 (tommyhashtbl, tommyhashdyn, tommyhashlin).
-/
set_option linter.unusedSimpArgs false
set_option autoImplicit false
namespace Tommy

variable [Arch]
open HashSpec

/-- **C08** Every history of calls on a `tommy_hashtable` initialised with any number of buckets up to
    `maxBuckets`, with any write to the other nodes between the calls, has no undefined behaviour, terminates,
    and gives the results of the multiset in insertion order.
    (For more buckets see C18.) -/
theorem C08_hashtable (n : Nat) (hn : n ≤ maxBuckets) (m0 : Mem) (h0 : StartOk m0) :
    (∃ s a, (sys hashtableImpl (hashtableInit n) m0).init s a) ∧
    (sys hashtableImpl (hashtableInit n) m0).Correct := by
  obtain ⟨t, m, e, _⟩ := hashtableInit_spec hn h0
  exact ⟨⟨⟨m, t⟩, ⟨[], m0.heap.valid⟩, h0, e, rfl, rfl⟩, (tblSys_correct hn m0).1⟩

/-- **C09** The same for `tommy_hashdyn`. -/
theorem C09_hashdyn (m0 : Mem) (h0 : StartOk m0) :
    (∃ s a, (sys hashdynImpl hashdynInit m0).init s a) ∧ (sys hashdynImpl hashdynInit m0).Correct := by
  obtain ⟨t, m, e, _⟩ := hashdynInit_spec h0
  exact ⟨⟨⟨m, t⟩, ⟨[], m0.heap.valid⟩, h0, e, rfl, rfl⟩, (dynSys_correct m0).1⟩

/-- **C10** The same for `tommy_hashlin`, in any phase of the progressive resize. -/
theorem C10_hashlin (m0 : Mem) (h0 : StartOk m0) :
    (∃ s a, (sys hashlinImpl hashlinInit m0).init s a) ∧ (sys hashlinImpl hashlinInit m0).Correct := by
  obtain ⟨t, m, e, _⟩ := hashlinInit_spec h0
  exact ⟨⟨⟨m, t⟩, ⟨[], m0.heap.valid⟩, h0, e, rfl, rfl⟩, (linSys_correct m0).1⟩

section C11
variable {T : Type}

/-- What C11 says of a state: walking `bucket(hash)`. -/
def BucketOk (I : Impl T) (s : St T) (a : Ab) (h : Nat) : Prop :=
  ∃ l, walkBucket I s.tbl h s.mem = some (l, s.mem) ∧ l.Nodup ∧ (∀ e ∈ l, e ∈ a.elems) ∧
    l.filter (fun e => e.hash = h) = a.elems.filter (fun e => e.hash = h)

/-- **C11** for `tommy_hashtable`. -/
theorem C11_bucket_hashtable_partial (n : Nat) (hn : n ≤ maxBuckets) (m0 : Mem) (s a)
    (hr : (sys hashtableImpl (hashtableInit n) m0).Reach s a) (h : Nat) : BucketOk hashtableImpl s a h :=
  (hashtable_ok m0).bucket h ((tblSys_correct hn m0).2 s a hr).p

/-- **C11** for `tommy_hashdyn`. -/
theorem C11_bucket_hashdyn (m0 : Mem) (s a) (hr : (sys hashdynImpl hashdynInit m0).Reach s a) (h : Nat) :
    BucketOk hashdynImpl s a h :=
  (hashdyn_ok m0).bucket h ((dynSys_correct m0).2 s a hr).p

/-- **C11** for `tommy_hashlin`. -/
theorem C11_bucket_hashlin (m0 : Mem) (s a) (hr : (sys hashlinImpl hashlinInit m0).Reach s a) (h : Nat) :
    BucketOk hashlinImpl s a h :=
  (hashlin_ok m0).bucket h ((linSys_correct m0).2 s a hr).p

/-- What C12 says of a state: foreach is the same as calling the callback on each element once, in an
    order that does not depend on the callback, for any callback which leaves alone the bucket vectors and
    the elements not yet visited. -/
def ForeachOk (I : Impl T) (s : St T) (a : Ab) : Prop :=
  ∃ L : List Elem, L.Perm a.elems ∧ ∀ func, GoodCallback s.mem func L →
    I.foreach s.tbl func s.mem = callAll func (L.map Elem.data) s.mem

/-- **C12** for `tommy_hashtable`. -/
theorem C12_foreach_hashtable_partial (n : Nat) (hn : n ≤ maxBuckets) (m0 : Mem) (s a)
    (hr : (sys hashtableImpl (hashtableInit n) m0).Reach s a) : ForeachOk hashtableImpl s a :=
  (hashtable_ok m0).foreach ((tblSys_correct hn m0).2 s a hr).p

/-- **C12** for `tommy_hashdyn`. -/
theorem C12_foreach_hashdyn (m0 : Mem) (s a) (hr : (sys hashdynImpl hashdynInit m0).Reach s a) :
    ForeachOk hashdynImpl s a :=
  (hashdyn_ok m0).foreach ((dynSys_correct m0).2 s a hr).p

/-- **C12** for `tommy_hashlin`. -/
theorem C12_foreach_hashlin (m0 : Mem) (s a) (hr : (sys hashlinImpl hashlinInit m0).Reach s a) :
    ForeachOk hashlinImpl s a :=
  (hashlin_ok m0).foreach ((linSys_correct m0).2 s a hr).p

end C11

/-- **C13** Size and load of `tommy_hashdyn` after any history. -/
theorem C13_hashdyn_load (m0 : Mem) (s a) (hr : (sys hashdynImpl hashdynInit m0).Reach s a) :
    (∃ k, 4 ≤ k ∧ s.tbl.bucketMax = 2 ^ k) ∧ 2 * a.elems.length < s.tbl.bucketMax ∧
    (s.tbl.bucketMax = 16 ∨ s.tbl.bucketMax < 8 * a.elems.length) := by
  have i := ((dynSys_correct m0).2 s a hr).p
  refine ⟨⟨_, i.bit, i.max⟩, i.load, i.low.imp (fun h => by rw [i.max, h]; decide) id⟩

/-- **C14** Load of `tommy_hashlin` after any history. The buckets in use are `low_max + split`.
    The first bound is tight, see `C14_hashlin_load_tight`. -/
theorem C14_hashlin_load (m0 : Mem) (s a) (hr : (sys hashlinImpl hashlinInit m0).Reach s a) :
    2 * a.elems.length ≤ s.tbl.bucketMax + 2 ∧
    a.elems.length ≤ s.tbl.lowMax + s.tbl.split ∧
    s.tbl.lowMax + s.tbl.split ≤ s.tbl.bucketMax ∧
    (s.tbl.bucketMax = 64 ∨ s.tbl.lowMax + s.tbl.split ≤ 8 * a.elems.length) ∧
    (s.tbl.state ≠ .shrink → s.tbl.bucketMax = 64 ∨ s.tbl.bucketMax ≤ 8 * a.elems.length) := by
  have i := ((linSys_correct m0).2 s a hr).p
  have hc : (Hashlin.num s.tbl).count = a.elems.length := i.count
  have hb : (Hashlin.num s.tbl).bit = s.tbl.bucketBit := rfl
  have hs : (Hashlin.num s.tbl).split = s.tbl.split := rfl
  have hst : (Hashlin.num s.tbl).state = s.tbl.state := rfl
  have hlo : (Hashlin.num s.tbl).low = s.tbl.lowMax := i.low.symm
  have hm := i.max
  obtain ⟨i1, i2, i3, i4⟩ := i.num
  rw [hc, hb, hs, hst] at i2
  rw [hc, hb, hs, hst, hlo] at i3 i4
  rw [hb] at i1
  rw [← hm] at i2 i3
  have h64 : s.tbl.bucketBit = 6 → s.tbl.bucketMax = 64 := fun h => by rw [hm, h]; decide
  have hge : 64 ≤ s.tbl.bucketMax := by
    rw [hm]; exact Nat.pow_le_pow_right (n := 2) (by omega) i1
  cases h : s.tbl.state with
  | stable =>
    obtain ⟨a1, a2, a3⟩ := i2 h
    have := i.low_stable h
    have a3 : s.tbl.bucketMax = 64 ∨ s.tbl.bucketMax ≤ 8 * a.elems.length := a3.imp h64 id
    exact ⟨by omega, by omega, by omega, by omega, fun _ => a3⟩
  | grow =>
    obtain ⟨a1, a2, a3, a4, a5⟩ := i3 h
    have := i.low_half (by rw [h]; decide)
    exact ⟨by omega, by omega, by omega, by omega, fun _ => Or.inr a5⟩
  | shrink =>
    obtain ⟨a1, a2, a3, a4, a5⟩ := i4 h
    have := i.low_half (by rw [h]; decide)
    exact ⟨by omega, by omega, by omega, by omega, fun h => absurd rfl h⟩

/-- C14: the load can exceed 1/2: for every size up to the limits of the address space there is a history
    that leaves a stable table with `count = bucket_max / 2 + 1`. -/
theorem C14_hashlin_load_tight (k : Nat) (hk : 6 ≤ k) (hk' : k ≤ sizeBit - 7) :
    ∃ m0 s a, StartOk m0 ∧ (sys hashlinImpl hashlinInit m0).Reach s a ∧ s.tbl.bucketMax = 2 * 2 ^ k ∧
      s.tbl.state = .stable ∧ 2 * a.elems.length = s.tbl.bucketMax + 2 := by
  have hp : 2 ^ k ≤ 2 ^ (sizeBit - 7) := Nat.pow_le_pow_right (by omega) hk'
  have hN : 2 ^ k + 1 < 2 ^ (bktBit - 1) - 1 := by arch
  obtain ⟨s, s', _, _, hr', _, h2, h3⟩ := worst_insert (N := 2 ^ k + 1) hN hk (by omega)
  refine ⟨_, s', _, pathMem_ok hN, hr', h2, h3, ?_⟩
  rw [h2]; simp only [pathAb, pathElems_length]; omega

/-- **C15** is false: a single insert can split `2^k - 8` buckets, for every `k` up to the limits of the
    address space (when the direction changes from shrinking to growing). -/
theorem C15_hashlin_constant_work_false (k : Nat) (hk : 6 ≤ k) (hk' : k ≤ sizeBit - 7) :
    ∃ m0 s a p d h s', StartOk m0 ∧ (sys hashlinImpl hashlinInit m0).Reach s a ∧ legal a (.insert p d h) ∧
      step hashlinImpl (.insert p d h) s = some (.unit, s') ∧ s'.tbl.work = s.tbl.work + (2 ^ k - 8) := by
  have hp : 2 ^ k ≤ 2 ^ (sizeBit - 7) := Nat.pow_le_pow_right (by omega) hk'
  have hN : 2 ^ k + 1 < 2 ^ (bktBit - 1) - 1 := by arch
  obtain ⟨s, s', hr, e, hr', h1, h2, h3⟩ := worst_insert (N := 2 ^ k + 1) hN hk (by omega)
  exact ⟨_, s, _, _, _, _, s', pathMem_ok hN, hr, pathInsert_legal (by omega), e, h1⟩

/-- C15 as a negation: no constant below 2^(TOMMY_SIZE_BIT - 8) bounds the work of a call. -/
theorem C15_hashlin_no_constant (c : Nat) (hc : c < 2 ^ (sizeBit - 8)) :
    ¬ ∀ m0 s a op out s', StartOk m0 → (sys hashlinImpl hashlinInit m0).Reach s a → legal a op →
      step hashlinImpl op s = some (out, s') → s'.tbl.work ≤ s.tbl.work + c := by
  intro hall
  obtain ⟨m0, s, a, p, d, h, s', h0, hr, hl, e, hw⟩ := C15_hashlin_constant_work_false (sizeBit - 7) (by arch) (by omega)
  have := hall m0 s a _ _ s' h0 hr hl e
  arch

/-- **C15** what is true: the work of a call is at most 8, except for an insert in the shrinking state.
    Missing from the full property: that insert. -/
theorem C15_hashlin_work_partial (m0 : Mem) (s a) (hr : (sys hashlinImpl hashlinInit m0).Reach s a) (op : Op)
    (hl : legal a op) (out s') (e : step hashlinImpl op s = some (out, s'))
    (hx : (∀ p d h, op ≠ .insert p d h) ∨ s.tbl.state ≠ .shrink) : s'.tbl.work ≤ s.tbl.work + 8 := by
  have := (lin_step_work ((linSys_correct m0).2 s a hr) hl e).2 hx
  have hc : linCost op ≤ 8 := by cases op <;> simp [linCost]
  omega

/-- **C16** The total work of any history is at most 4 for each insert and 8 for each remove. -/
theorem C16_hashlin_amortized (m0 : Mem) (s a n) (hr : (sys hashlinImpl hashlinInit m0).ReachCost linCost s a n) :
    s.tbl.work ≤ n := by
  have := lin_work hr
  have hw : s.tbl.work = (Hashlin.num s.tbl).work := rfl
  omega

/-- What C17 says of a state: done() returns, frees exactly the vectors not live before init(), and
    changes nothing else. -/
def DoneOk {T : Type} (I : Impl T) (m0 : Mem) (s : St T) : Prop :=
  ∃ m', I.done s.tbl s.mem = some ((), m') ∧ m'.heap = s.mem.heap ∧ m'.vlen = m0.vlen ∧
    ∀ r p, m0.cell? r = some p → m'.cell? r = some p

/-- **C17** for `tommy_hashtable`. -/
theorem C17_done_hashtable_partial (n : Nat) (hn : n ≤ maxBuckets) (m0 : Mem) (s a)
    (hr : (sys hashtableImpl (hashtableInit n) m0).Reach s a) : DoneOk hashtableImpl m0 s :=
  (hashtable_ok m0).done ((tblSys_correct hn m0).2 s a hr).p

/-- **C17** for `tommy_hashdyn`. -/
theorem C17_done_hashdyn (m0 : Mem) (s a) (hr : (sys hashdynImpl hashdynInit m0).Reach s a) :
    DoneOk hashdynImpl m0 s :=
  (hashdyn_ok m0).done ((dynSys_correct m0).2 s a hr).p

/-- **C17** for `tommy_hashlin`. -/
theorem C17_done_hashlin (m0 : Mem) (s a) (hr : (sys hashlinImpl hashlinInit m0).Reach s a) :
    DoneOk hashlinImpl m0 s :=
  (hashlin_ok m0).done ((linSys_correct m0).2 s a hr).p

/-- **C18** up to `maxBuckets` buckets. Missing from the full property: a greater `n`, where it is false. -/
theorem C18_init_buckets_partial (n : Nat) (hn : n ≤ maxBuckets) (m0 : Mem) (h0 : StartOk m0) :
    ∃ t m k, hashtableInit n m0 = some (t, m) ∧ t.bucketMax = 2 ^ k ∧ max n 16 ≤ 2 ^ k ∧
      (∀ j, max n 16 ≤ 2 ^ j → k ≤ j) ∧ m.vlen t.bucket.vec = some (2 ^ k) := by
  obtain ⟨t, m, e, i, _, h1, h2⟩ := hashtableInit_spec hn h0
  obtain ⟨k, hk⟩ := i.pow
  refine ⟨t, m, k, e, hk, hk ▸ h1, fun j hj => ?_, by rw [i.flat.vlen, upd_same, hk]⟩
  have := h2 j hj
  rw [hk] at this
  exact (Nat.pow_le_pow_iff_right (by omega)).1 this

/-- **C18** is false for every `n > maxBuckets`: the number of bytes wraps (`2^61 * 8 = 0` modulo 2^64, or
    `2^30 * 4 = 0` modulo 2^32) and init allocates a vector of 0 cells, on which every search is an access out
    of bounds. -/
theorem C18_init_buckets_false (n : Nat) (hn : maxBuckets < n) (hn' : n < 2 ^ sizeBit) (m0 : Mem) :
    ∃ t m, hashtableInit n m0 = some (t, m) ∧ m.vlen t.bucket.vec = some 0 ∧
      ∀ cmp h, hashtableSearch t cmp h m = none := by
  rw [maxBuckets_eq] at hn
  have h16 : 16 ≤ n := by arch
  have hsz : 2 ^ sizeBit = 2 ^ (bktBit + 1) * ptrSize := by arch
  have hb : ∃ j, roundupPow2 n = 2 ^ (bktBit + 1) * j := by
    rw [roundupPow2_spec (by omega) hn']
    have h61 : bktBit + 1 ≤ (n - 1).log2 + 1 := by
      have : bktBit ≤ (n - 1).log2 := (Nat.le_log2 (by omega)).2 (by omega)
      omega
    obtain ⟨c, hc⟩ := Nat.exists_eq_add_of_le h61
    rw [hc, Nat.pow_add _ (bktBit + 1)]
    exact ⟨2 ^ c % ptrSize, by rw [hsz, Nat.mul_mod_mul_left]⟩
  obtain ⟨j, hj⟩ := hb
  have hr := hashtableInit_run n m0
  have h16 : ¬ n < 16 := by omega
  simp only [h16, if_false, hj] at hr
  have hz : sizeT (2 ^ (bktBit + 1) * j * ptrSize) / ptrSize = 0 := by
    unfold sizeT
    rw [Nat.mul_right_comm, hsz, Nat.mul_mod_right, Nat.zero_div]
  rw [hz] at hr
  refine ⟨_, _, hr, by simp, fun cmp h => ?_⟩
  simp [hashtableSearch, hashtableBucket, run_bind, readRef, Mem.cell?, Ref.add]

/-- What C48 says of a call: only the stored nodes and the inserted one can change, and the vectors not
    of the table keep their content. -/
def FrameOk {T : Type} (m0 : Mem) (s s' : St T) (a : Ab) (op : Op) : Prop :=
  s'.mem.heap.valid = s.mem.heap.valid ∧
  (∀ q, ¬ mayWrite a op q → s'.mem.heap.next q = s.mem.heap.next q ∧ s'.mem.heap.prev q = s.mem.heap.prev q ∧
    s'.mem.heap.data q = s.mem.heap.data q ∧ s'.mem.heap.index q = s.mem.heap.index q) ∧
  (∀ r p, m0.cell? r = some p → s'.mem.cell? r = some p)

theorem frameOk {T : Type} {I : Impl T} {start : MM T} {m0 : Mem} {P : T → Mem → List Elem → Prop}
    (ho : ImplOk I m0 P) (hi : ∀ s a, (sys I start m0).Reach s a → Inv P s a) {s a}
    (hr : (sys I start m0).Reach s a) {op} (hl : legal a op) (hc : isCall op) {out s'}
    (e : step I op s = some (out, s')) : FrameOk m0 s s' a op := by
  have f := step_frame ho (hi s a hr) hl hc e
  refine ⟨f.1, fun q hq => ?_, ?_⟩
  · have := f.2 q hq
    exact ⟨this.next, this.prev, this.data, this.index⟩
  · exact ho.keep (hi _ _ (Sys.Reach.step (sys := sys I start m0) hr hl e)).p

/-- **C48** for `tommy_hashtable`. -/
theorem C48_frame_hashtable_partial (n : Nat) (hn : n ≤ maxBuckets) (m0 : Mem) (s a)
    (hr : (sys hashtableImpl (hashtableInit n) m0).Reach s a) (op : Op) (hl : legal a op) (hc : isCall op) (out s')
    (e : step hashtableImpl op s = some (out, s')) : FrameOk m0 s s' a op :=
  frameOk (hashtable_ok m0) (tblSys_correct hn m0).2 hr hl hc e

/-- **C48** for `tommy_hashdyn`. -/
theorem C48_frame_hashdyn (m0 : Mem) (s a) (hr : (sys hashdynImpl hashdynInit m0).Reach s a) (op : Op)
    (hl : legal a op) (hc : isCall op) (out s') (e : step hashdynImpl op s = some (out, s')) : FrameOk m0 s s' a op :=
  frameOk (hashdyn_ok m0) (dynSys_correct m0).2 hr hl hc e

/-- **C48** for `tommy_hashlin`. -/
theorem C48_frame_hashlin (m0 : Mem) (s a) (hr : (sys hashlinImpl hashlinInit m0).Reach s a) (op : Op)
    (hl : legal a op) (hc : isCall op) (out s') (e : step hashlinImpl op s = some (out, s')) : FrameOk m0 s s' a op :=
  frameOk (hashlin_ok m0) (linSys_correct m0).2 hr hl hc e

/-- What C49 says of a state: `usage` is the bytes of a pointer for each cell of the vectors allocated by the
    table, which are the ones live now and not before init(), and the ones of a node for each element (modulo
    2^TOMMY_SIZE_BIT). -/
def UsageOk {T : Type} (usage : T → Nat) (m0 : Mem) (s : St T) (a : Ab) : Prop :=
  ∃ vs, NewVecs m0 s.mem vs ∧ usage s.tbl = (ptrSize * cellCount s.mem vs + nodeSize * a.elems.length) % 2 ^ sizeBit

/-- **C49** for `tommy_hashtable`. -/
theorem C49_usage_hashtable_partial (n : Nat) (hn : n ≤ maxBuckets) (m0 : Mem) (s a)
    (hr : (sys hashtableImpl (hashtableInit n) m0).Reach s a) : UsageOk hashtableMemoryUsage m0 s a := by
  have i := ((tblSys_correct hn m0).2 s a hr).p
  refine ⟨_, i.flat.vecs.1, ?_⟩
  rw [i.flat.vecs.2, hashtableMemoryUsage, hashtableCount, i.count, sizeT, Nat.mul_comm ptrSize, Nat.mul_comm nodeSize]

/-- **C49** for `tommy_hashdyn`. -/
theorem C49_usage_hashdyn_partial (m0 : Mem) (s a) (hr : (sys hashdynImpl hashdynInit m0).Reach s a) :
    UsageOk hashdynMemoryUsage m0 s a := by
  have i := ((dynSys_correct m0).2 s a hr).p
  refine ⟨_, i.flat.vecs.1, ?_⟩
  rw [i.flat.vecs.2, hashdynMemoryUsage, hashdynCount, i.count, sizeT, Nat.mul_comm ptrSize, Nat.mul_comm nodeSize]

/-- **C49** for `tommy_hashlin`. -/
theorem C49_usage_hashlin_partial (m0 : Mem) (s a) (hr : (sys hashlinImpl hashlinInit m0).Reach s a) :
    UsageOk hashlinMemoryUsage m0 s a := by
  have i := ((linSys_correct m0).2 s a hr).p
  obtain ⟨vs, sg⟩ := i.segs
  refine ⟨_, (sg.vecs i.bit).1, ?_⟩
  rw [(sg.vecs i.bit).2, hashlinMemoryUsage, i.count, sizeT, i.max, Nat.mul_comm ptrSize, Nat.mul_comm nodeSize]

/-! ### Non vacuity -/

namespace HashEx

/-- Nodes at 32, 64, ..., and garbage in them; a vector already live. -/
def m0 : Mem where
  heap := { valid := fun p => decide (p % 32 = 0 ∧ 0 < p ∧ p < 3200), next := fun p => p + 7, prev := fun p => 3 * p,
            data := fun p => p, index := fun p => p }
  vlen v := if v = 0 then some 2 else none
  vcell _ _ := some 99
  vnext := 1

theorem start : StartOk m0 := by
  refine ⟨⟨by simp [m0], ?_, ?_⟩, ?_⟩
  · intro p hp
    simp only [m0, decide_eq_true_eq] at hp
    exact (by arch : ∀ a : Nat, a < 3200 → a + nodeSize ≤ 2 ^ sizeBit) p hp.2.2
  · intro p q hp hq hne
    simp only [m0, decide_eq_true_eq] at hp hq
    exact (by arch : ∀ a b : Nat, a % 32 = 0 → b % 32 = 0 → a ≠ b → a + nodeSize ≤ b ∨ b + nodeSize ≤ a) p q hp.1 hq.1 hne
  · intro v hv
    simp only [m0] at hv ⊢
    rw [if_neg (by omega)]

/-- Three elements, two with the same hash and payload, in a bucket with a third one (for 16 or 64 buckets). -/
def elems : List Elem := [⟨64, 7, 5⟩, ⟨96, 8, 5 + 64⟩, ⟨32, 7, 5⟩]

theorem reach {T : Type} {I : Impl T} {init : MM T} (hi : ∃ s a, (sys I init m0).init s a)
    (hc : (sys I init m0).Correct) : ∃ s a, (sys I init m0).Reach s a ∧ a.elems = elems ∧
      a.live = m0.heap.valid := by
  obtain ⟨s0, a0, h⟩ := hi
  obtain ⟨_, _, he, hl⟩ := id h
  obtain ⟨el, li⟩ := a0
  simp only at he hl
  subst he hl
  have r0 : (sys I init m0).Reach s0 _ := .init h
  obtain ⟨_, _, r1, _⟩ := hc.extend r0 (.insert 64 7 5) ⟨rfl, by simp [Ab.stored]⟩
  obtain ⟨_, _, r2, _⟩ := hc.extend r1 (.insert 96 8 (5 + 64)) ⟨rfl, by simp [Ab.stored, sys, next]⟩
  obtain ⟨_, _, r3, _⟩ := hc.extend r2 (.insert 32 7 5) ⟨rfl, by simp [Ab.stored, sys, next]⟩
  exact ⟨_, _, r3, rfl, rfl⟩

theorem reachTbl : ∃ s a, (sys hashtableImpl (hashtableInit 10) m0).Reach s a ∧ a.elems = elems ∧ a.live = m0.heap.valid :=
  reach (C08_hashtable 10 (by rw [maxBuckets_eq]; arch) m0 start).1 (C08_hashtable 10 (by rw [maxBuckets_eq]; arch) m0 start).2
theorem reachDyn : ∃ s a, (sys hashdynImpl hashdynInit m0).Reach s a ∧ a.elems = elems ∧ a.live = m0.heap.valid :=
  reach (C09_hashdyn m0 start).1 (C09_hashdyn m0 start).2
theorem reachLin : ∃ s a, (sys hashlinImpl hashlinInit m0).Reach s a ∧ a.elems = elems ∧ a.live = m0.heap.valid :=
  reach (C10_hashlin m0 start).1 (C10_hashlin m0 start).2

/-- C08: a remove with a matching hash and compare function finds the first inserted. -/
example : ∃ s a s', (sys hashtableImpl (hashtableInit 10) m0).Reach s a ∧
    step hashtableImpl (.remove (fun d => (d : Int) - 7) 5) s = some (.val 7, s') := by
  obtain ⟨s, a, hr, ha, _⟩ := reachTbl
  obtain ⟨out, s', e, al⟩ := (C08_hashtable 10 (by rw [maxBuckets_eq]; arch) m0 start).2 s a hr (.remove (fun d => (d : Int) - 7) 5) trivial
  have al : out = _ := al
  rw [ha] at al
  have hv : ((elems.find? (hit (fun d => (d : Int) - 7) 5)).map Elem.data).getD 0 = 7 := by decide
  rw [hv] at al
  subst al
  exact ⟨s, a, s', hr, e⟩

/-- C09, C10: a search that finds nothing, and one that finds. -/
example : ∃ s a s1 s2, (sys hashlinImpl hashlinInit m0).Reach s a ∧
    step hashlinImpl (.search (fun d => (d : Int) - 7) 69) s = some (.val 0, s1) ∧
    step hashlinImpl (.search (fun d => (d : Int) - 8) 69) s = some (.val 8, s2) := by
  obtain ⟨s, a, hr, ha, hlive⟩ := reachLin
  have h1 := (hashlin_ok m0).search (fun d => (d : Int) - 7) 69 ((linSys_correct m0).2 s a hr).p
  have h2 := (hashlin_ok m0).search (fun d => (d : Int) - 8) 69 ((linSys_correct m0).2 s a hr).p
  rw [ha] at h1 h2
  exact ⟨s, a, s, s, hr, by simp only [step, h1]; rfl, by simp only [step, h2]; rfl⟩

/-- C11: in the dynamic table with 16 buckets. -/
example : ∃ s a l, (sys hashdynImpl hashdynInit m0).Reach s a ∧ walkBucket hashdynImpl s.tbl 5 s.mem = some (l, s.mem) ∧
    l.filter (fun e => e.hash = 5) = [⟨64, 7, 5⟩, ⟨32, 7, 5⟩] := by
  obtain ⟨s, a, hr, ha, _⟩ := reachDyn
  obtain ⟨l, e, _, _, hf⟩ := C11_bucket_hashdyn m0 s a hr 5
  rw [ha] at hf
  exact ⟨s, a, l, hr, e, by rw [hf]; decide⟩

/-- C12: the callback that deallocates the visited nodes (payload `10 * node`) is good in any state. -/
example (m : Mem) (L : List Elem) (hd : (L.map Elem.node).Nodup) (hl : ∀ e ∈ L, e.data = 10 * e.node) :
    GoodCallback m (fun d m => some ((), { m with heap := { m.heap with
      valid := upd m.heap.valid (d / 10) false, next := upd m.heap.next (d / 10) 666 } })) L := by
  intro as x bs e m1 m2 same hf
  have hx : x.data / 10 = x.node := by rw [hl x (by simp [e])]; exact Nat.mul_div_cancel_left _ (by omega)
  simp only [hx, Option.some.injEq, Prod.mk.injEq, true_and] at hf
  subst hf
  refine ⟨fun y hy => ?_, same.2⟩
  have hyx : y ≠ x.node := by
    rintro rfl
    rw [e] at hd
    simp only [List.map_append, List.map_cons] at hd
    exact (List.nodup_cons.1 (List.nodup_append.1 hd).2.1).1 hy
  have := same.1 y hy
  simp only [Heap.ok, upd_ne hyx] at *
  exact this

/-- C13, C17, C49 on the example: 16 buckets, 3 elements. -/
example : ∃ s a, (sys hashdynImpl hashdynInit m0).Reach s a ∧ a.elems.length = 3 ∧ DoneOk hashdynImpl m0 s ∧
    s.tbl.bucketMax = 16 ∧ UsageOk hashdynMemoryUsage m0 s a := by
  obtain ⟨s, a, hr, ha, _⟩ := reachDyn
  have h := C13_hashdyn_load m0 s a hr
  have hl : a.elems.length = 3 := by rw [ha]; rfl
  refine ⟨s, a, hr, hl, C17_done_hashdyn m0 s a hr, ?_, C49_usage_hashdyn_partial m0 s a hr⟩
  rw [hl] at h
  obtain ⟨⟨k, hk, e⟩, h1, h2⟩ := h
  rcases h2 with h | h
  · exact h
  · have : k < 5 := by
      by_contra hc
      have : 2 ^ 5 ≤ 2 ^ k := Nat.pow_le_pow_right (by omega) (by omega)
      omega
    have : k = 4 := by omega
    rw [e, this]; decide

/-- C14, C15 with 128 buckets: 65 elements, and an insert that splits 56 buckets. -/
example : ∃ m0 s a, StartOk m0 ∧ (sys hashlinImpl hashlinInit m0).Reach s a ∧ s.tbl.bucketMax = 128 ∧
    a.elems.length = 65 := by
  obtain ⟨m0, s, a, h0, hr, h1, _, h2⟩ := C14_hashlin_load_tight 6 (by omega) (by arch)
  exact ⟨m0, s, a, h0, hr, by rw [h1]; decide, by rw [h1] at h2; omega⟩

example : ∃ m0 s a p d h s', StartOk m0 ∧ (sys hashlinImpl hashlinInit m0).Reach s a ∧ legal a (.insert p d h) ∧
    step hashlinImpl (.insert p d h) s = some (.unit, s') ∧ s'.tbl.work = s.tbl.work + 56 :=
  C15_hashlin_constant_work_false 6 (by omega) (by arch)

/-- C16: a history with cost 4. -/
example : ∃ s a, (sys hashlinImpl hashlinInit m0).ReachCost linCost s a 4 := by
  obtain ⟨⟨s0, a0, h⟩, hc⟩ := C10_hashlin m0 start
  obtain ⟨_, _, he, hl⟩ := id h
  obtain ⟨el, li⟩ := a0
  simp only at he hl
  subst he hl
  have hleg : legal ⟨[], m0.heap.valid⟩ (.insert 64 7 5) := ⟨rfl, by simp [Ab.stored]⟩
  obtain ⟨out, s', e, _⟩ := hc s0 _ (.init h) (.insert 64 7 5) hleg
  exact ⟨_, _, Sys.ReachCost.step (sys := sys hashlinImpl hashlinInit m0) (cost := linCost)
    (op := Op.insert 64 7 5) (.init h) hleg e⟩

/-- C18: 1000 buckets become 1024. -/
example : ∃ t m, hashtableInit 1000 m0 = some (t, m) ∧ t.bucketMax = 1024 := by
  have h := hashtableInit_run 1000 m0
  exact ⟨_, _, h, by cases ‹Arch› <;> decide⟩

/-- C48: an insert writes only its node. -/
example : ∃ s a, (sys hashlinImpl hashlinInit m0).Reach s a ∧ legal a (.insert 128 1 69) ∧
    ¬ mayWrite a (.insert 128 1 69) 160 := by
  obtain ⟨s, a, hr, ha, hlive⟩ := reachLin
  refine ⟨s, a, hr, ⟨?_, ?_⟩, ?_⟩
  · rw [hlive]; rfl
  · simp [Ab.stored, ha, elems]
  · simp [mayWrite, Ab.stored, ha, elems]

end HashEx
end Tommy
