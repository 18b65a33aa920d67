import Verif.Model.Hashtable
import Verif.Proof.HashSys
import Verif.Proof.Bits
/-! tommy_hashtable, and what it shares with tommy_hashdyn: one vector of buckets. -/
set_option linter.unusedSimpArgs false
namespace Tommy

variable [Arch]
namespace HashSpec

/-- The buckets are the cells of the vector `v`, allocated after `m0`. -/
structure Flat (m0 m : Mem) (r : Ref) (n : Nat) (es : List Elem) : Prop where
  off : r.off = 0
  vlen : m.vlen = upd m0.vlen r.vec (some n)
  new : m0.vlen r.vec = none
  used : r.vec < m.vnext
  fresh : m.FreshOk
  keep : ∀ q p, m0.cell? q = some p → m.cell? q = some p
  binv : ∃ B, BInv m (fun b => r.add b) (· < n) (· % n) B es

variable {m0 m : Mem} {r : Ref} {n : Nat} {es : List Elem}

omit [Arch] in
theorem vec_ne_of_cell {q : Ref} {p : Ptr} (hn : m0.vlen r.vec = none) (h : m0.cell? q = some p) :
    q.vec ≠ r.vec := by
  intro e; simp [Mem.cell?, e, hn] at h

omit [Arch] in
theorem Flat.touch (f : Flat m0 m r n es) {m' : Mem} {R : Ref → Prop} (T : Touch m m' R)
    (hR : ∀ q, R q → q.vec = r.vec) {es' : List Elem} (b : ∃ B, BInv m' (fun b => r.add b) (· < n) (· % n) B es') :
    Flat m0 m' r n es' where
  off := f.off
  vlen := T.vlen.trans f.vlen
  new := f.new
  used := by rw [T.vnext]; exact f.used
  fresh := f.fresh.touch T
  keep q p h := by
    rw [T.cell q (fun hq => vec_ne_of_cell f.new h (hR q hq))]; exact f.keep q p h
  binv := b

omit [Arch] in
theorem Flat.congr (f : Flat m0 m r n es) {h' : Heap} (hs : ∀ e ∈ es, SameNode m.heap h' e.node) :
    Flat m0 { m with heap := h' } r n es where
  off := f.off
  vlen := f.vlen
  new := f.new
  used := f.used
  fresh := f.fresh
  keep := f.keep
  binv := by
    obtain ⟨B, i⟩ := f.binv
    exact ⟨B, i.congr (fun _ _ => rfl) hs⟩

omit [Arch] in
theorem Flat.nodup (f : Flat m0 m r n es) : (es.map Elem.node).Nodup := by
  obtain ⟨B, i⟩ := f.binv; exact i.nodup

omit [Arch] in
theorem Flat.ok (f : Flat m0 m r n es) : ∀ e ∈ es, m.heap.ok e.node := by
  obtain ⟨B, i⟩ := f.binv; exact fun e he => i.ok he

omit [Arch] in
theorem Flat.done (f : Flat m0 m r n es) : ∃ m', vfree r m = some ((), m') ∧ m'.heap = m.heap ∧
    m'.vlen = m0.vlen ∧ ∀ q p, m0.cell? q = some p → m'.cell? q = some p := by
  refine ⟨{ m with vlen := upd m.vlen r.vec none }, ?_, rfl, ?_, ?_⟩
  · have : m.vlen r.vec = some n := by rw [f.vlen]; simp
    simp [vfree, f.off, this]
  · funext q
    simp only [upd_apply, f.vlen]
    split
    · rename_i h; rw [h]; exact f.new.symm
    · rfl
  · intro q p h
    rw [← f.keep q p h]
    exact cell_congr (upd_ne (vec_ne_of_cell f.new h)) rfl

omit [Arch] in
theorem Flat.foreach (f : Flat m0 m r n es) : ∃ L : List Elem, L.Perm es ∧ ∀ func, GoodCallback m func L →
    posForeachLoop func (fun pos => pure (r.add pos)) 0 n m = callAll func (L.map Elem.data) m := by
  obtain ⟨B, i⟩ := f.binv
  exact i.foreach (fun b _ m => rfl)

omit [Arch] in
theorem Flat.bucket (f : Flat m0 m r n es) (h : Nat) : ∃ l,
    (do let i ← readRef (r.add (h % n : Nat)); onNodes (walkLoop i [])) m = some (l, m) ∧ l.Nodup ∧
    (∀ e ∈ l, e ∈ es) ∧ l.filter (fun e => e.hash = h) = es.filter (fun e => e.hash = h) := by
  obtain ⟨B, i⟩ := f.binv
  obtain ⟨p, hp, L, e, x⟩ := i.walk h
  exact ⟨L, by simp only [run_bind, readRef_run hp, Option.bind_some, e], x⟩

omit [Arch] in
theorem Flat.search (f : Flat m0 m r n es) (cmp : Nat → Int) (h : Nat) :
    (do let i ← readRef (r.add (h % n : Nat)); onNodes (hashSearchLoop cmp h i)) m =
      some (((es.find? (hit cmp h)).map Elem.data).getD 0, m) := by
  obtain ⟨B, i⟩ := f.binv
  obtain ⟨p, hp, e⟩ := i.search cmp h
  simp only [run_bind, readRef_run hp, Option.bind_some, e]

omit [Arch] in
theorem Flat.findNode (f : Flat m0 m r n es) (cmp : Nat → Int) (h : Nat) :
    ∃ p, m.cell? (r.add (h % n : Nat)) = some p ∧ onNodes (hashFindLoop cmp h p) m =
      some (((es.find? (hit cmp h)).map Elem.node).getD 0, m) := by
  obtain ⟨B, i⟩ := f.binv
  exact i.findNode cmp h

omit [Arch] in
theorem Flat.insert (f : Flat m0 m r n es) {p : Ptr} (hp : m.heap.ok p) (hne : p ∉ es.map Elem.node)
    (d h : Nat) :
    ∃ m', (do cellInsertTail (r.add (h % n : Nat)) p d; onNodes (setIndex p h)) m = some ((), m') ∧
      Flat m0 m' r n (es ++ [⟨p, d, h⟩]) ∧ m'.heap.valid = m.heap.valid ∧
      ∀ q, q ≠ p → q ∉ es.map Elem.node → SameNode m.heap m'.heap q := by
  obtain ⟨B, i⟩ := f.binv
  obtain ⟨m', e, i', T, S⟩ := i.insert hp hne d h
  exact ⟨m', e, f.touch T (by rintro q rfl; rfl) ⟨_, i'⟩, T.valid, S⟩

omit [Arch] in
theorem Flat.remove (f : Flat m0 m r n es) {e : Elem} (he : e ∈ es) :
    ∃ m', cellRemoveExisting (r.add (e.hash % n : Nat)) e.node m = some ((), m') ∧
      Flat m0 m' r n (es.filter (fun x => x.node ≠ e.node)) ∧ m'.heap.valid = m.heap.valid ∧
      m'.heap.data e.node = e.data ∧
      ∀ q, q ∉ es.map Elem.node → SameNode m.heap m'.heap q := by
  obtain ⟨B, i⟩ := f.binv
  obtain ⟨m', B', e1, i', T, hd, S⟩ := i.remove he
  exact ⟨m', e1, f.touch T (by rintro q rfl; rfl) ⟨_, i'⟩, T.valid, by rw [hd]; exact i.data he, S⟩

omit [Arch] in
theorem length_filter_node {es : List Elem} (nd : (es.map Elem.node).Nodup) {e : Elem} (he : e ∈ es) :
    (es.filter (fun x => x.node ≠ e.node)).length = es.length - 1 ∧ 0 < es.length := by
  obtain ⟨as, bs, rfl⟩ := List.append_of_mem he
  rw [filter_node_append nd]
  simp

theorem decT_pos {n : Nat} (h : 0 < n) : decT n = n - 1 := by
  simp [decT, Nat.ne_of_gt h]

omit [Arch] in
theorem hit_of_find {es : List Elem} {cmp : Nat → Int} {h : Nat} {e : Elem}
    (hf : es.find? (hit cmp h) = some e) : e ∈ es ∧ e.hash = h :=
  ⟨List.mem_of_find?_eq_some hf, hit_hash (List.find?_some hf)⟩

/-- The invariant of tommy_hashtable. -/
structure TblInv (m0 : Mem) (t : Hashtable) (m : Mem) (es : List Elem) : Prop where
  pow : ∃ k, t.bucketMax = 2 ^ k
  mask : t.bucketMask = t.bucketMax - 1
  count : t.count = es.length
  flat : Flat m0 m t.bucket t.bucketMax es

omit [Arch] in
theorem TblInv.and_mask {t : Hashtable} (i : TblInv m0 t m es) (h : Nat) :
    h &&& t.bucketMask = h % t.bucketMax := by
  obtain ⟨k, hk⟩ := i.pow
  rw [i.mask, hk, Nat.and_two_pow_sub_one_eq_mod]

theorem TblInv.removeNode {t : Hashtable} (i : TblInv m0 t m es) {e : Elem} (he : e ∈ es) :
    ∃ m', (do cellRemoveExisting (t.bucket.add (e.hash % t.bucketMax : Nat)) e.node
              let d ← onNodes (getData e.node)
              pure (({ t with count := decT t.count } : Hashtable), d) : MM _) m =
        some (({ t with count := decT t.count }, e.data), m') ∧
      TblInv m0 { t with count := decT t.count } m' (es.filter (fun x => x.node ≠ e.node)) ∧
      m'.heap.valid = m.heap.valid ∧ ∀ q, q ∉ es.map Elem.node → SameNode m.heap m'.heap q := by
  obtain ⟨m', e1, f, v, hd, S⟩ := i.flat.remove he
  have ok' : m'.heap.ok e.node := (ok_of_valid_eq v _).2 (i.flat.ok e he)
  obtain ⟨hl, hl0⟩ := length_filter_node i.flat.nodup he
  refine ⟨m', ?_, ⟨i.pow, i.mask, ?_, f⟩, v, S⟩
  · simp only [run_bind, e1, Option.bind_some, onNodes_run (getData_run ok'), hd, run_pure]
  · simp only [hl, i.count, decT_pos hl0]

theorem hashtable_ok (m0 : Mem) : ImplOk hashtableImpl m0 (TblInv m0) where
  nodup i := i.flat.nodup
  ok i := i.flat.ok
  congr i hs := ⟨i.pow, i.mask, i.count, i.flat.congr hs⟩
  insert {t m es n} d h i hn hne hlen := by
    obtain ⟨m', e, f, v, S⟩ := i.flat.insert hn hne d h
    refine ⟨{ t with count := sizeT (t.count + 1) }, m', ?_, ⟨i.pow, i.mask, ?_, f⟩, v, S⟩
    · simp only [run_bind] at e
      simp only [hashtableImpl, hashtableInsert, run_bind, i.and_mask]
      generalize hx : cellInsertTail (t.bucket.add ↑(h % t.bucketMax)) n d m = x at *
      cases x with
      | none => simp at e
      | some y => simp only [Option.bind_some] at e; simp [e]
    · simp only [i.count, List.length_append, List.length_cons, List.length_nil, sizeT]
      arch
  removeExisting {t m es e} i he _ := by
    obtain ⟨m', e1, i', v, S⟩ := i.removeNode he
    obtain ⟨B, bi⟩ := i.flat.binv
    refine ⟨{ t with count := decT t.count }, m', ?_, i', v, S⟩
    simp only [hashtableImpl, hashtableRemoveExisting]
    rw [run_bind, onNodes_run (getIndex_run (i.flat.ok e he)), bi.index he]
    simp only [Option.bind_some, i.and_mask]
    exact e1
  remove_some {t m es e cmp h} i hf _ := by
    obtain ⟨he, hh⟩ := hit_of_find hf
    obtain ⟨m', e1, i', v, S⟩ := i.removeNode he
    obtain ⟨p, hp, ef⟩ := i.flat.findNode cmp h
    rw [hf] at ef
    have h0 : e.node ≠ 0 := (i.flat.ok e he).1
    refine ⟨{ t with count := decT t.count }, m', ?_, i', v, S⟩
    simp only [hashtableImpl, hashtableRemove, i.and_mask]
    rw [run_bind, readRef_run hp, Option.bind_some, run_bind, ef, Option.bind_some]
    simp only [Option.map_some, Option.getD_some, ne_eq, h0, not_false_eq_true, if_true]
    rw [← hh]
    exact e1
  remove_none {t m es cmp h} i hf := by
    obtain ⟨p, hp, ef⟩ := i.flat.findNode cmp h
    rw [hf] at ef
    simp only [hashtableImpl, hashtableRemove, i.and_mask]
    rw [run_bind, readRef_run hp, Option.bind_some, run_bind, ef, Option.bind_some]
    simp
  search {t m es} cmp h i := by
    have := i.flat.search cmp h
    simp only [hashtableImpl, hashtableSearch, hashtableBucket, i.and_mask]
    exact this
  bucket {t m es} h i := by
    have := i.flat.bucket h
    simp only [walkBucket, hashtableImpl, hashtableBucket, i.and_mask]
    exact this
  count i _ := i.count
  foreach i := i.flat.foreach
  keep i := i.flat.keep
  done i := i.flat.done

omit [Arch] in
/-- A new vector of empty buckets. -/
theorem Flat.init {m0 m : Mem} {n : Nat} (hn : 0 < n) (h0 : ∀ v, m0.vnext ≤ v → m0.vlen v = none)
    (hvl : m.vlen = upd m0.vlen m0.vnext (some n)) (hvn : m.vnext = m0.vnext + 1)
    (hc : ∀ v, v ≠ m0.vnext → m.vcell v = m0.vcell v) (hz : ∀ i, i < n → m.vcell m0.vnext i = some 0) :
    Flat m0 m ⟨m0.vnext, 0⟩ n [] where
  off := rfl
  vlen := hvl
  new := h0 _ (Nat.le_refl _)
  used := by rw [hvn]; exact Nat.lt_succ_self _
  fresh v hv := by
    rw [hvn] at hv
    rw [hvl, upd_ne (by omega)]; exact h0 v (by omega)
  keep q p h := by
    have hne : q.vec ≠ m0.vnext := vec_ne_of_cell (r := ⟨m0.vnext, 0⟩) (h0 _ (Nat.le_refl _)) h
    rw [← h]
    exact cell_congr (by rw [hvl, upd_ne hne]) (hc _ hne)
  binv := by
    refine ⟨fun _ => [], fun h => Nat.mod_lt _ hn, fun b hb => ⟨0, ?_, ERep.nil _⟩, ?_, ?_, ?_, ?_⟩
    · refine cell_eq (n := n) (by rw [hvl]; simp [Ref.add]) ?_ ?_
      · simp only [Ref.add]; omega
      · have e : (0 + (b : Int)).toNat = b := by omega
        simp only [Ref.add, e]; exact hz b hb
    · intro b c _ _ h
      simp only [Ref.add, Ref.mk.injEq, true_and] at h
      omega
    · simp
    · simp
    · simp

/-- The effect of init for any size. -/
theorem hashtableInit_run (n : Nat) (m0 : Mem) :
    let bm := if n < 16 then 16 else roundupPow2 n
    hashtableInit n m0 = some (⟨⟨m0.vnext, 0⟩, bm, decT bm, 0⟩,
      { m0 with
        vlen := upd m0.vlen m0.vnext (some (sizeT (bm * ptrSize) / ptrSize))
        vcell := upd (upd m0.vcell m0.vnext (fun _ => none)) m0.vnext
          (fun i => if i < sizeT (bm * ptrSize) / ptrSize then some 0 else none)
        vnext := m0.vnext + 1 }) := by
  simp only [hashtableInit, run_bind, vmalloc, Option.bind_some, vzero, upd_same, Nat.le_refl, and_self, if_true,
    run_pure]

theorem roundup_small {n : Nat} (h1 : 16 ≤ n) (h2 : n ≤ 2 ^ bktBit) :
    ∃ k, roundupPow2 n = 2 ^ k ∧ n ≤ 2 ^ k ∧ (∀ j, n ≤ 2 ^ j → 2 ^ k ≤ 2 ^ j) ∧ 2 ^ k ≤ 2 ^ bktBit := by
  obtain ⟨a, b⟩ := pow2_ceil (v := n) (by omega)
  refine ⟨_, ?_, a, b, b bktBit h2⟩
  rw [roundupPow2_spec (by omega) (by arch)]
  have := b bktBit h2
  exact Nat.mod_eq_of_lt (by arch)

theorem hashtableInit_spec {n : Nat} (hn : n ≤ maxBuckets) {m0 : Mem} (h0 : StartOk m0) :
    ∃ t m, hashtableInit n m0 = some (t, m) ∧ TblInv m0 t m [] ∧ m.heap = m0.heap ∧
      max n 16 ≤ t.bucketMax ∧ ∀ j, max n 16 ≤ 2 ^ j → t.bucketMax ≤ 2 ^ j := by
  obtain ⟨k, hk, hmax, hmin, hle⟩ : ∃ k, (if n < 16 then 16 else roundupPow2 n) = 2 ^ k ∧ max n 16 ≤ 2 ^ k ∧
      (∀ j, max n 16 ≤ 2 ^ j → 2 ^ k ≤ 2 ^ j) ∧ 2 ^ k ≤ 2 ^ bktBit := by
    by_cases h : n < 16
    · exact ⟨4, by simp [h], by omega, fun j hj => by omega, by arch⟩
    · obtain ⟨k, a, b, c, d⟩ := roundup_small (by omega) (maxBuckets_eq ▸ hn)
      exact ⟨k, by simp [h, a], by omega, fun j hj => c j (by omega), d⟩
  have hr := hashtableInit_run n m0
  simp only [hk] at hr
  have hk0 : 0 < 2 ^ k := Nat.two_pow_pos k
  have hsz : sizeT (2 ^ k * ptrSize) / ptrSize = 2 ^ k := by
    unfold sizeT; rw [Nat.mod_eq_of_lt (by arch)]; arch
  rw [hsz] at hr
  refine ⟨_, _, hr, ⟨⟨k, rfl⟩, decT_pos hk0, rfl, ?_⟩, rfl, hmax, hmin⟩
  refine Flat.init hk0 h0.2 rfl rfl (fun v hv => ?_) (fun i hi => ?_)
  · simp only [upd_ne hv]
  · simp [hi]

end HashSpec
end Tommy
