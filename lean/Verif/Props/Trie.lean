import Verif.Proof.TrieCount
/-!
  Properties C36 - C38 (tommytrie.h, tommytrie.c).
-/
set_option linter.unusedSimpArgs false
set_option autoImplicit false
namespace Tommy

variable [Arch]
open TrieSpec
open HashSpec (Elem SameNode)

/-- **C36** Every history of calls on any number of tries sharing a memory and an allocator, with any foreign
    write between the calls, has no undefined behaviour, fails no assert, terminates, and gives the results of
    the multimaps. -/
theorem C36_trie_multimap (c : TrieCfg) (hc : CfgOk c) : (TrieSpec.sys c).Correct := TrieSpec.correct hc

/-- The configuration in the source, with the blocks of 64 bytes of both the builds. -/
theorem trieCfg_ok : CfgOk trieCfg := by
  cases ‹Arch›
  · exact @CfgOk.mk .w32 _ ⟨4, by decide, by decide, by decide⟩ (by decide) (by decide)
  · exact @CfgOk.mk .w64 _ ⟨3, by decide, by decide, by decide⟩ (by decide) (by decide)

theorem trieCfg64_ok : CfgOk trieCfg64 := ⟨⟨3, by decide, by decide, by decide⟩, by decide, by cases ‹Arch› <;> decide⟩

/-- C36 for the configuration in the source. -/
theorem C36_trie_default : (TrieSpec.sys trieCfg).Correct := C36_trie_multimap _ trieCfg_ok

/-- C36, said on a sequence of calls from an initial state. -/
theorem C36_trie_history (s : TrieSpec.St) (a : TrieSpec.Ab) (h : (TrieSpec.sys trieCfg).init s a)
    (ops : List TrieSpec.Op) : (TrieSpec.sys trieCfg).Runs s a ops :=
  C36_trie_default.runs ops s a (.init h)

/-- C36, frame: a call changes only the inserted node, nodes of its own trie with the same key, the struct and
    the blocks of its own trie, and the blocks it gets from the allocator. -/
theorem C36_trie_frame (c : TrieCfg) (hc : CfgOk c) (s : TrieSpec.St) (a : TrieSpec.Ab) (hr : (TrieSpec.sys c).Reach s a)
    (op : TrieSpec.Op) (hleg : TrieSpec.legal c a op) (hcall : TrieSpec.isCall op) (out : TrieSpec.Out) (s' : TrieSpec.St)
    (e : TrieSpec.step c op s = some (out, s')) :
    (∀ q, ¬ TrieSpec.mayNode a op q → s'.mem.heap.next q = s.mem.heap.next q ∧ s'.mem.heap.prev q = s.mem.heap.prev q ∧
      s'.mem.heap.data q = s.mem.heap.data q ∧ s'.mem.heap.index q = s.mem.heap.index q) ∧
    s'.mem.heap.valid = s.mem.heap.valid ∧
    (∀ b, ¬ TrieSpec.mayObj s a op out b → s'.mem.csize b = s.mem.csize b ∧ s'.mem.cell b = s.mem.cell b) ∧
    (∀ w, ¬ TrieSpec.mayVar op w → s'.var w = s.var w) := by
  obtain ⟨out', s'', e', _, _, fr⟩ := TrieSpec.step_inv hc s a op (TrieSpec.reach_inv hc s a hr) hleg
  rw [e] at e'
  simp only [Option.some.injEq, Prod.mk.injEq] at e'
  obtain ⟨rfl, rfl⟩ := e'
  obtain ⟨f, hv⟩ := fr hcall
  exact ⟨fun q hq => ⟨(f.node q hq).next, (f.node q hq).prev, (f.node q hq).data, (f.node q hq).index⟩, f.valid,
    fun b hb => ⟨(f.obj b hb).1, funext (f.obj b hb).2⟩, hv⟩

/-- C36, the limit of the keys is needed: with a bigger key the assert of insert, remove and search fails. -/
theorem C36_trie_key_limit (c : TrieCfg) (hc : CfgOk c) (m : TMem) (t : Trie) (p : Ptr) (d k : Nat) (hk : 2 ^ c.bit ≤ k) :
    trieInsert c t p d k m = none ∧ trieRemove c t k m = none ∧ trieSearch c t k m = none ∧ trieBucket c t k m = none := by
  have hb : ¬ k >>> c.bucketShift < c.bucketMax := fun h => absurd ((hc.key_lt k).1 h) (by omega)
  have ha : assertT (k >>> c.bucketShift < c.bucketMax) m = none := if_neg hb
  have hbk : trieBucket c t k m = none := by
    simp only [trieBucket, run_bind, shrKey_run _ hc.shift_lt, Option.bind_some, ha, Option.bind_none]
  refine ⟨?_, ?_, ?_, hbk⟩
  · simp only [trieInsert, run_bind, shrKey_run _ hc.shift_lt, Option.bind_some, ha, Option.bind_none]
  · simp only [trieRemove, run_bind, shrKey_run _ hc.shift_lt, Option.bind_some, ha, Option.bind_none]
  · simp only [trieSearch, run_bind, hbk, Option.bind_none]

/-- **C37** The list of the bucket of a key contains all and only the elements with that key, in insertion order,
    and looking at it changes nothing. -/
theorem C37_trie_bucket (c : TrieCfg) (hc : CfgOk c) (s : TrieSpec.St) (a : TrieSpec.Ab) (hr : (TrieSpec.sys c).Reach s a)
    (v : Nat) (es : List Elem) (hv : a.val v = some es) (k : Nat) (hk : k < 2 ^ c.bit) :
    walkBucket c (s.var v) k s.mem = some (es.filter fun e => e.hash = k, s.mem) :=
  walkBucket_spec hc ((TrieSpec.reach_inv hc s a hr).trie v es hv) hk

/-- **C38** The blocks that a trie owns are different, belong to no other trie, are counted by `node_count`, and
    their number is a function of the set of the keys, whatever the history. -/
theorem C38_trie_blocks (c : TrieCfg) (hc : CfgOk c) (s : TrieSpec.St) (a : TrieSpec.Ab) (hr : (TrieSpec.sys c).Reach s a)
    (v : Nat) (es : List Elem) (hv : a.val v = some es) :
    (a.owned v).Nodup ∧ (∀ w, w ≠ v → ∀ b ∈ a.owned v, b ∉ a.owned w) ∧ (s.var v).nodeCount = (a.owned v).length ∧
    (a.owned v).length = blocksFor c (keySet es) := by
  have i := TrieSpec.reach_inv hc s a hr
  have T := i.trie v es hv
  obtain ⟨ch, T1⟩ := T.top
  exact ⟨T1.bnodup, fun w hw => i.bsep v w hw.symm, T.ncount, T1.count hc⟩

/-- C38, there is no block when no bucket holds two different keys. -/
theorem C38_trie_no_block (c : TrieCfg) (hc : CfgOk c) (s : TrieSpec.St) (a : TrieSpec.Ab) (hr : (TrieSpec.sys c).Reach s a)
    (v : Nat) (es : List Elem) (hv : a.val v = some es)
    (h : ∀ e ∈ es, ∀ f ∈ es, e.hash >>> c.bucketShift = f.hash >>> c.bucketShift → e.hash = f.hash) : a.owned v = [] := by
  have := (C38_trie_blocks c hc s a hr v es hv).2.2.2
  rw [blocksFor_eq_zero hc] at this
  · exact List.eq_nil_of_length_eq_zero this
  · intro k hk k' hk'
    obtain ⟨e, he, rfl⟩ := mem_keySet.1 hk
    obtain ⟨f, hf, rfl⟩ := mem_keySet.1 hk'
    exact h e he f hf

/-- C38, an empty trie gave back all the blocks. -/
theorem C38_trie_empty (c : TrieCfg) (hc : CfgOk c) (s : TrieSpec.St) (a : TrieSpec.Ab) (hr : (TrieSpec.sys c).Reach s a)
    (v : Nat) (hv : a.val v = some []) : a.owned v = [] :=
  C38_trie_no_block c hc s a hr v [] hv (by simp)

/-- C38, `tommy_trie_memory_usage` counts the nodes and the blocks. -/
theorem C38_trie_memory_usage (c : TrieCfg) (hc : CfgOk c) (s : TrieSpec.St) (a : TrieSpec.Ab)
    (hr : (TrieSpec.sys c).Reach s a) (v : Nat) (es : List Elem) (hv : a.val v = some es) :
    trieMemoryUsage c (s.var v) = (es.length * nodeSize + blocksFor c (keySet es) * (c.treeMax * ptrSize)) % 2 ^ sizeBit := by
  have T := (TrieSpec.reach_inv hc s a hr).trie v es hv
  rw [trieMemoryUsage, trieCount, T.count, T.ncount, (C38_trie_blocks c hc s a hr v es hv).2.2.2]
  rfl

/-! ### Non vacuity -/

/-- A memory with nodes at 32, 64, ... 3168, the structs of the tries at the odd addresses and garbage everywhere. -/
def trieMem0 : TMem where
  heap := {
    valid := fun p => decide (p % 32 = 0 ∧ 0 < p ∧ p < 3200)
    next := fun p => p * 7
    prev := fun p => p + 1
    data := fun p => p
    index := fun p => p }
  cell := fun b i => b + i
  csize := fun b => if b % 2 = 1 then trieCfg64.bucketMax else 0
  supply := []
  freed := []
def trieSt0 : TrieSpec.St := { mem := trieMem0, var := fun v => ⟨2 * v + 1, v, 7⟩ }
def trieAb0 : TrieSpec.Ab where
  val := fun _ => none
  owned := fun _ => []
  live := trieMem0.heap.valid
  busy := fun b => decide (b % 2 = 1)

omit [Arch] in
theorem trieMax64 : trieCfg64.bucketMax = 32 := by decide

theorem trieInit0 : (TrieSpec.sys trieCfg64).init trieSt0 trieAb0 := by
  have hv : ∀ p : Nat, trieMem0.heap.valid p = true → p % 32 = 0 ∧ p + nodeSize ≤ 2 ^ sizeBit := by
    intro p h
    have h' : p % 32 = 0 ∧ 0 < p ∧ p < 3200 := of_decide_eq_true h
    arch
  have key : ∀ p q : Nat, p % 32 = 0 → q % 32 = 0 → p ≠ q → p + nodeSize ≤ q ∨ q + nodeSize ≤ p := by arch
  refine ⟨fun _ => ⟨rfl, rfl⟩, rfl, ⟨rfl, fun p hp => (hv p hp).2,
    fun p q hp hq hne => key p q (hv p hp).1 (hv q hq).1 hne⟩, ?_, ?_, ?_⟩
  · intro b
    simp only [trieAb0, trieSt0, trieMem0, trieMax64, decide_eq_true_eq]
    split <;> simp_all
  · intro v
    simp only [trieSt0, trieMem0, trieMax64]
    rw [if_pos]
    show (2 * v + 1) % 2 = 1
    omega
  · intro v w h
    have h : 2 * v + 1 = 2 * w + 1 := h
    omega

/-- The state of an example: the two tries, the blocks below `lo`. -/
structure TrieEx (s : TrieSpec.St) (a : TrieSpec.Ab) (lo : Nat) (A B : List Elem) : Prop where
  reach : (TrieSpec.sys trieCfg64).Reach s a
  a0 : a.val 0 = some A
  a1 : a.val 1 = some B
  rest : ∀ v, 1 < v → a.val v = none
  low : ∀ v, ∀ b : Nat, b ∈ a.owned v → b < lo
  live : a.live = trieMem0.heap.valid
  busy : a.busy = fun b => decide (b % 2 = 1)

theorem TrieEx.not_stored {s : TrieSpec.St} {a : TrieSpec.Ab} {lo : Nat} {A B : List Elem} (h : TrieEx s a lo A B) {p : Ptr}
    (hA : p ∉ A.map Elem.node) (hB : p ∉ B.map Elem.node) : ¬ a.stored p := by
  rintro ⟨v, es, hv, hp⟩
  rcases v with _ | _ | v
  · rw [h.a0] at hv; cases hv; exact hA hp
  · rw [h.a1] at hv; cases hv; exact hB hp
  · rw [h.rest _ (by omega)] at hv; cases hv

/-- The addresses that the allocator returns in the examples. -/
def trieSup (lo : Nat) : List Nat := (List.range 10).map fun i => 2 * lo + 2 + 64 * i

omit [Arch] in
theorem mem_trieSup {lo b : Nat} (h : b ∈ trieSup lo) : lo ≤ b ∧ b < 2 * lo + 1000 ∧ b % 2 = 0 ∧ b ≠ 0 := by
  simp only [trieSup, List.mem_map, List.mem_range] at h
  obtain ⟨i, hi, rfl⟩ := h
  omega

omit [Arch] in
theorem trieSup_nodup (lo : Nat) : (trieSup lo).Nodup := by
  refine List.Nodup.map ?_ List.nodup_range
  intro i j hij
  have hij : 2 * lo + 2 + 64 * i = 2 * lo + 2 + 64 * j := hij
  omega

theorem trieSup_ok {s : TrieSpec.St} {a : TrieSpec.Ab} {lo : Nat} {A B : List Elem} (h : TrieEx s a lo A B) (hlo : lo < 2 ^ 30) :
    levels trieCfg64 ≤ (trieSup lo).length ∧ (trieSup lo).Nodup ∧
    ∀ b ∈ trieSup lo, a.unused b ∧ b % 2 = 0 ∧ b ≠ 0 ∧ b < 2 ^ sizeBit := by
  refine ⟨by simp only [trieSup, List.length_map, List.length_range]; decide, trieSup_nodup lo, ?_⟩
  intro b hb
  obtain ⟨h1, h2, h3, h4⟩ := mem_trieSup hb
  refine ⟨⟨?_, fun v hv => ?_⟩, h3, h4, by arch⟩
  · rw [h.busy]; exact decide_eq_false (fun h5 => absurd (h3.symm.trans h5) (by decide))
  · have := h.low v b hv; omega

theorem TrieEx.start : ∃ s a, TrieEx s a 0 [] [] := by
  have hc := (C36_trie_multimap _ trieCfg64_ok)
  obtain ⟨o0, s0, r0, _⟩ := hc.extend (.init trieInit0) (.init 0) trivial
  obtain ⟨o1, s1, r1, _⟩ := hc.extend r0 (.init 1) trivial
  refine ⟨_, _, r1, rfl, rfl, ?_, ?_, rfl, ?_⟩
  · intro v hv
    simp only [TrieSpec.sys, TrieSpec.next]
    rw [upd_ne (by omega), upd_ne (by omega)]; rfl
  · intro v b hb
    have : b ∈ ([] : List Ptr) := by
      simp only [TrieSpec.sys, TrieSpec.next, upd_apply, trieAb0] at hb
      split at hb
      · exact hb
      · split at hb <;> exact hb
    simp at this
  · funext b
    simp [TrieSpec.sys, TrieSpec.next, trieAb0, upd]

theorem TrieEx.insert0 {s : TrieSpec.St} {a : TrieSpec.Ab} {lo : Nat} {A B : List Elem} (h : TrieEx s a lo A B) (p d k : Nat)
    (hlo : lo < 2 ^ 30) (hk : k < 2 ^ 32) (hp : trieMem0.heap.valid p = true) (ev : p % 2 = 0)
    (hA : p ∉ A.map Elem.node) (hB : p ∉ B.map Elem.node) :
    ∃ s' a', TrieEx s' a' (2 * lo + 1000) (A ++ [⟨p, d, k⟩]) B := by
  obtain ⟨s1, s2, s3⟩ := trieSup_ok h hlo
  obtain ⟨out, s', r, n, hn, rfl⟩ := (C36_trie_multimap _ trieCfg64_ok).extend h.reach (.insert 0 p d k (trieSup lo))
    ⟨by rw [h.a0]; rfl, by rw [h.live]; exact hp, h.not_stored hA hB, ev, hk, s1, s2, s3⟩
  refine ⟨_, _, r, ?_, ?_, ?_, ?_, h.live, h.busy⟩
  · simp only [TrieSpec.sys, TrieSpec.next, Ab.onTrie, upd_same, h.a0, Option.map_some]
  · simp only [TrieSpec.sys, TrieSpec.next, Ab.onTrie]; rw [upd_ne (by decide)]; exact h.a1
  · intro v hv
    simp only [TrieSpec.sys, TrieSpec.next, Ab.onTrie]
    rw [upd_ne (by omega)]; exact h.rest v hv
  · intro v b hb
    have low : b ∈ a.owned v ∨ b ∈ trieSup lo := by
      simp only [TrieSpec.sys, TrieSpec.next, Ab.onTrie, upd_apply] at hb
      split at hb
      · next e =>
        subst e
        rcases List.mem_append.1 (List.mem_filter.1 hb).1 with hb | hb
        · exact Or.inl hb
        · exact Or.inr (List.mem_of_mem_take hb)
      · exact Or.inl hb
    rcases low with hb | hb
    · have := h.low v b hb; omega
    · exact (mem_trieSup hb).2.1

/-- Four elements, two with the same key, two keys which differ in the last bit. -/
theorem trieReach : ∃ s a lo, lo < 2 ^ 30 ∧ TrieEx s a lo [⟨32, 10, 6⟩, ⟨64, 20, 7⟩, ⟨96, 30, 6⟩, ⟨128, 40, 2 ^ 32 - 1⟩] [] := by
  obtain ⟨_, _, h⟩ := TrieEx.start
  obtain ⟨_, _, h⟩ := h.insert0 32 10 6 (by decide) (by decide) (by decide) (by decide) (by simp) (by simp)
  obtain ⟨_, _, h⟩ := h.insert0 64 20 7 (by decide) (by decide) (by decide) (by decide) (by simp) (by simp)
  obtain ⟨_, _, h⟩ := h.insert0 96 30 6 (by decide) (by decide) (by decide) (by decide) (by simp) (by simp)
  obtain ⟨s, a, h⟩ := h.insert0 128 40 (2 ^ 32 - 1) (by decide) (by decide) (by decide) (by decide) (by simp) (by simp)
  exact ⟨s, a, _, by decide, h⟩

/-- C36 on the example. -/
example : ∃ s a, (TrieSpec.sys trieCfg64).Reach s a ∧
    (∃ s', TrieSpec.step trieCfg64 (.search 0 6) s = some (⟨.val 10, [], []⟩, s')) ∧
    (∃ s', TrieSpec.step trieCfg64 (.search 0 8) s = some (⟨.val 0, [], []⟩, s')) ∧
    (∃ F s', TrieSpec.step trieCfg64 (.remove 0 7) s = some (⟨.val 20, [], F⟩, s')) ∧
    (∃ F s', TrieSpec.step trieCfg64 (.removeExisting 0 96) s = some (⟨.val 30, [], F⟩, s')) ∧
    (∃ s', TrieSpec.step trieCfg64 (.count 0) s = some (⟨.val 4, [], []⟩, s')) := by
  obtain ⟨s, a, lo, hlo, h⟩ := trieReach
  have so : (a.val 0).isSome := by rw [h.a0]; rfl
  refine ⟨s, a, h.reach, ?_, ?_, ?_, ?_, ?_⟩
  · obtain ⟨out, s', e, al⟩ := (C36_trie_multimap _ trieCfg64_ok) s a h.reach (.search 0 6) ⟨so, by decide⟩
    exact ⟨s', (show out = _ from al _ h.a0) ▸ e⟩
  · obtain ⟨out, s', e, al⟩ := (C36_trie_multimap _ trieCfg64_ok) s a h.reach (.search 0 8) ⟨so, by decide⟩
    exact ⟨s', (show out = _ from al _ h.a0) ▸ e⟩
  · obtain ⟨out, s', e, al⟩ := (C36_trie_multimap _ trieCfg64_ok) s a h.reach (.remove 0 7) ⟨so, by decide⟩
    obtain ⟨F, _, _, rfl⟩ := al _ h.a0
    exact ⟨F, s', e⟩
  · obtain ⟨out, s', e, al⟩ := (C36_trie_multimap _ trieCfg64_ok) s a h.reach (.removeExisting 0 96) ⟨_, h.a0, by simp⟩
    obtain ⟨F, _, _, x, hx, hn, rfl⟩ := al _ h.a0
    have : x.data = 30 := by
      simp only [List.mem_cons, List.not_mem_nil, or_false] at hx
      rcases hx with rfl | rfl | rfl | rfl <;> first | rfl | (exact absurd hn (by decide))
    rw [this] at e
    exact ⟨F, s', e⟩
  · obtain ⟨out, s', e, al⟩ := (C36_trie_multimap _ trieCfg64_ok) s a h.reach (.count 0) so
    exact ⟨s', (show out = _ from al _ h.a0) ▸ e⟩

/-- The frame of C36 on the example: removing the key 7 does not touch the nodes with the key 6. -/
example : ∃ s a s' out, (TrieSpec.sys trieCfg64).Reach s a ∧ TrieSpec.step trieCfg64 (.remove 0 7) s = some (out, s') ∧
    s'.mem.heap.next 32 = s.mem.heap.next 32 ∧ s'.var 1 = s.var 1 := by
  obtain ⟨s, a, lo, hlo, h⟩ := trieReach
  have so : (a.val 0).isSome := by rw [h.a0]; rfl
  have hl : TrieSpec.legal trieCfg64 a (.remove 0 7) := ⟨so, by decide⟩
  obtain ⟨out, s', e, al⟩ := (C36_trie_multimap _ trieCfg64_ok) s a h.reach (.remove 0 7) hl
  have f := C36_trie_frame trieCfg64 trieCfg64_ok s a h.reach _ hl trivial out s' e
  refine ⟨s, a, s', out, h.reach, e, (f.1 32 ?_).1, f.2.2.2 1 (by simp [TrieSpec.mayVar])⟩
  rintro ⟨es, hv, x, hx, h7, h32⟩
  rw [h.a0] at hv
  cases hv
  simp only [List.mem_cons, List.not_mem_nil, or_false] at hx
  rcases hx with rfl | rfl | rfl | rfl <;> simp at h7 h32

/-- A key of 33 bits. -/
example (m : TMem) (t : Trie) : trieInsert trieCfg64 t 32 1 (2 ^ 32) m = none :=
  (C36_trie_key_limit trieCfg64 trieCfg64_ok m t 32 1 (2 ^ 32) (by decide)).1

/-- C37 on the example. -/
example : ∃ s a, (TrieSpec.sys trieCfg64).Reach s a ∧
    walkBucket trieCfg64 (s.var 0) 6 s.mem = some ([⟨32, 10, 6⟩, ⟨96, 30, 6⟩], s.mem) := by
  obtain ⟨s, a, lo, hlo, h⟩ := trieReach
  exact ⟨s, a, h.reach, C37_trie_bucket trieCfg64 trieCfg64_ok s a h.reach 0 _ h.a0 6 (by decide)⟩

/-- C38 on the example: the keys 6 and 7 need a block at each one of the ten levels. -/
example : ∃ s a, (TrieSpec.sys trieCfg64).Reach s a ∧ (a.owned 0).length = 10 ∧ a.owned 1 = [] ∧
    trieMemoryUsage trieCfg64 (s.var 0) = 4 * nodeSize + 10 * (8 * ptrSize) := by
  obtain ⟨s, a, lo, hlo, h⟩ := trieReach
  have e : blocksFor trieCfg64 (keySet [⟨32, 10, 6⟩, ⟨64, 20, 7⟩, ⟨96, 30, 6⟩, ⟨128, 40, 2 ^ 32 - 1⟩]) = 10 := by decide +kernel
  refine ⟨s, a, h.reach, ?_, C38_trie_empty _ trieCfg64_ok s a h.reach 1 h.a1, ?_⟩
  · rw [(C38_trie_blocks _ trieCfg64_ok s a h.reach 0 _ h.a0).2.2.2, e]
  · rw [C38_trie_memory_usage _ trieCfg64_ok s a h.reach 0 _ h.a0, e]
    cases ‹Arch› <;> decide

/-- C38, two keys in different buckets need no block. -/
example : ∃ s a, (TrieSpec.sys trieCfg64).Reach s a ∧ a.val 0 = some [⟨32, 10, 6⟩, ⟨64, 20, 2 ^ 31⟩] ∧ a.owned 0 = [] := by
  obtain ⟨_, _, h⟩ := TrieEx.start
  obtain ⟨_, _, h⟩ := h.insert0 32 10 6 (by decide) (by decide) (by decide) (by decide) (by simp) (by simp)
  obtain ⟨s, a, h⟩ := h.insert0 64 20 (2 ^ 31) (by decide) (by decide) (by decide) (by decide) (by simp) (by simp)
  exact ⟨s, a, h.reach, h.a0, C38_trie_no_block _ trieCfg64_ok s a h.reach 0 _ h.a0 (by decide)⟩

/-- Another configuration, for the 64 bit build: 64 bit keys, 16 children. -/
example : (@TrieSpec.sys .w64 ⟨64, 16⟩).Correct :=
  @C36_trie_multimap .w64 ⟨64, 16⟩ (@CfgOk.mk .w64 ⟨64, 16⟩ ⟨4, by decide, by decide, by decide⟩ (by decide) (by decide))

end Tommy
