import Verif.Proof.TrieInp
/-!
  Properties C39 and the in-place part of C37 (tommytrieinp.h, tommytrieinp.c).
-/
set_option linter.unusedSimpArgs false
set_option autoImplicit false
namespace Tommy

variable [Arch]
open HashSpec (Elem)

/-- **C39** Every history of calls on any number of in-place tries, with any foreign write between the calls
    (also to the child pointers of the nodes in no trie), has no undefined behaviour, fails no assert,
    terminates, and gives the results of the multimaps. -/
theorem C39_trieinp_multimap (c : TrieCfg) (hc : InpSpec.CfgOk c) : (InpSpec.sys c).Correct := InpSpec.correct hc

theorem inpCfg_ok : InpSpec.CfgOk inpCfg :=
  ⟨⟨2, by decide, by decide, by decide⟩, by decide, by cases ‹Arch› <;> decide⟩

/-- C39 for the configuration in the source. -/
theorem C39_trieinp_default : (InpSpec.sys inpCfg).Correct := C39_trieinp_multimap _ inpCfg_ok

/-- C39, said on a sequence of calls from an initial state. -/
theorem C39_trieinp_history (s : InpSpec.St) (a : InpSpec.Ab) (h : (InpSpec.sys inpCfg).init s a)
    (ops : List InpSpec.Op) : (InpSpec.sys inpCfg).Runs s a ops :=
  C39_trieinp_default.runs ops s a (.init h)

/-- C39, frame: a call changes only the inserted node, the list fields of the nodes of its own trie with the same
    key, the struct of its own trie and the child pointers of the nodes of its own trie. -/
theorem C39_trieinp_frame (c : TrieCfg) (hc : InpSpec.CfgOk c) (s : InpSpec.St) (a : InpSpec.Ab)
    (hr : (InpSpec.sys c).Reach s a) (op : InpSpec.Op) (hleg : InpSpec.legal c a op) (hcall : InpSpec.isCall op)
    (out : InpSpec.Out) (s' : InpSpec.St) (e : InpSpec.step c op s = some (out, s')) :
    (∀ q, ¬ InpSpec.mayNode a op q → s'.mem.heap.next q = s.mem.heap.next q ∧ s'.mem.heap.prev q = s.mem.heap.prev q ∧
      s'.mem.heap.data q = s.mem.heap.data q ∧ s'.mem.heap.index q = s.mem.heap.index q) ∧
    s'.mem.heap.valid = s.mem.heap.valid ∧
    (∀ b, ¬ InpSpec.mayObj s a op b → s'.mem.csize b = s.mem.csize b ∧ s'.mem.cell b = s.mem.cell b) ∧
    (∀ w, ¬ InpSpec.mayVar op w → s'.var w = s.var w) := by
  obtain ⟨out', s'', e', _, _, fr⟩ := InpSpec.step_inv hc s a op (InpSpec.reach_inv hc s a hr) hleg
  rw [e] at e'
  simp only [Option.some.injEq, Prod.mk.injEq] at e'
  obtain ⟨rfl, rfl⟩ := e'
  obtain ⟨f, hv⟩ := fr hcall
  exact ⟨fun q hq => ⟨(f.node q hq).next, (f.node q hq).prev, (f.node q hq).data, (f.node q hq).index⟩, f.valid,
    fun b hb => ⟨(f.obj b hb).1, funext (f.obj b hb).2⟩, hv⟩

/-- C39, a node removed can be freed or reused at once: nothing that the trie reads is in it. -/
theorem C39_trieinp_removed_free (c : TrieCfg) (hc : InpSpec.CfgOk c) (s : InpSpec.St) (a : InpSpec.Ab)
    (hr : (InpSpec.sys c).Reach s a) (v : Nat) (p : Ptr) (es : List Elem) (hv : a.val v = some es)
    (hp : p ∈ es.map Elem.node) :
    ∃ out s', InpSpec.step c (.removeExisting v p) s = some (out, s') ∧
      InpSpec.legal c (InpSpec.next a (.removeExisting v p) out) (.free p) ∧
      (InpSpec.sys c).Reach s' (InpSpec.next a (.removeExisting v p) out) := by
  have i := InpSpec.reach_inv hc s a hr
  have hl : InpSpec.legal c a (.removeExisting v p) := ⟨es, hv, hp⟩
  obtain ⟨out, s', e, al⟩ := C39_trieinp_multimap c hc s a hr (.removeExisting v p) hl
  have r := Sys.Reach.step (sys := InpSpec.sys c) (op := .removeExisting v p) hr hl e
  refine ⟨out, s', e, ⟨i.stored_live hc ⟨v, es, hv, hp⟩, ?_⟩, r⟩
  rintro ⟨w, es', hw, hpw⟩
  by_cases h : w = v
  · subst h
    simp only [InpSpec.next, InpSpec.Ab.onTrie, upd_same, hv, Option.map_some, Option.some.injEq] at hw
    subst hw
    obtain ⟨f, hf, rfl⟩ := List.mem_map.1 hpw
    have := (List.mem_filter.1 hf).2
    simp at this
  · simp only [InpSpec.next, InpSpec.Ab.onTrie] at hw
    rw [upd_ne h] at hw
    exact i.sep v w es es' (Ne.symm h) hv hw p hp hpw

/-- C39, the limit of the keys is needed: with a bigger key the assert of insert, remove and search fails. -/
theorem C39_trieinp_key_limit (c : TrieCfg) (hc : InpSpec.CfgOk c) (m : TMem) (t : InpTrie) (p : Ptr) (d k : Nat)
    (hk : 2 ^ c.bit ≤ k) :
    inpInsert c t p d k m = none ∧ inpRemove c t k m = none ∧ inpSearch c t k m = none ∧ inpBucket c t k m = none := by
  have hb : ¬ k >>> inpBucketShift c < inpBucketMax c := fun h => absurd ((hc.key_lt k).1 h) (by omega)
  have ha : assertT (k >>> inpBucketShift c < inpBucketMax c) m = none := if_neg hb
  have hbk : inpBucket c t k m = none := by
    simp only [inpBucket, run_bind, shrKey_run _ hc.shift_lt, Option.bind_some, ha, Option.bind_none]
  refine ⟨?_, ?_, ?_, hbk⟩
  · simp only [inpInsert, run_bind, shrKey_run _ hc.shift_lt, Option.bind_some, ha, Option.bind_none]
  · simp only [inpRemove, run_bind, shrKey_run _ hc.shift_lt, Option.bind_some, ha, Option.bind_none]
  · simp only [inpSearch, run_bind, hbk, Option.bind_none]

/-- C39, `tommy_trie_inplace_memory_usage` is the total size of the nodes (2^58 nodes of 64 bytes, or 2^27 of
    32 bytes, would fill the address space). -/
theorem C39_trieinp_memory_usage (s : InpSpec.St) (a : InpSpec.Ab) (hr : (InpSpec.sys inpCfg).Reach s a) (v : Nat)
    (es : List Elem) (hv : a.val v = some es) (len : es.length < 2 ^ sizeBit / (2 * nodeSize)) :
    inpMemoryUsage inpCfg (s.var v) = es.length * (2 * nodeSize) := by
  have i := InpSpec.reach_inv inpCfg_ok s a hr
  have e : inpNodeSize inpCfg = 2 * nodeSize := by cases ‹Arch› <;> decide
  rw [inpMemoryUsage, inpCount, (i.trie v es hv).count, e, sizeT]
  exact Nat.mod_eq_of_lt (by arch)

/-- **C37** for the in-place trie: the list of the bucket of a key contains all and only the elements with that
    key, in insertion order, and looking at it changes nothing. -/
theorem C37_trieinp_bucket (c : TrieCfg) (hc : InpSpec.CfgOk c) (s : InpSpec.St) (a : InpSpec.Ab)
    (hr : (InpSpec.sys c).Reach s a) (v : Nat) (es : List Elem) (hv : a.val v = some es) (k : Nat) (hk : k < 2 ^ c.bit) :
    InpSpec.walkBucket c (s.var v) k s.mem = some (es.filter fun e => e.hash = k, s.mem) :=
  InpSpec.walkBucket_spec hc ((InpSpec.reach_inv hc s a hr).trie v es hv) hk

/-! ### Non vacuity -/

/-- A memory with nodes at 64, 128, ... 6336, the structs of the tries at the odd addresses, garbage everywhere. -/
def inpMem0 : TMem where
  heap := {
    valid := fun p => decide (p % 64 = 0 ∧ 0 < p ∧ p < 6400)
    next := fun p => p * 7
    prev := fun p => p + 1
    data := fun p => p
    index := fun p => p }
  cell := fun b i => b + i
  csize := fun b => if b % 2 = 1 then inpBucketMax inpCfg else inpCfg.treeMax
  supply := []
  freed := []
def inpSt0 : InpSpec.St := { mem := inpMem0, var := fun v => ⟨2 * v + 1, v⟩ }
def inpAb0 : InpSpec.Ab where
  val := fun _ => none
  live := inpMem0.heap.valid
  busy := fun b => decide (b % 2 = 1)

theorem inpInit0 : (InpSpec.sys inpCfg).init inpSt0 inpAb0 := by
  have hv : ∀ p : Nat, inpMem0.heap.valid p = true → p % 64 = 0 ∧ p + nodeSize ≤ 2 ^ sizeBit := by
    intro p h
    have h' : p % 64 = 0 ∧ 0 < p ∧ p < 6400 := of_decide_eq_true h
    arch
  have key : ∀ p q : Nat, p % 64 = 0 → q % 64 = 0 → p ≠ q → p + nodeSize ≤ q ∨ q + nodeSize ≤ p := by arch
  have even : ∀ p : Nat, p % 64 = 0 → ¬ p % 2 = 1 := by omega
  refine ⟨fun _ => rfl, rfl, ⟨rfl, fun p hp => (hv p hp).2,
    fun p q hp hq hne => key p q (hv p hp).1 (hv q hq).1 hne⟩, ?_, ?_, ?_⟩
  · intro p hp
    have h := even p (hv p hp).1
    exact ⟨if_neg h, decide_eq_false h⟩
  · intro v
    have h : (2 * v + 1) % 2 = 1 := by omega
    exact ⟨if_pos h, decide_eq_true h⟩
  · intro v w h
    have h : 2 * v + 1 = 2 * w + 1 := h
    omega

/-- The state of an example: the contents of two tries. -/
structure InpEx (s : InpSpec.St) (a : InpSpec.Ab) (A B : List Elem) : Prop where
  reach : (InpSpec.sys inpCfg).Reach s a
  a0 : a.val 0 = some A
  a1 : a.val 1 = some B
  rest : ∀ v, 1 < v → a.val v = none
  live : a.live = inpMem0.heap.valid

theorem InpEx.not_stored {s : InpSpec.St} {a : InpSpec.Ab} {A B : List Elem} (h : InpEx s a A B) {p : Ptr}
    (hA : p ∉ A.map Elem.node) (hB : p ∉ B.map Elem.node) : ¬ a.stored p := by
  rintro ⟨v, es, hv, hp⟩
  rcases v with _ | _ | v
  · rw [h.a0] at hv; cases hv; exact hA hp
  · rw [h.a1] at hv; cases hv; exact hB hp
  · rw [h.rest _ (by omega)] at hv; cases hv

theorem InpEx.start : ∃ s a, InpEx s a [] [] := by
  have hc := C39_trieinp_default
  obtain ⟨o0, s0, r0, _⟩ := hc.extend (.init inpInit0) (.init 0) trivial
  obtain ⟨o1, s1, r1, _⟩ := hc.extend r0 (.init 1) trivial
  refine ⟨_, _, r1, rfl, rfl, ?_, rfl⟩
  intro v hv
  simp only [InpSpec.sys, InpSpec.next]
  rw [upd_ne (by omega), upd_ne (by omega)]; rfl

theorem InpEx.insert0 {s : InpSpec.St} {a : InpSpec.Ab} {A B : List Elem} (h : InpEx s a A B) (p d k : Nat)
    (hk : k < 2 ^ 32) (hp : inpMem0.heap.valid p = true)
    (hA : p ∉ A.map Elem.node) (hB : p ∉ B.map Elem.node) : ∃ s' a', InpEx s' a' (A ++ [⟨p, d, k⟩]) B := by
  obtain ⟨out, s', r, _⟩ := C39_trieinp_default.extend h.reach (.insert 0 p d k)
    ⟨by rw [h.a0]; rfl, by rw [h.live]; exact hp, h.not_stored hA hB, hk⟩
  refine ⟨_, _, r, ?_, ?_, ?_, h.live⟩
  · simp only [InpSpec.sys, InpSpec.next, InpSpec.Ab.onTrie, upd_same, h.a0, Option.map_some]
  · simp only [InpSpec.sys, InpSpec.next, InpSpec.Ab.onTrie]; rw [upd_ne (by decide)]; exact h.a1
  · intro v hv
    simp only [InpSpec.sys, InpSpec.next, InpSpec.Ab.onTrie]
    rw [upd_ne (by omega)]; exact h.rest v hv

/-- Five elements in the same bucket, two with the same key, one below the others. -/
theorem inpReach : ∃ s a, InpEx s a
    [⟨64, 10, 6⟩, ⟨128, 20, 7⟩, ⟨192, 30, 6⟩, ⟨256, 40, 5⟩, ⟨320, 50, 2 ^ 20⟩] [] := by
  obtain ⟨_, _, h⟩ := InpEx.start
  obtain ⟨_, _, h⟩ := h.insert0 64 10 6 (by decide) (by decide) (by simp) (by simp)
  obtain ⟨_, _, h⟩ := h.insert0 128 20 7 (by decide) (by decide) (by simp) (by simp)
  obtain ⟨_, _, h⟩ := h.insert0 192 30 6 (by decide) (by decide) (by simp) (by simp)
  obtain ⟨_, _, h⟩ := h.insert0 256 40 5 (by decide) (by decide) (by simp) (by simp)
  obtain ⟨s, a, h⟩ := h.insert0 320 50 (2 ^ 20) (by decide) (by decide) (by simp) (by simp)
  exact ⟨s, a, h⟩

/-- C39 on the example. -/
example : ∃ s a, (InpSpec.sys inpCfg).Reach s a ∧
    (∃ s', InpSpec.step inpCfg (.search 0 6) s = some (.val 10, s')) ∧
    (∃ s', InpSpec.step inpCfg (.search 0 8) s = some (.val 0, s')) ∧
    (∃ s', InpSpec.step inpCfg (.remove 0 6) s = some (.val 10, s')) ∧
    (∃ s', InpSpec.step inpCfg (.removeExisting 0 192) s = some (.val 30, s')) ∧
    (∃ s', InpSpec.step inpCfg (.count 0) s = some (.val 5, s')) ∧
    (∃ s', InpSpec.step inpCfg (.memoryUsage 0) s = some (.val (5 * (2 * nodeSize)), s')) := by
  obtain ⟨s, a, h⟩ := inpReach
  have so : (a.val 0).isSome := by rw [h.a0]; rfl
  refine ⟨s, a, h.reach, ?_, ?_, ?_, ?_, ?_, ?_⟩
  · obtain ⟨out, s', e, al⟩ := C39_trieinp_default s a h.reach (.search 0 6) ⟨so, by decide⟩
    exact ⟨s', (show out = _ from al _ h.a0) ▸ e⟩
  · obtain ⟨out, s', e, al⟩ := C39_trieinp_default s a h.reach (.search 0 8) ⟨so, by decide⟩
    exact ⟨s', (show out = _ from al _ h.a0) ▸ e⟩
  · obtain ⟨out, s', e, al⟩ := C39_trieinp_default s a h.reach (.remove 0 6) ⟨so, by decide⟩
    exact ⟨s', (show out = _ from al _ h.a0) ▸ e⟩
  · obtain ⟨out, s', e, al⟩ := C39_trieinp_default s a h.reach (.removeExisting 0 192) ⟨_, h.a0, by simp⟩
    obtain ⟨x, hx, hn, rfl⟩ := al _ h.a0
    have : x.data = 30 := by
      simp only [List.mem_cons, List.not_mem_nil, or_false] at hx
      rcases hx with rfl | rfl | rfl | rfl | rfl <;> first | rfl | (exact absurd hn (by decide))
    rw [this] at e
    exact ⟨s', e⟩
  · obtain ⟨out, s', e, al⟩ := C39_trieinp_default s a h.reach (.count 0) so
    exact ⟨s', (show out = _ from al _ h.a0) ▸ e⟩
  · obtain ⟨out, s', e, al⟩ := C39_trieinp_default s a h.reach (.memoryUsage 0) so
    have hu : out = .val (5 * (2 * nodeSize)) := (al _ h.a0).trans (congrArg _ (by cases ‹Arch› <;> decide))
    exact ⟨s', hu ▸ e⟩

/-- The frame of C39 on the example: removing the key 7 does not touch the list fields of the nodes with the key 6. -/
example : ∃ s a s' out, (InpSpec.sys inpCfg).Reach s a ∧ InpSpec.step inpCfg (.remove 0 7) s = some (out, s') ∧
    s'.mem.heap.next 64 = s.mem.heap.next 64 ∧ s'.var 1 = s.var 1 := by
  obtain ⟨s, a, h⟩ := inpReach
  have so : (a.val 0).isSome := by rw [h.a0]; rfl
  have hl : InpSpec.legal inpCfg a (.remove 0 7) := ⟨so, by decide⟩
  obtain ⟨out, s', e, al⟩ := C39_trieinp_default s a h.reach (.remove 0 7) hl
  have f := C39_trieinp_frame inpCfg inpCfg_ok s a h.reach _ hl trivial out s' e
  refine ⟨s, a, s', out, h.reach, e, (f.1 64 ?_).1, f.2.2.2 1 (by simp [InpSpec.mayVar])⟩
  rintro ⟨es, hv, x, hx, h7, h64⟩
  rw [h.a0] at hv
  cases hv
  simp only [List.mem_cons, List.not_mem_nil, or_false] at hx
  rcases hx with rfl | rfl | rfl | rfl | rfl <;> simp at h7 h64

/-- Removing and freeing the root of the crowded bucket. -/
example : ∃ s a out s', (InpSpec.sys inpCfg).Reach s a ∧ InpSpec.step inpCfg (.removeExisting 0 64) s = some (out, s') ∧
    InpSpec.legal inpCfg (InpSpec.next a (.removeExisting 0 64) out) (.free 64) := by
  obtain ⟨s, a, h⟩ := inpReach
  obtain ⟨out, s', e, l, _⟩ := C39_trieinp_removed_free inpCfg inpCfg_ok s a h.reach 0 64 _ h.a0 (by simp)
  exact ⟨s, a, out, s', h.reach, e, l⟩

/-- A key of 33 bits. -/
example (m : TMem) (t : InpTrie) : inpInsert inpCfg t 64 1 (2 ^ 32) m = none :=
  (C39_trieinp_key_limit inpCfg inpCfg_ok m t 64 1 (2 ^ 32) (by decide)).1

/-- C37 and the memory usage on the example. -/
example : ∃ s a, (InpSpec.sys inpCfg).Reach s a ∧
    InpSpec.walkBucket inpCfg (s.var 0) 6 s.mem = some ([⟨64, 10, 6⟩, ⟨192, 30, 6⟩], s.mem) ∧
    inpMemoryUsage inpCfg (s.var 0) = 5 * (2 * nodeSize) := by
  obtain ⟨s, a, h⟩ := inpReach
  exact ⟨s, a, h.reach, C37_trieinp_bucket inpCfg inpCfg_ok s a h.reach 0 _ h.a0 6 (by decide),
    C39_trieinp_memory_usage s a h.reach 0 _ h.a0 (by cases ‹Arch› <;> decide)⟩

/-- Another configuration, for the 64 bit build: 64 bit keys, 16 branches. -/
example : (@InpSpec.sys .w64 ⟨64, 16⟩).Correct :=
  @C39_trieinp_multimap .w64 ⟨64, 16⟩
    (@InpSpec.CfgOk.mk .w64 ⟨64, 16⟩ ⟨4, by decide, by decide, by decide⟩ (by decide) (by decide))

end Tommy
