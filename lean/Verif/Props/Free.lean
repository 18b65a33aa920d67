import Verif.Proof.Free
import Verif.Props.Hash
import Verif.Props.List
import Verif.Props.Tree
/-!
  Property C64: the deallocation documented for the containers, `foreach` with `free()` and then `done`.
-/
set_option autoImplicit false
namespace Tommy

variable [Arch]
open FreeSpec

/-- What C64 says of a state of a hashtable: `foreach` with `free()` and then `done` return, they deallocate exactly
    the objects stored, each one once (a second `free()` is undefined), and the vectors allocated by the
    table, whatever `free()` leaves in the memory of the objects. -/
def HashFreeOk {T : Type} (freeAll : List Nat → Heap → T → MM Unit) (m0 : Mem) (s : HashSpec.St T) (a : HashSpec.Ab) : Prop :=
  ∀ (offs : List Nat) (off : Nat) (junk : Heap), Objects a.live offs off (a.elems.map fun e => (e.node, e.data)) →
    ∃ m', freeAll offs junk s.tbl s.mem = some ((), m') ∧
      Freed offs (a.elems.map HashSpec.Elem.data) s.mem.heap m'.heap ∧ m'.vlen = m0.vlen ∧
      ∀ r p, m0.cell? r = some p → m'.cell? r = some p

/-- **C64** for `tommy_hashtable`, up to 2^60 buckets (for more the size of the bucket vector overflows, see C18). -/
theorem C64_hashtable (n : Nat) (hn : n ≤ HashSpec.maxBuckets) (m0 : Mem) (s a)
    (hr : (HashSpec.sys HashSpec.hashtableImpl (hashtableInit n) m0).Reach s a) : HashFreeOk hashtableFreeAll m0 s a :=
  fun _ _ _ w => hash_freeAll (HashSpec.hashtable_ok m0) (fun _ h _ _ e => vfree_heap h e)
    ((HashSpec.tblSys_correct hn m0).2 s a hr) w

/-- **C64** for `tommy_hashdyn`. -/
theorem C64_hashdyn (m0 : Mem) (s a) (hr : (HashSpec.sys HashSpec.hashdynImpl hashdynInit m0).Reach s a) :
    HashFreeOk hashdynFreeAll m0 s a :=
  fun _ _ _ w => hash_freeAll (HashSpec.hashdyn_ok m0) (fun _ h _ _ e => vfree_heap h e)
    ((HashSpec.dynSys_correct m0).2 s a hr) w

/-- **C64** for `tommy_hashlin`, in any phase of the resize. -/
theorem C64_hashlin (m0 : Mem) (s a) (hr : (HashSpec.sys HashSpec.hashlinImpl hashlinInit m0).Reach s a) :
    HashFreeOk hashlinFreeAll m0 s a :=
  fun _ _ _ w => hash_freeAll (HashSpec.hashlin_ok m0) (fun t h m m' e => hashlinDone_heap t h m m' e)
    ((HashSpec.linSys_correct m0).2 s a hr) w

/-- **C64** for `tommy_list`, which has no `done`. -/
theorem C64_list (s : ListSpec.St) (a : ListSpec.Ab) (hr : ListSpec.sys.Reach s a) (v : Nat) (l)
    (hl : a.val v = some l) (offs : List Nat) (off : Nat) (junk : Heap) (w : Objects a.live offs off l) :
    ∃ h', listFreeAll offs junk (s.var v) s.heap = some ((), h') ∧ Freed offs (l.map Prod.snd) s.heap h' := by
  have i := ListSpec.reach_inv hr
  have nd : (l.map Prod.fst).Nodup := (C02_list_links s a hr v l hl).distinct
  have hp := w.pay (List.Perm.refl l) nd
  rw [i.live] at hp
  obtain ⟨h', e, f⟩ := callAll_free (junk := junk) _ s.heap hp
  refine ⟨h', ?_, f⟩
  rw [listFreeAll, C06_list_foreach s a hr v l hl, e]
  intro as x bs hL h1 h2 same e1 q hq
  obtain ⟨a1, a2, _, a4, _⟩ := free_same w (List.Perm.refl l) nd hL e1 q hq
  obtain ⟨b1, b2, b3⟩ := same q hq
  refine ⟨b1.trans ?_, a2.trans b2, a4.trans b3⟩
  simp only [Heap.ok, a1]

/-- **C64** for `tommy_tree`, which has no `done`. -/
theorem C64_tree (s : TreeSpec.St) (a : TreeSpec.Ab) (hr : TreeSpec.sys.Reach s a) (v : Nat) (o : TreeSpec.OSet)
    (ho : a.val v = some o) (offs : List Nat) (off : Nat) (junk : Heap) (w : Objects a.live offs off o.elems) :
    ∃ h', treeFreeAll offs junk (s.var v) s.heap = some ((), h') ∧ Freed offs (o.elems.map Prod.snd) s.heap h' := by
  have i := TreeSpec.reach_inv hr
  obtain ⟨t, k⟩ := i.tree v o ho
  have nd : (o.elems.map Prod.fst).Nodup := k.perm.nodup_iff.1 k.nodup
  obtain ⟨l, pm, _, hf⟩ := C32_tree_foreach s a hr v o ho
  have hp := w.pay pm nd
  rw [i.live] at hp
  obtain ⟨h', e, f⟩ := callAll_free (junk := junk) _ s.heap hp
  refine ⟨h', ?_, ?_⟩
  · rw [treeFreeAll, hf, e]
    intro as x bs hL h1 h2 same e1 q hq
    obtain ⟨a1, a2, a3, a4, _⟩ := free_same w pm nd hL e1 q hq
    obtain ⟨b1, b2, b3, b4⟩ := same q hq
    refine ⟨b1.trans ?_, a2.trans b2, a3.trans b3, a4.trans b4⟩
    simp only [Heap.ok, a1]
  · have : ∀ p, Inside offs (l.map Prod.snd) p ↔ Inside offs (o.elems.map Prod.snd) p := by
      intro p
      simp only [Inside, (pm.map Prod.snd).mem_iff]
    exact ⟨fun p hq => f.1 p ((this p).2 hq), fun p hq => f.2 p fun hn => hq ((this p).1 hn)⟩

/-! ### Non vacuity: objects with two nodes, at the offsets 8 and 40, the first one in the container -/

namespace FreeEx
open HashSpec

/-- The objects 56 and 120, with the nodes 64, 96 and 128, 160. -/
def objs : List Elem := [⟨64, 56, 5⟩, ⟨128, 120, 5 + 64⟩]

theorem reach {T : Type} {I : Impl T} {init : MM T} (hi : ∃ s a, (sys I init HashEx.m0).init s a)
    (hc : (sys I init HashEx.m0).Correct) : ∃ s a, (sys I init HashEx.m0).Reach s a ∧ a.elems = objs ∧
      a.live = HashEx.m0.heap.valid := by
  obtain ⟨s0, a0, h⟩ := hi
  obtain ⟨_, _, he, hl⟩ := id h
  obtain ⟨el, li⟩ := a0
  simp only at he hl
  subst he hl
  have r0 : (sys I init HashEx.m0).Reach s0 _ := .init h
  obtain ⟨_, _, r1, _⟩ := hc.extend r0 (.insert 64 56 5) ⟨rfl, by simp [Ab.stored]⟩
  obtain ⟨_, _, r2, _⟩ := hc.extend r1 (.insert 128 120 (5 + 64)) ⟨rfl, by simp [Ab.stored, sys, next]⟩
  exact ⟨_, _, r2, rfl, rfl⟩

omit [Arch] in
theorem objects : Objects HashEx.m0.heap.valid [8, 40] 8 (objs.map fun e => (e.node, e.data)) := by
  refine ⟨by simp, by simp [objs], by simp [objs], by simp [objs, HashEx.m0], by simp [objs]⟩

omit [Arch] in
/-- C64 on the example: after it the nodes 64, 96, 128, 160 don't exist, 32 and 192 do. -/
theorem run {T : Type} {freeAll : List Nat → Heap → T → MM Unit} {s : St T} {a : Ab} (h : HashFreeOk freeAll HashEx.m0 s a)
    (he : a.elems = objs) (hl : a.live = HashEx.m0.heap.valid) (hv : s.mem.heap.valid = HashEx.m0.heap.valid) (junk : Heap) :
    ∃ m', freeAll [8, 40] junk s.tbl s.mem = some ((), m') ∧ m'.vlen = HashEx.m0.vlen ∧
      (∀ p ∈ [64, 96, 128, 160], m'.heap.valid p = false) ∧ ∀ p ∈ [32, 192], m'.heap.valid p = true := by
  obtain ⟨m', e, f, k, _⟩ := h [8, 40] 8 junk (by rw [he, hl]; exact objects)
  rw [he] at f
  refine ⟨m', e, k, fun p hp => f.1 p ?_, fun p hp => ?_⟩
  · simp at hp
    rcases hp with rfl | rfl | rfl | rfl <;> simp [Inside, objs]
  · rw [(f.2 p ?_).1, hv]
    · simp at hp
      rcases hp with rfl | rfl <;> rfl
    · simp at hp
      rcases hp with rfl | rfl <;> simp [Inside, objs]

theorem ten : 10 ≤ maxBuckets := by rw [maxBuckets_eq]; arch

example : ∃ s a, (sys hashtableImpl (hashtableInit 10) HashEx.m0).Reach s a ∧ a.elems = objs ∧ ∀ junk,
    ∃ m', hashtableFreeAll [8, 40] junk s.tbl s.mem = some ((), m') ∧ m'.vlen = HashEx.m0.vlen ∧
      (∀ p ∈ [64, 96, 128, 160], m'.heap.valid p = false) ∧ ∀ p ∈ [32, 192], m'.heap.valid p = true := by
  obtain ⟨s, a, r, he, hl⟩ := reach (C08_hashtable 10 ten HashEx.m0 HashEx.start).1
    (C08_hashtable 10 ten HashEx.m0 HashEx.start).2
  exact ⟨s, a, r, he, run (C64_hashtable 10 ten _ s a r) he hl
    (((tblSys_correct ten HashEx.m0).2 s a r).live.symm.trans hl)⟩

example : ∃ s a, (sys hashdynImpl hashdynInit HashEx.m0).Reach s a ∧ a.elems = objs ∧ ∀ junk,
    ∃ m', hashdynFreeAll [8, 40] junk s.tbl s.mem = some ((), m') ∧ m'.vlen = HashEx.m0.vlen ∧
      (∀ p ∈ [64, 96, 128, 160], m'.heap.valid p = false) ∧ ∀ p ∈ [32, 192], m'.heap.valid p = true := by
  obtain ⟨s, a, r, he, hl⟩ := reach (C09_hashdyn HashEx.m0 HashEx.start).1 (C09_hashdyn HashEx.m0 HashEx.start).2
  exact ⟨s, a, r, he, run (C64_hashdyn _ s a r) he hl (((dynSys_correct HashEx.m0).2 s a r).live.symm.trans hl)⟩

example : ∃ s a, (sys hashlinImpl hashlinInit HashEx.m0).Reach s a ∧ a.elems = objs ∧ ∀ junk,
    ∃ m', hashlinFreeAll [8, 40] junk s.tbl s.mem = some ((), m') ∧ m'.vlen = HashEx.m0.vlen ∧
      (∀ p ∈ [64, 96, 128, 160], m'.heap.valid p = false) ∧ ∀ p ∈ [32, 192], m'.heap.valid p = true := by
  obtain ⟨s, a, r, he, hl⟩ := reach (C10_hashlin HashEx.m0 HashEx.start).1 (C10_hashlin HashEx.m0 HashEx.start).2
  exact ⟨s, a, r, he, run (C64_hashlin _ s a r) he hl (((linSys_correct HashEx.m0).2 s a r).live.symm.trans hl)⟩

/-- A list of the objects 1 and 11, with the nodes 9, 41 and 19, 51. -/
theorem reachList : ∃ s a, ListSpec.sys.Reach s a ∧ a.val 0 = some [(9, 1), (19, 11)] ∧ a.live = exAb.live := by
  have hc := C01_list_sequence
  have r0 : ListSpec.sys.Reach exSt exAb := .init exInit
  obtain ⟨_, _, r1, _⟩ := hc.extend r0 (.init 0) trivial
  obtain ⟨_, _, r2, _⟩ := hc.extend r1 (.insertTail 0 9 1)
    ⟨rfl, rfl, by rintro ⟨v, l, hl, hp⟩; simp [ListSpec.sys, ListSpec.next, upd, exAb] at hl; grind⟩
  obtain ⟨_, _, r3, _⟩ := hc.extend r2 (.insertTail 0 19 11)
    ⟨rfl, rfl, by rintro ⟨v, l, hl, hp⟩; simp [ListSpec.sys, ListSpec.next, upd, exAb, ListSpec.Ab.get] at hl; grind⟩
  exact ⟨_, _, r3, rfl, rfl⟩

example : ∃ s a, ListSpec.sys.Reach s a ∧ a.val 0 = some [(9, 1), (19, 11)] ∧ ∀ junk,
    ∃ h', listFreeAll [8, 40] junk (s.var 0) s.heap = some ((), h') ∧ h'.valid 9 = false ∧ h'.valid 51 = false ∧
      h'.valid 11 = true := by
  obtain ⟨s, a, r, hv, hl⟩ := reachList
  refine ⟨s, a, r, hv, fun junk => ?_⟩
  obtain ⟨h', e, f⟩ := C64_list s a r 0 _ hv [8, 40] 8 junk
    ⟨by simp, by simp, by simp, by simp [hl, exAb], by simp⟩
  refine ⟨h', e, f.1 9 (by simp [Inside]), f.1 51 (by simp [Inside]), ?_⟩
  rw [(f.2 11 (by simp [Inside])).1, ← (ListSpec.reach_inv r).live, hl]
  rfl

/-- A tree of the objects 56 and 120. -/
theorem reachTree : ∃ s a, TreeSpec.sys.Reach s a ∧ a.val 0 = some ⟨tcmp, [(64, 56), (128, 120)]⟩ ∧ a.live = treeAb.live := by
  have hc := C31_tree_set
  have r0 := Sys.Reach.step (sys := TreeSpec.sys) (op := .init 0 tcmp) (.init treeInitOk) treeCmp rfl
  obtain ⟨_, _, r1, _⟩ := hc.extend r0 (.insert 0 64 56)
    ⟨rfl, rfl, by rintro ⟨v, o, ho, hp⟩; simp [TreeSpec.sys, TreeSpec.next, upd, treeAb] at ho; grind⟩
  obtain ⟨_, _, r2, _⟩ := hc.extend r1 (.insert 0 128 120)
    ⟨rfl, rfl, by rintro ⟨v, o, ho, hp⟩; simp [TreeSpec.sys, TreeSpec.next, TreeSpec.Ab.onSet, TreeSpec.OSet.find, tcmp, upd, treeAb] at ho; grind⟩
  exact ⟨_, _, r2, rfl, rfl⟩

example : ∃ s a, TreeSpec.sys.Reach s a ∧ a.val 0 = some ⟨tcmp, [(64, 56), (128, 120)]⟩ ∧ ∀ junk,
    ∃ h', treeFreeAll [8, 40] junk (s.var 0) s.heap = some ((), h') ∧ h'.valid 64 = false ∧ h'.valid 160 = false ∧
      h'.valid 32 = true := by
  obtain ⟨s, a, r, hv, hl⟩ := reachTree
  refine ⟨s, a, r, hv, fun junk => ?_⟩
  obtain ⟨h', e, f⟩ := C64_tree s a r 0 _ hv [8, 40] 8 junk
    ⟨by simp, by simp, by simp, by simp [hl]; decide, by simp⟩
  refine ⟨h', e, f.1 64 (by simp [Inside]), f.1 160 (by simp [Inside]), ?_⟩
  rw [(f.2 32 (by simp [Inside])).1, ← (TreeSpec.reach_inv r).live, hl]
  rfl

end FreeEx
end Tommy
