import Verif.Proof.Index
/-! C63: the program of the manual for objects with several keys, two tommy_hashdyn and a tommy_list. -/
set_option autoImplicit false
namespace Tommy

variable [Arch]

/-- Every history of the program: each call returns, the searches find the first object inserted with the
    key (whatever is in the memory which is not of the objects), the iterator sees the objects in
    insertion order. -/
theorem C63_index (m0 : Mem) : (IndexSpec.sys m0).Correct :=
  Sys.correct_of_inv (fun _ _ h => IndexSpec.Inv.init h) (fun _ _ _ I hl => I.call hl)

/-- In every reachable state the three containers have the same number of elements, and the memory
    outside the objects and the two vectors of buckets is as at the start. -/
theorem C63_state (m0 : Mem) {s a} (hr : (IndexSpec.sys m0).Reach s a) :
    hashdynCount s.hash0 = a.stored.length ∧ hashdynCount s.hash1 = a.stored.length ∧
    listCount s.list s.mem.heap = some (a.stored.length, s.mem.heap) ∧
    IndexSpec.Owns m0 s.mem a.live ∧
    ∃ v w, v ≠ w ∧ m0.vlen v = none ∧ m0.vlen w = none ∧ ∀ x, x ≠ v → x ≠ w → s.mem.vlen x = m0.vlen x := by
  have I := Sys.reach_inv (fun _ _ h => IndexSpec.Inv.init h) (fun _ _ _ I hl => I.call hl) s a hr
  refine ⟨by simpa [hashdynCount] using I.tabs.a.count, by simpa [hashdynCount] using I.tabs.b.count, ?_,
    ⟨I.nodes, fun p hp => ?_, I.tabs.keep⟩, _, _, I.tabs.ne, I.tabs.newa, I.tabs.newb, I.tabs.vlen⟩
  · have h := ListSpec.listCountLoop_spec _ 0 I.list.ok I.list.seg
    rw [← I.list.head] at h
    simpa [listCount, listHead] using h
  · exact ⟨(I.same p hp).next, (I.same p hp).prev, (I.same p hp).data, (I.same p hp).index⟩

/-- The end of the program, from every reachable state: `free` is called once on each stored object, also
    if it frees the nodes of the tables which are still there; then nothing of the program is left, but
    the objects which were removed and not freed. -/
theorem C63_done (m0 : Mem) {s a} (hr : (IndexSpec.sys m0).Reach s a) : ∃ s', indexDone s = some ((), s') ∧
    IndexSpec.Owns m0 s'.mem (fun o => a.live o && !(a.stored.map IndexSpec.Rec.obj).contains o) ∧
    s'.mem.vlen = m0.vlen :=
  (Sys.reach_inv (fun _ _ h => IndexSpec.Inv.init h) (fun _ _ _ I hl => I.call hl) s a hr).done

/-- If every removed object was freed, the program ends with the memory it started with. -/
theorem C63_no_leak (m0 : Mem) {s a} (hr : (IndexSpec.sys m0).Reach s a)
    (hf : ∀ o, a.live o = true → o ∈ a.stored.map IndexSpec.Rec.obj) : ∃ s', indexDone s = some ((), s') ∧
    s'.mem.heap.valid = m0.heap.valid ∧ s'.mem.vlen = m0.vlen := by
  obtain ⟨s', e, O, hv⟩ := C63_done m0 hr
  refine ⟨s', e, ?_, hv⟩
  funext p
  rw [Bool.eq_iff_iff, O.nodes]
  constructor
  · rintro (h | ⟨o, ho, _⟩)
    · exact h
    · simp only [Bool.and_eq_true, Bool.not_eq_true', List.contains_eq_mem] at ho
      have := hf o ho.1
      simp [this] at ho
  · exact Or.inl

/-! ### Non vacuity -/

namespace IndexEx
open IndexSpec

/-- A node at 32 and a vector of 5 cells, of others, and garbage everywhere. -/
def m0 : Mem where
  heap := { valid := fun p => p == 32, next := fun p => p + 7, prev := fun p => p * 3, data := fun p => p ^ 2, index := fun p => p + 1 }
  vlen := fun v => if v = 0 then some 5 else none
  vcell := fun v i => some (v + i)
  vnext := 1

theorem start : HashSpec.StartOk m0 := by
  refine ⟨⟨rfl, ?_, ?_⟩, ?_⟩
  · intro p hp
    have : p = 32 := by simpa [m0] using hp
    subst this; exact (show 32 + nodeSize ≤ 2 ^ sizeBit by arch)
  · intro p q hp hq ne
    have h1 : p = 32 := by simpa [m0] using hp
    have h2 : q = 32 := by simpa [m0] using hq
    exact absurd (h1.trans h2.symm) ne
  · intro v hv
    have : v ≠ 0 := by rintro rfl; exact absurd hv (by decide)
    simp [m0, this]

theorem init : ∃ s, (sys m0).Reach s ⟨[], fun _ => false⟩ := by
  obtain ⟨t, m1, u, m, e1, e2, _, _⟩ := HashSpec.Tabs.init start
  refine ⟨⟨m, t, u, 0, fun _ => 7, fun _ => 7⟩, .init ⟨start, ⟨fun _ => 7, fun _ => 7, ?_⟩, rfl, fun _ => rfl⟩⟩
  simp [indexInit, e1, e2]

/-- A call, from a reachable state. -/
theorem call {s a} (hr : (sys m0).Reach s a) (op : Op) (hl : legal m0.heap.valid a op) :
    ∃ out s', step op s = some (out, s') ∧ allowed a op out ∧ (sys m0).Reach s' (next a op out) := by
  obtain ⟨out, s', e, al⟩ := C63_index m0 s a hr op hl
  exact ⟨out, s', e, al, .step (sys := sys m0) (op := op) hr hl e⟩

abbrev live (os : List Nat) : Ptr → Bool := fun p => os.contains p

omit [Arch] in
theorem live_upd (os : List Nat) (o : Nat) : upd (live os) o true = live (o :: os) := by
  funext p
  by_cases e : p = o <;> simp [upd, live, e]

/-- Three objects, two of them with the same second key. -/
def recs : List Rec := [⟨1000, 1, 5⟩, ⟨3000, 2, 6⟩, ⟨2000, 3, 5⟩]

theorem fits {os : List Nat} {o : Nat} (h0 : 64 ≤ o) (h1 : o ≤ 100000) (h : ∀ q ∈ os, o + 104 ≤ q ∨ q + 104 ≤ o) :
    Fits m0.heap.valid (live os) o := by
  refine ⟨?_, ?_, ?_, ?_⟩
  · exact Nat.ne_of_gt (Nat.lt_of_lt_of_le (by decide) h0)
  · exact Nat.le_trans (Nat.add_le_add_right h1 _) (by arch)
  · intro q hq
    have key : ∀ x y : Nat, x + 104 ≤ y ∨ y + 104 ≤ x → x + (8 + 3 * nodeSize) ≤ y ∨ y + (8 + 3 * nodeSize) ≤ x := by arch
    exact key _ _ (h q (by simpa [live] using hq))
  · intro p hp
    have : p = 32 := by simpa [m0] using hp
    exact .inr (by rw [this]; exact Nat.le_trans (show 32 + nodeSize ≤ 64 by arch) h0)

theorem mallocs : ∃ s, (sys m0).Reach s ⟨[], live [2000, 3000, 1000]⟩ := by
  obtain ⟨s, hr⟩ := init
  have hr : (sys m0).Reach s ⟨[], live []⟩ := hr
  obtain ⟨_, s, _, _, hr⟩ := call hr (.malloc 1000 m0.heap) (fits (os := []) (by decide) (by decide) (by decide))
  have hr : (sys m0).Reach s ⟨[], live [1000]⟩ := by simpa only [next, live_upd] using hr
  obtain ⟨_, s, _, _, hr⟩ := call hr (.malloc 3000 m0.heap) (fits (by decide) (by decide) (by decide))
  have hr : (sys m0).Reach s ⟨[], live [3000, 1000]⟩ := by simpa only [next, live_upd] using hr
  obtain ⟨_, s, _, _, hr⟩ := call hr (.malloc 2000 m0.heap) (fits (by decide) (by decide) (by decide))
  exact ⟨s, by simpa only [next, live_upd] using hr⟩

theorem inserts : ∃ s, (sys m0).Reach s ⟨recs, live [2000, 3000, 1000]⟩ := by
  obtain ⟨s, hr⟩ := mallocs
  obtain ⟨_, s, _, _, hr⟩ := call hr (.insert 1000 1 5) ⟨by decide, by simp⟩
  obtain ⟨_, s, _, _, hr⟩ := call hr (.insert 3000 2 6) ⟨by show live _ _ = true; decide, by simp [next]⟩
  obtain ⟨_, s, _, _, hr⟩ := call hr (.insert 2000 3 5) ⟨by show live _ _ = true; decide, by simp [next]⟩
  exact ⟨s, hr⟩

/-- The delete by the second key finds the first inserted, the second delete the other; then the other
    key of the first finds nothing, and the iterator sees only the last object. -/
example : ∃ s s1 s2 s3, (sys m0).Reach s ⟨recs, live [2000, 3000, 1000]⟩ ∧
    step (.delete (fun _ => 0) 5) s = some (.obj 1000, s1) ∧ step (.delete (fun _ => 0) 5) s1 = some (.obj 2000, s2) ∧
    step (.search0 (fun _ => 0) 1) s2 = some (.obj 0, s3) ∧
    (∃ s4, step (.iter [true, true]) s3 = some (.objs [3000], s4)) := by
  obtain ⟨s, hr⟩ := inserts
  obtain ⟨o, s1, e1, al1, hr1⟩ := call hr (.delete (fun _ => 0) 5) trivial
  have h1 : o = .obj 1000 := by simpa [allowed, recs, first] using al1
  subst h1
  have hn1 : next ⟨recs, live [2000, 3000, 1000]⟩ (.delete (fun _ => 0) 5) (.obj 1000) =
      ⟨[⟨3000, 2, 6⟩, ⟨2000, 3, 5⟩], live [2000, 3000, 1000]⟩ := by simp [next, recs, first]
  rw [hn1] at hr1
  obtain ⟨o, s2, e2, al2, hr2⟩ := call hr1 (.delete (fun _ => 0) 5) trivial
  have h2 : o = .obj 2000 := by simpa [allowed, first] using al2
  subst h2
  have hn2 : next ⟨[⟨3000, 2, 6⟩, ⟨2000, 3, 5⟩], live [2000, 3000, 1000]⟩ (.delete (fun _ => 0) 5) (.obj 2000) =
      ⟨[⟨3000, 2, 6⟩], live [2000, 3000, 1000]⟩ := by simp [next, first]
  rw [hn2] at hr2
  obtain ⟨o, s3, e3, al3, hr3⟩ := call hr2 (.search0 (fun _ => 0) 1) trivial
  have h3 : o = .obj 0 := by simpa [allowed, first] using al3
  subst h3
  obtain ⟨o, s4, e4, al4, _⟩ := call hr3 (.iter [true, true]) trivial
  have h4 : o = .objs [3000] := by simpa [allowed, next, visit] using al4
  subst h4
  exact ⟨s, s1, s2, s3, hr, e1, e2, e3, s4, e4⟩

/-- The iterator, backward from the first and then forward over the end. -/
example : visit (recs.map Rec.obj) [true, false, false, true, true] 0 = [1000, 3000, 1000, 2000] := by decide

/-- The end with the three objects stored: the memory is the one of the start. -/
example : ∃ s s', (sys m0).Reach s ⟨recs, live [2000, 3000, 1000]⟩ ∧ indexDone s = some ((), s') ∧
    s'.mem.heap.valid 1040 = false ∧ s'.mem.heap.valid 32 = true ∧ s'.mem.vlen = m0.vlen ∧ hashdynCount s.hash1 = 3 := by
  obtain ⟨s, hr⟩ := inserts
  obtain ⟨s', e, hv, hl⟩ := C63_no_leak m0 hr (by
    intro o ho
    have : o = 2000 ∨ o = 3000 ∨ o = 1000 := by simpa [live] using ho
    rcases this with rfl | rfl | rfl <;> simp [recs])
  exact ⟨s, s', hr, e, by rw [hv]; rfl, by rw [hv]; rfl, hl, (C63_state m0 hr).2.1⟩

end IndexEx
end Tommy
