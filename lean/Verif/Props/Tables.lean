import Verif.Proof.Tables
import Verif.Props.Hash
import Verif.Props.Free
/-!
  Property C66: any number of hashtables of the three kinds, created and destroyed at any time in the same memory.
-/
set_option autoImplicit false
namespace Tommy

variable [Arch]
open HashSpec (Elem cellCount GoodCallback callAll)
open TablesSpec (tblImpl)

/-- **C66**: no call is undefined, and each one gives the result of its table alone, whatever happens to the others. -/
theorem C66_tables (m0 : Mem) : (TablesSpec.sys m0).Correct := (TablesSpec.sys_correct m0).1

/-- The elements visited by `foreach` on one of the tables. -/
theorem C66_foreach (m0 : Mem) {s a} (hr : (TablesSpec.sys m0).Reach s a) (i : Nat) (es : List Elem)
    (he : a.val i = some es) : ∃ t, s.tbl i = some t ∧ ∃ L : List Elem, L.Perm es ∧ ∀ func, GoodCallback s.mem func L →
      tblImpl.foreach t func s.mem = callAll func (L.map Elem.data) s.mem := by
  obtain ⟨owner, I⟩ := (TablesSpec.sys_correct m0).2 s a hr
  obtain ⟨t, ht, g⟩ := I.table he
  exact ⟨t, ht, (TablesSpec.tbl_ok _).foreach g⟩

/-- A call on the table `i` changes only the nodes that it stores and the one inserted. -/
theorem C66_frame (m0 : Mem) {s a} (hr : (TablesSpec.sys m0).Reach s a) (i : Nat) (op : HashSpec.Op)
    (hl : TablesSpec.legal a (.call i op)) {out s'} (e : TablesSpec.step (.call i op) s = some (out, s')) :
    s'.mem.heap.valid = s.mem.heap.valid ∧ ∀ q, ¬ a.within i q → TablesSpec.given op ≠ some q →
      s'.mem.heap.next q = s.mem.heap.next q ∧ s'.mem.heap.prev q = s.mem.heap.prev q ∧
      s'.mem.heap.data q = s.mem.heap.data q ∧ s'.mem.heap.index q = s.mem.heap.index q := by
  obtain ⟨owner, I⟩ := (TablesSpec.sys_correct m0).2 s a hr
  obtain ⟨hc, ⟨es, he, hleg⟩, _⟩ := hl
  obtain ⟨t, ht, g⟩ := I.table he
  obtain ⟨o1, s1, e1, _⟩ := HashSpec.step_inv (TablesSpec.tbl_ok _) (I.hash ht he) hleg
  obtain ⟨fv, fs⟩ := HashSpec.step_frame (TablesSpec.tbl_ok _) (I.hash ht he) hleg hc e1
  simp only [TablesSpec.step, ht, Option.bind_some, e1, Option.map_some] at e
  injection e with e
  injection e with _ e
  subst e
  refine ⟨fv, fun q h1 h2 => ?_⟩
  have := fs q fun hm => (TablesSpec.mayWrite_given hm).elim (fun h => h1 ⟨es, he, h⟩) h2
  exact ⟨this.next, this.prev, this.data, this.index⟩

/-- init and done change no node. -/
theorem C66_frame_init (m0 : Mem) {s a} (hr : (TablesSpec.sys m0).Reach s a) (i : Nat) (op : TablesSpec.Op)
    (ho : (∃ k, op = .init i k) ∨ op = .done i) (hl : TablesSpec.legal a op) {out s'} (e : TablesSpec.step op s = some (out, s')) :
    s'.mem.heap = s.mem.heap := by
  obtain ⟨owner, I⟩ := (TablesSpec.sys_correct m0).2 s a hr
  rcases ho with ⟨k, rfl⟩ | rfl
  · obtain ⟨t, m, e1, _, hh⟩ := TablesSpec.start_ok (k := k) (m0 := s.mem) (fun n hn => by subst hn; exact hl.2)
      ⟨by rw [← I.live]; exact I.liveOk, I.fresh⟩
    simp only [TablesSpec.step, e1, Option.map_some] at e
    injection e with e
    injection e with _ e
    subst e
    exact hh
  · obtain ⟨es, he⟩ := Option.ne_none_iff_exists'.1 hl
    obtain ⟨t, ht, g⟩ := I.table he
    obtain ⟨m', e1, hh, _⟩ := (TablesSpec.tbl_ok _).done g
    simp only [TablesSpec.step, ht, Option.bind_some, e1, Option.map_some] at e
    injection e with e
    injection e with _ e
    subst e
    exact hh

/-- foreach with `free()` and done deallocate the objects of the table and change no other node. -/
theorem C66_frame_destroy (m0 : Mem) {s a} (hr : (TablesSpec.sys m0).Reach s a) (i : Nat) (offs : List Nat) (off : Nat) (junk : Heap)
    (hl : TablesSpec.legal a (.destroy i offs off junk)) {out s'} (e : TablesSpec.step (.destroy i offs off junk) s = some (out, s')) :
    ∃ es, a.val i = some es ∧ FreeSpec.Freed offs (es.map Elem.data) s.mem.heap s'.mem.heap := by
  obtain ⟨owner, I⟩ := (TablesSpec.sys_correct m0).2 s a hr
  obtain ⟨es, he, hw, _⟩ := hl
  obtain ⟨t, ht, g⟩ := I.table he
  obtain ⟨m', e1, f, _⟩ := FreeSpec.hash_freeAll (junk := junk) (TablesSpec.tbl_ok _) TablesSpec.done_heap (I.hash ht he) hw
  rw [← TablesSpec.freeAll_eq] at e1
  simp only at e1
  simp only [TablesSpec.step, ht, Option.bind_some, e1, Option.map_some] at e
  injection e with e
  injection e with _ e
  subst e
  exact ⟨es, he, f⟩

/-- The vectors live are the ones live at the start and the ones of the tables, all different; the memory usage
    function of each table counts its own, and its nodes (modulo 2^64). -/
theorem C66_usage (m0 : Mem) {s a} (hr : (TablesSpec.sys m0).Reach s a) : ∃ vs : Nat → List Nat,
    (∀ i, (vs i).Nodup) ∧ (∀ i j v, i ≠ j → v ∈ vs i → v ∉ vs j) ∧ (∀ i v, v ∈ vs i → m0.vlen v = none) ∧
    (∀ v, s.mem.vlen v ≠ none ↔ m0.vlen v ≠ none ∨ ∃ i, v ∈ vs i) ∧ (∀ i, a.val i = none → vs i = []) ∧
    ∀ i es, a.val i = some es → ∃ t, s.tbl i = some t ∧
      TablesSpec.usage t = (ptrSize * cellCount s.mem (vs i) + nodeSize * es.length) % 2 ^ sizeBit := by
  obtain ⟨owner, I⟩ := (TablesSpec.sys_correct m0).2 s a hr
  have key : ∀ i, ∃ vs : List Nat, vs.Nodup ∧ (∀ v, v ∈ vs ↔ owner v = some i) ∧ ∀ es, a.val i = some es →
      ∃ t, s.tbl i = some t ∧ TablesSpec.usage t = (ptrSize * cellCount s.mem vs + nodeSize * es.length) % 2 ^ sizeBit := by
    intro i
    cases he : a.val i with
    | none =>
      refine ⟨[], .nil, fun v => ?_, by simp⟩
      simp only [List.not_mem_nil, false_iff]
      intro ho
      exact (I.own v i ho).2.2 ((I.dom i).2 he)
    | some es =>
      obtain ⟨t, ht, g⟩ := I.table he
      have : ∀ v, (TablesSpec.without s.mem owner i).vlen v = none ∧ s.mem.vlen v ≠ none ↔ owner v = some i := by
        intro v
        simp only [TablesSpec.without]
        constructor
        · rintro ⟨h1, h2⟩
          by_contra h
          rw [if_neg h] at h1
          exact h2 h1
        · intro h
          exact ⟨by rw [if_pos h], (I.own v i h).1⟩
      obtain ⟨vs, hv, hu⟩ : ∃ vs, HashSpec.NewVecs (TablesSpec.without s.mem owner i) s.mem vs ∧
          TablesSpec.usage t = (ptrSize * cellCount s.mem vs + nodeSize * es.length) % 2 ^ sizeBit := by
        cases t with
        | hashtable t =>
          have g : HashSpec.TblInv _ t _ _ := g
          refine ⟨_, g.flat.vecs.1, ?_⟩
          rw [g.flat.vecs.2, TablesSpec.usage, hashtableMemoryUsage, hashtableCount, g.count, sizeT, Nat.mul_comm ptrSize, Nat.mul_comm nodeSize]
        | hashdyn t =>
          have g : HashSpec.DynInv _ t _ _ := g
          refine ⟨_, g.flat.vecs.1, ?_⟩
          rw [g.flat.vecs.2, TablesSpec.usage, hashdynMemoryUsage, hashdynCount, g.count, sizeT, Nat.mul_comm ptrSize, Nat.mul_comm nodeSize]
        | hashlin t =>
          have g : HashSpec.LinInv _ t _ _ := g
          obtain ⟨vs, sg⟩ := g.segs
          refine ⟨_, (sg.vecs g.bit).1, ?_⟩
          rw [(sg.vecs g.bit).2, TablesSpec.usage, hashlinMemoryUsage, g.count, sizeT, g.max, Nat.mul_comm ptrSize, Nat.mul_comm nodeSize]
      refine ⟨vs, hv.nodup, fun v => (hv.mem v).trans (this v), fun es' h => ?_⟩
      injection h with h
      subst h
      exact ⟨t, ht, hu⟩
  choose vs h1 h2 h3 using key
  refine ⟨vs, h1, fun i j v hij hi hj => ?_, fun i v hi => (I.own v i ((h2 i v).1 hi)).2.1, fun v => ?_, fun i hi => ?_, h3⟩
  · have := ((h2 i v).1 hi).symm.trans ((h2 j v).1 hj)
    injection this with this
    exact hij this
  · cases ho : owner v with
    | none =>
      rw [I.rest v ho]
      constructor
      · exact .inl
      · rintro (h | ⟨i, hi⟩)
        · exact h
        · rw [(h2 i v).1 hi] at ho; cases ho
    | some i => exact ⟨fun _ => .inr ⟨i, (h2 i v).2 ho⟩, fun _ => (I.own v i ho).1⟩
  · refine List.eq_nil_iff_forall_not_mem.2 fun v hv => ?_
    exact (I.own v i ((h2 i v).1 hv)).2.2 ((I.dom i).2 hi)

/-- The vectors of others keep their content; when no table exists they are the only ones. The live nodes are the ones that
    the program has allocated and not deallocated. -/
theorem C66_release (m0 : Mem) {s a} (hr : (TablesSpec.sys m0).Reach s a) :
    (∀ r p, m0.cell? r = some p → s.mem.cell? r = some p) ∧ s.mem.heap.valid = a.live ∧
    ((∀ i, a.val i = none) → s.mem.vlen = m0.vlen) := by
  obtain ⟨owner, I⟩ := (TablesSpec.sys_correct m0).2 s a hr
  refine ⟨I.keep, I.live.symm, fun h => funext fun v => ?_⟩
  cases ho : owner v with
  | none => exact I.rest v ho
  | some i => exact absurd ((I.dom i).2 (h i)) (I.own v i ho).2.2

/-! ### Non vacuity -/

namespace TablesEx
open TablesSpec

theorem call {s a} (hr : (sys HashEx.m0).Reach s a) (op : Op) (hl : legal a op) :
    ∃ out s', step op s = some (out, s') ∧ allowed a op out ∧ (sys HashEx.m0).Reach s' (next a op out) := by
  obtain ⟨out, s', e, al⟩ := C66_tables HashEx.m0 s a hr op hl
  exact ⟨out, s', e, al, .step (sys := sys HashEx.m0) (op := op) hr hl e⟩

/-- The tables given as a list. -/
def vals (l : List (Nat × List Elem)) : Nat → Option (List Elem) := fun i => (l.find? (·.1 == i)).map (·.2)

abbrev live0 : Ptr → Bool := HashEx.m0.heap.valid

/-- A table of type hashdyn with the objects 56 and 120 (nodes 64, 96 and 128, 160), and a hashlin with the payload 7. -/
theorem filled : ∃ s, (sys HashEx.m0).Reach s ⟨upd (upd (fun _ => none) 0 (some FreeEx.objs)) 1 (some [⟨192, 7, 5⟩]), live0⟩ := by
  have r0 : (sys HashEx.m0).Reach ⟨HashEx.m0, fun _ => none⟩ ⟨fun _ => none, live0⟩ :=
    .init ⟨HashEx.start, rfl, fun _ => rfl, fun _ => rfl, rfl⟩
  obtain ⟨_, _, _, _, r1⟩ := call r0 (.init 0 .hashdyn) ⟨rfl, trivial⟩
  obtain ⟨_, _, _, _, r2⟩ := call r1 (.call 0 (.insert 64 56 5)) ⟨trivial, ⟨[], rfl, rfl, by simp [HashSpec.Ab.stored]⟩, by
    rintro p - ⟨j, es, h, hp⟩
    simp only [next, upd_apply] at h
    split at h
    · cases h; simp at hp
    · cases h⟩
  obtain ⟨_, _, _, _, r3⟩ := call r2 (.init 1 .hashlin) ⟨rfl, trivial⟩
  obtain ⟨_, _, _, _, r4⟩ := call r3 (.call 1 (.insert 192 7 5)) ⟨trivial, ⟨[], rfl, rfl, by simp [HashSpec.Ab.stored]⟩, by
    rintro p hq ⟨j, es, h, hp⟩
    cases hq
    simp only [next, upd_apply] at h
    split at h
    · cases h; simp at hp
    · split at h
      · cases h; simp [HashSpec.next] at hp
      · cases h⟩
  obtain ⟨_, s, _, _, r5⟩ := call r4 (.call 0 (.insert 128 120 (5 + 64))) ⟨trivial, ⟨[⟨64, 56, 5⟩], rfl, rfl, by
      simp [HashSpec.Ab.stored]⟩, by
    rintro p hq ⟨j, es, h, hp⟩
    cases hq
    simp only [next, upd_apply] at h
    split at h
    · cases h; simp [HashSpec.next] at hp
    · split at h
      · cases h; simp [HashSpec.next] at hp
      · cases h⟩
  refine ⟨s, ?_⟩
  convert r5 using 1
  simp only [next, HashSpec.next]
  congr 1
  funext i
  rcases i with _ | _ | i <;> simp [upd_apply, FreeEx.objs]

/-- The first table is destroyed with its objects, and another one of type hashtable takes its place; the second
    table still has its element, and no other one. -/
example : ∃ s s1 s2 s3 s4, (sys HashEx.m0).Reach s ⟨upd (upd (fun _ => none) 0 (some FreeEx.objs)) 1 (some [⟨192, 7, 5⟩]), live0⟩ ∧
    step (.destroy 0 [8, 40] 8 s.mem.heap) s = some (.unit, s1) ∧ step (.init 0 (.hashtable 10)) s1 = some (.unit, s2) ∧
    step (.call 1 (.search (fun _ => 0) 5)) s2 = some (.val 7, s3) ∧ step (.call 0 (.search (fun _ => 0) 5)) s3 = some (.val 0, s4) ∧
    s4.mem.heap.valid 96 = false ∧ s4.mem.heap.valid 192 = true := by
  obtain ⟨s, r⟩ := filled
  obtain ⟨o1, s1, e1, rfl, r1⟩ := call r (.destroy 0 [8, 40] 8 s.mem.heap) ⟨FreeEx.objs, rfl, FreeEx.objects, by
    rintro j p hj ⟨es, h, hp⟩
    simp only [upd_apply, if_neg hj] at h
    split at h
    · cases h
      simp only [List.map_cons, List.map_nil, List.mem_singleton] at hp
      subst hp
      decide
    · cases h⟩
  obtain ⟨o2, s2, e2, rfl, r2⟩ := call r1 (.init 0 (.hashtable 10)) ⟨rfl, by archd⟩
  obtain ⟨o3, s3, e3, ⟨es3, h3, rfl⟩, r3⟩ := call r2 (.call 1 (.search (fun _ => 0) 5)) ⟨trivial, ⟨[⟨192, 7, 5⟩], rfl, trivial⟩, by
    intro p h; cases h⟩
  cases h3
  obtain ⟨o4, s4, e4, ⟨es4, h4, rfl⟩, r4⟩ := call r3 (.call 0 (.search (fun _ => 0) 5)) ⟨trivial, ⟨[], rfl, trivial⟩, by
    intro p h; cases h⟩
  cases h4
  have hv := (C66_release _ r4).2.1
  refine ⟨s, s1, s2, s3, s4, r, e1, e2, e3, e4, ?_, ?_⟩
  · rw [hv]; rfl
  · rw [hv]; rfl

/-- When both are destroyed the memory has the vectors that it had at the start. -/
example : ∃ s s1 s2, (sys HashEx.m0).Reach s ⟨upd (upd (fun _ => none) 0 (some FreeEx.objs)) 1 (some [⟨192, 7, 5⟩]), live0⟩ ∧
    step (.done 1) s = some (.unit, s1) ∧ step (.done 0) s1 = some (.unit, s2) ∧ s.mem.vlen ≠ HashEx.m0.vlen ∧
    s2.mem.vlen = HashEx.m0.vlen := by
  obtain ⟨s, r⟩ := filled
  obtain ⟨o1, s1, e1, rfl, r1⟩ := call r (.done 1) (by simp [legal])
  obtain ⟨o2, s2, e2, rfl, r2⟩ := call r1 (.done 0) (by simp [legal, next, upd_apply])
  refine ⟨s, s1, s2, r, e1, e2, ?_, (C66_release _ r2).2.2 ?_⟩
  · intro he
    obtain ⟨owner, I⟩ := (sys_correct HashEx.m0).2 s _ r
    obtain ⟨t, _, g⟩ := I.table (i := 1) (es := [⟨192, 7, 5⟩]) (by simp)
    obtain ⟨v, h1, h2⟩ := g.some_vec
    rw [he, I.dead h1] at h2
    exact h2 rfl
  · intro i
    rcases i with _ | _ | i <;> simp [next, upd_apply]

end TablesEx
end Tommy
