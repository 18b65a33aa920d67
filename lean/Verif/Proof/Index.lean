import Verif.Proof.IndexTabs
import Verif.Proof.ListFrame
import Verif.Spec.Index
/-! The program of the manual for objects with several keys. -/
set_option linter.unusedSimpArgs false
namespace Tommy

variable [Arch]
namespace IndexSpec
open HashSpec (Elem Tabs SameNode LiveOk StartOk)

/-- The elements of the two tables. -/
def el0 (r : Rec) : Elem := ⟨hashNode0 r.obj, r.obj, (inthashU32 r.v0).toNat⟩
def el1 (r : Rec) : Elem := ⟨hashNode1 r.obj, r.obj, (inthashU32 r.v1).toNat⟩

/-- The allocated objects do not overlap. -/
structure Objs (other live : Ptr → Bool) : Prop where
  pos : ∀ o, live o = true → o ≠ 0
  top : ∀ o, live o = true → o + (8 + 3 * nodeSize) ≤ 2 ^ sizeBit
  apart : ∀ o o', live o = true → live o' = true → o = o' ∨ o + (8 + 3 * nodeSize) ≤ o' ∨ o' + (8 + 3 * nodeSize) ≤ o
  other : ∀ o p, live o = true → other p = true → o + (8 + 3 * nodeSize) ≤ p ∨ p + nodeSize ≤ o

omit [Arch] in
theorem off_ne {a b c : Nat} (h : 0 < c) : a + (c + b) ≠ 0 := by omega

theorem geom {o o' i j : Nat} (h : o = o' ∨ o + (8 + 3 * nodeSize) ≤ o' ∨ o' + (8 + 3 * nodeSize) ≤ o) (hi : i ≤ (8 + 2 * nodeSize)) (hj : j ≤ (8 + 2 * nodeSize))
    (e : o + i = o' + j) : o = o' ∧ i = j := by arch

theorem geom_other {o p i : Nat} (h : o + (8 + 3 * nodeSize) ≤ p ∨ p + nodeSize ≤ o) (hi : i ≤ (8 + 2 * nodeSize)) : p ≠ o + i := by arch

theorem Objs.inj {other live : Ptr → Bool} (O : Objs other live) {o o' i j : Nat} (h : live o = true)
    (h' : live o' = true) (hi : i ≤ (8 + 2 * nodeSize)) (hj : j ≤ (8 + 2 * nodeSize)) (e : o + i = o' + j) : o = o' ∧ i = j :=
  geom (O.apart o o' h h') hi hj e

theorem live_bounds {o q : Nat} {i j : Nat} (h : o = q ∨ o + (8 + 3 * nodeSize) ≤ q ∨ q + (8 + 3 * nodeSize) ≤ o)
    (hi : i = 8 ∨ i = (8 + nodeSize) ∨ i = (8 + 2 * nodeSize)) (hj : j = 8 ∨ j = (8 + nodeSize) ∨ j = (8 + 2 * nodeSize)) (ne : o + i ≠ q + j) :
    o + i + nodeSize ≤ q + j ∨ q + j + nodeSize ≤ o + i := by omega

theorem off_of {p o : Nat} (h : p = o + 8 ∨ p = o + (8 + nodeSize) ∨ p = o + (8 + 2 * nodeSize)) :
    ∃ i, (i = 8 ∨ i = (8 + nodeSize) ∨ i = (8 + 2 * nodeSize)) ∧ p = o + i := by
  rcases h with h | h | h
  · exact ⟨8, .inl rfl, h⟩
  · exact ⟨(8 + nodeSize), .inr (.inl rfl), h⟩
  · exact ⟨(8 + 2 * nodeSize), .inr (.inr rfl), h⟩

theorem in_bounds {p o i : Nat} (hi : i = 8 ∨ i = (8 + nodeSize) ∨ i = (8 + 2 * nodeSize)) (e : p = o + i) (t : o + (8 + 3 * nodeSize) ≤ 2 ^ sizeBit) :
    p + nodeSize ≤ 2 ^ sizeBit := by omega

theorem apart_other {p q o i : Nat} (hi : i = 8 ∨ i = (8 + nodeSize) ∨ i = (8 + 2 * nodeSize)) (h : o + (8 + 3 * nodeSize) ≤ p ∨ p + nodeSize ≤ o)
    (e : q = o + i) : p + nodeSize ≤ q ∨ q + nodeSize ≤ p := by omega

theorem Objs.liveOk {other live : Ptr → Bool} (O : Objs other live) (lo : LiveOk other) {valid : Ptr → Bool}
    (hv : ∀ p, valid p = true ↔ other p = true ∨ ∃ o, live o = true ∧ (p = o + 8 ∨ p = o + (8 + nodeSize) ∨ p = o + (8 + 2 * nodeSize))) :
    LiveOk valid where
  zero := by
    rw [← Bool.not_eq_true, hv]
    rintro (h | ⟨o, _, h⟩)
    · rw [lo.zero] at h; exact absurd h (by simp)
    · rcases h with h | h | h
      · exact absurd h (Nat.succ_ne_zero _).symm
      · exact absurd h (off_ne (by omega)).symm
      · exact absurd h (off_ne (by omega)).symm
  bound p hp := by
    rcases (hv p).1 hp with h | ⟨o, ho, h⟩
    · exact lo.bound p h
    · obtain ⟨i, hi, e⟩ := off_of h
      exact in_bounds hi e (O.top o ho)
  apart p q hp hq ne := by
    rcases (hv p).1 hp with h | ⟨o, ho, h⟩ <;> rcases (hv q).1 hq with h' | ⟨o', ho', h'⟩
    · exact lo.apart p q h h' ne
    · obtain ⟨i, hi, e⟩ := off_of h'
      exact apart_other hi (O.other o' p ho' h) e
    · obtain ⟨i, hi, e⟩ := off_of h
      exact (apart_other hi (O.other o q ho h') e).symm
    · obtain ⟨i, hi, rfl⟩ := off_of h
      obtain ⟨j, hj, rfl⟩ := off_of h'
      exact live_bounds (O.apart o o' ho ho') hi hj ne

/-- The invariant. -/
structure Inv (m0 : Mem) (s : Index) (a : Ab) : Prop where
  start : StartOk m0
  objs : Objs m0.heap.valid a.live
  tabs : Tabs m0 s.mem s.hash0 s.hash1 (a.stored.map el0) (a.stored.map el1)
  list : IsList s.mem.heap s.list (a.stored.map fun r => listNode r.obj)
  ldata : ∀ r ∈ a.stored, s.mem.heap.data (listNode r.obj) = r.obj
  vals : ∀ r ∈ a.stored, s.value0 r.obj = r.v0 ∧ s.value1 r.obj = r.v1
  live : ∀ r ∈ a.stored, a.live r.obj = true
  nodup : (a.stored.map Rec.obj).Nodup
  nodes : ∀ p, s.mem.heap.valid p = true ↔
    m0.heap.valid p = true ∨ ∃ o, a.live o = true ∧ (p = o + 8 ∨ p = o + (8 + nodeSize) ∨ p = o + (8 + 2 * nodeSize))
  same : ∀ p, m0.heap.valid p = true → SameNode m0.heap s.mem.heap p

variable {m0 : Mem} {s : Index} {a : Ab}

theorem Inv.valid (I : Inv m0 s a) {o : Ptr} (h : a.live o = true) {p : Ptr}
    (hp : p = o + 8 ∨ p = o + (8 + nodeSize) ∨ p = o + (8 + 2 * nodeSize)) : s.mem.heap.ok p := by
  refine ⟨?_, (I.nodes p).2 (.inr ⟨o, h, hp⟩)⟩
  rcases hp with rfl | rfl | rfl
  · exact Nat.succ_ne_zero _
  · exact off_ne (by omega)
  · exact off_ne (by omega)

theorem Inv.object (I : Inv m0 s a) {o : Ptr} (h : a.live o = true) : s.mem.heap.object o = true := by
  have h1 := (I.valid h (p := listNode o) (.inl rfl)).2
  have h2 := (I.valid h (p := hashNode0 o) (.inr (.inl rfl))).2
  have h3 := (I.valid h (p := hashNode1 o) (.inr (.inr rfl))).2
  have h0 := I.objs.pos o h
  simp [Heap.object, h0, h1, h2, h3]

theorem Inv.length (I : Inv m0 s a) : a.stored.length < 2 ^ (bktBit - 1) := by
  have := HashSpec.length_le_of_live (I.objs.liveOk I.start.1 I.nodes)
    (xs := a.stored.map fun r => listNode r.obj) I.list.nodup (fun x hx => (I.list.ok x hx).2)
  simpa using this

theorem Inv.length_insert (I : Inv m0 s a) {o : Ptr} (h : a.live o = true) (hn : ∀ r ∈ a.stored, r.obj ≠ o) :
    a.stored.length + 1 < 2 ^ (bktBit - 1) := by
  have := HashSpec.length_le_of_live (I.objs.liveOk I.start.1 I.nodes)
    (xs := listNode o :: a.stored.map fun r => listNode r.obj) ?_ ?_
  · simpa using this
  · rw [List.nodup_cons]
    refine ⟨?_, I.list.nodup⟩
    simp only [List.mem_map, not_exists, not_and]
    intro r hr e
    exact hn r hr (Nat.add_right_cancel e)
  · intro x hx
    rcases List.mem_cons.1 hx with rfl | hx
    · exact (I.valid h (.inl rfl)).2
    · exact (I.list.ok x hx).2

omit [Arch] in
theorem sameNode_frame {h h' : Heap} {S : Ptr → Prop} (fr : Frame h h' S) {q : Ptr} (hq : ¬ S q)
    (hd : h'.data q = h.data q) : SameNode h h' q :=
  ⟨(fr.ok q).2, fr.next q hq, fr.prev q hq, hd, by rw [fr.index]⟩

omit [Arch] in
theorem IsList.same {h h' : Heap} {l : Ptr} {xs : List Ptr} (hl : IsList h l xs)
    (hs : ∀ x ∈ xs, SameNode h h' x) : IsList h' l xs :=
  hl.congr (fun x hx => (hs x hx).ok) (fun x hx => (hs x hx).next) (fun x hx => (hs x hx).prev)

omit [Arch] in
theorem mem_map_add {l : List Rec} {q i : Nat} {f : Rec → Nat} (hf : ∀ r, f r = r.obj + i) :
    q ∈ l.map f ↔ ∃ r ∈ l, q = r.obj + i := by
  simp only [List.mem_map, hf]
  exact ⟨fun ⟨r, h, e⟩ => ⟨r, h, e.symm⟩, fun ⟨r, h, e⟩ => ⟨r, h, e.symm⟩⟩

theorem nodes_el0 (l : List Rec) : (l.map el0).map Elem.node = l.map fun r => hashNode0 r.obj := by
  simp [el0, Function.comp_def]
theorem nodes_el1 (l : List Rec) : (l.map el1).map Elem.node = l.map fun r => hashNode1 r.obj := by
  simp [el1, Function.comp_def]

/-- The nodes of a kind are not those of another. -/
theorem Objs.not_mem {other live : Ptr → Bool} (O : Objs other live) {l : List Rec} (hl : ∀ r ∈ l, live r.obj = true)
    {f : Rec → Nat} {i j o : Nat} (hf : ∀ r, f r = r.obj + i) (hi : i ≤ (8 + 2 * nodeSize)) (hj : j ≤ (8 + 2 * nodeSize)) (ho : live o = true)
    (ne : j ≠ i ∨ ∀ r ∈ l, r.obj ≠ o) : o + j ∉ l.map f := by
  rw [mem_map_add hf]
  rintro ⟨r, hr, e⟩
  obtain ⟨e1, e2⟩ := O.inj ho (hl r hr) hj hi e
  rcases ne with ne | ne
  · exact ne e2
  · exact ne r hr e1.symm

theorem Objs.not_mem_other {other live : Ptr → Bool} (O : Objs other live) {l : List Rec}
    (hl : ∀ r ∈ l, live r.obj = true) {f : Rec → Nat} {i q : Nat} (hf : ∀ r, f r = r.obj + i) (hi : i ≤ (8 + 2 * nodeSize))
    (hq : other q = true) : q ∉ l.map f := by
  rw [mem_map_add hf]
  rintro ⟨r, hr, e⟩
  exact geom_other (O.other r.obj q (hl r hr) hq) hi e

omit [Arch] in
theorem find_eq {l : List Rec} {f : Rec → Elem} {p : Elem → Bool} {q : Rec → Bool} (hf : ∀ r, (f r).data = r.obj)
    (h : ∀ r ∈ l, p (f r) = q r) : (((l.map f).find? p).map Elem.data).getD 0 = first q l := by
  rw [first]
  induction l with
  | nil => rfl
  | cons r l ih =>
    simp only [List.map_cons, List.find?_cons, h r (by simp)]
    cases q r with
    | true => simp [hf]
    | false => exact ih fun x hx => h x (by simp [hx])

theorem Inv.find1 (I : Inv m0 s a) (junk : Nat → Int) (v : BitVec 32) :
    indexSearch1 junk v s = some (first (·.v1 == v) a.stored, s) := by
  have h := I.tabs.symm.search (search1 s junk v) (inthashU32 v).toNat
  rw [find_eq (q := fun r => r.v1 == v) (fun _ => rfl)] at h
  · show ((do let s ← get
              onHash1 fun t => do return (t, ← hashdynSearch t (search1 s junk v) (inthashU32 v).toNat) : XM Ptr) s) = _
    simp only [run_bind, onHash1]
    show ((hashdynSearch s.hash1 (search1 s junk v) (inthashU32 v).toNat s.mem).bind _).map _ = _
    rw [h]
    rfl
  · intro r hr
    simp only [HashSpec.hit, el1, search1, I.object (I.live r hr), if_true, (I.vals r hr).2]
    by_cases e : r.v1 = v
    · subst e; simp
    · have : v ≠ r.v1 := fun h => e h.symm
      simp [this, e]

theorem Inv.find0 (I : Inv m0 s a) (junk : Nat → Int) (v : BitVec 32) :
    indexSearch0 junk v s = some (first (·.v0 == v) a.stored, s) := by
  have h := I.tabs.search (search0 s junk v) (inthashU32 v).toNat
  rw [find_eq (q := fun r => r.v0 == v) (fun _ => rfl)] at h
  · show ((do let s ← get
              onHash0 fun t => do return (t, ← hashdynSearch t (search0 s junk v) (inthashU32 v).toNat) : XM Ptr) s) = _
    simp only [run_bind, onHash0]
    show ((hashdynSearch s.hash0 (search0 s junk v) (inthashU32 v).toNat s.mem).bind _).map _ = _
    rw [h]
    rfl
  · intro r hr
    simp only [HashSpec.hit, el0, search0, I.object (I.live r hr), if_true, (I.vals r hr).1]
    by_cases e : r.v0 = v
    · subst e; simp
    · have : v ≠ r.v0 := fun h => e h.symm
      simp [this, e]

/-! ### insert -/

theorem Inv.insert (I : Inv m0 s a) {o : Ptr} (h : a.live o = true) (hn : ∀ r ∈ a.stored, r.obj ≠ o)
    (v0 v1 : BitVec 32) :
    ∃ s', indexInsert o v0 v1 s = some ((), s') ∧ Inv m0 s' { a with stored := a.stored ++ [⟨o, v0, v1⟩] } := by
  have O := I.objs
  have L := I.live
  have len := I.length_insert h hn
  -- hash_0
  obtain ⟨t0, m1, e1, T1, v1', S1⟩ := I.tabs.insert (n := hashNode0 o) o (inthashU32 v0).toNat
    (I.valid h (.inr (.inl rfl))) (by rw [nodes_el0]; exact O.not_mem L (fun _ => rfl) (by omega) (by omega) h (.inr hn))
    (by
      intro e he
      obtain ⟨r, hr, rfl⟩ := List.mem_map.1 he
      refine ⟨?_, ?_⟩
      · intro e
        exact absurd (O.inj (L r hr) h (i := (8 + 2 * nodeSize)) (j := (8 + nodeSize)) (by omega) (by omega) e).2 (by arch)
      · rw [nodes_el0]; exact O.not_mem L (j := (8 + 2 * nodeSize)) (fun _ => rfl) (by omega) (by omega) (L r hr) (.inl (by arch)))
    (by simpa using len)
  rw [nodes_el0] at S1
  have S1' : ∀ (o' j : Nat), a.live o' = true → j ≤ (8 + 2 * nodeSize) → j ≠ (8 + nodeSize) → SameNode s.mem.heap m1.heap (o' + j) := by
    intro o' j ho' hj ne
    refine S1 _ ?_ (O.not_mem L (fun _ => rfl) (by omega) hj ho' (.inl ne))
    intro e
    exact ne (O.inj ho' h hj (j := (8 + nodeSize)) (by omega) e).2
  -- hash_1
  obtain ⟨t1, m2, e2, T2, v2', S2⟩ := T1.symm.insert (n := hashNode1 o) o (inthashU32 v1).toNat
    ((S1' o (8 + 2 * nodeSize) h (by omega) (by arch)).ok (I.valid h (.inr (.inr rfl))))
    (by rw [nodes_el1]; exact O.not_mem L (fun _ => rfl) (by omega) (by omega) h (.inr hn))
    (by
      intro e he
      have : ∃ o', a.live o' = true ∧ e.node = o' + (8 + nodeSize) := by
        rcases List.mem_append.1 he with he | he
        · obtain ⟨r, hr, rfl⟩ := List.mem_map.1 he
          exact ⟨r.obj, L r hr, rfl⟩
        · obtain rfl := List.mem_singleton.1 he
          exact ⟨o, h, rfl⟩
      obtain ⟨o', ho', e'⟩ := this
      rw [e']
      refine ⟨?_, ?_⟩
      · intro e
        exact absurd (O.inj ho' h (i := (8 + nodeSize)) (j := (8 + 2 * nodeSize)) (by omega) (by omega) e).2 (by arch)
      · rw [nodes_el1]; exact O.not_mem L (j := (8 + nodeSize)) (fun _ => rfl) (by omega) (by omega) ho' (.inl (by arch)))
    (by simpa using len)
  rw [nodes_el1] at S2
  have S2' : ∀ (o' j : Nat), a.live o' = true → j ≤ (8 + 2 * nodeSize) → j ≠ (8 + 2 * nodeSize) → SameNode m1.heap m2.heap (o' + j) := by
    intro o' j ho' hj ne
    refine S2 _ ?_ (O.not_mem L (fun _ => rfl) (by omega) hj ho' (.inl ne))
    intro e
    exact ne (O.inj ho' h hj (j := (8 + 2 * nodeSize)) (by omega) e).2
  have S12 : ∀ o', a.live o' = true → SameNode s.mem.heap m2.heap (listNode o') := fun o' ho' =>
    (S1' o' 8 ho' (by omega) (by arch)).trans (S2' o' 8 ho' (by omega) (by arch))
  -- list
  have hl2 : IsList m2.heap s.list (a.stored.map fun r => listNode r.obj) := by
    refine IsList.same I.list ?_
    intro x hx
    obtain ⟨r, hr, rfl⟩ := List.mem_map.1 hx
    exact S12 _ (L r hr)
  obtain ⟨l', h3, e3, hl3, d3, fr⟩ := listInsertTail_spec (n := listNode o) o hl2
    ((S12 o h).ok (I.valid h (.inl rfl))) (O.not_mem L (i := 8) (j := 8) (fun _ => rfl) (by omega) (by omega) h (.inr hn))
  have S3 : ∀ q, q ≠ listNode o → q ∉ a.stored.map (fun r => listNode r.obj) → SameNode m2.heap h3 q := by
    intro q h1 h2
    refine sameNode_frame fr (fun hq => hq.elim h1 h2) ?_
    rw [d3, upd_ne h1]
  have S3' : ∀ (o' j : Nat), a.live o' = true → j ≤ (8 + 2 * nodeSize) → j ≠ 8 → SameNode m2.heap h3 (o' + j) := by
    intro o' j ho' hj ne
    refine S3 _ ?_ (O.not_mem L (fun _ => rfl) (by omega) hj ho' (.inl ne))
    intro e
    exact ne (O.inj ho' h hj (j := 8) (by omega) e).2
  have T3 := T2.symm.congr (h' := h3) (by
    intro e he
    have : ∃ o' j : Nat, a.live o' = true ∧ j ≤ (8 + 2 * nodeSize) ∧ j ≠ 8 ∧ e.node = o' + j := by
      rcases List.mem_append.1 he with he | he
      · rcases List.mem_append.1 he with he | he
        · obtain ⟨r, hr, rfl⟩ := List.mem_map.1 he
          exact ⟨r.obj, (8 + nodeSize), L r hr, by omega, by arch, rfl⟩
        · obtain rfl := List.mem_singleton.1 he
          exact ⟨o, (8 + nodeSize), h, by omega, by arch, rfl⟩
      · rcases List.mem_append.1 he with he | he
        · obtain ⟨r, hr, rfl⟩ := List.mem_map.1 he
          exact ⟨r.obj, (8 + 2 * nodeSize), L r hr, by omega, by arch, rfl⟩
        · obtain rfl := List.mem_singleton.1 he
          exact ⟨o, (8 + 2 * nodeSize), h, by omega, by arch, rfl⟩
    obtain ⟨o', j, ho', hj, ne, e'⟩ := this
    rw [e']; exact S3' o' j ho' hj ne)
  refine ⟨⟨{ m2 with heap := h3 }, t0, t1, l', upd s.value0 o v0, upd s.value1 o v1⟩, ?_, ?_⟩
  · simp only [indexInsert, setValues, run_bind, run_pure, onHash0, onHash1, onList, I.object h, if_true, Option.bind_some, e1, e2, e3,
      Option.map_some]
  · refine ⟨I.start, O, ?_, ?_, ?_, ?_, ?_, ?_, ?_, ?_⟩
    · simpa [el0, el1] using T3
    · simpa using hl3
    · intro r hr
      rcases List.mem_append.1 hr with hr | hr
      · have ne : listNode r.obj ≠ listNode o := fun e => hn r hr (Nat.add_right_cancel e)
        show h3.data _ = _
        rw [d3, upd_ne ne, (S12 _ (L r hr)).data]
        exact I.ldata r hr
      · obtain rfl := List.mem_singleton.1 hr
        show h3.data _ = _
        rw [d3]; simp
    · intro r hr
      rcases List.mem_append.1 hr with hr | hr
      · simp only [upd_ne (hn r hr)]; exact I.vals r hr
      · obtain rfl := List.mem_singleton.1 hr
        simp
    · intro r hr
      rcases List.mem_append.1 hr with hr | hr
      · exact L r hr
      · obtain rfl := List.mem_singleton.1 hr
        exact h
    · rw [List.map_append, List.nodup_append]
      refine ⟨I.nodup, by simp, ?_⟩
      intro x hx y hy
      obtain ⟨r, hr, rfl⟩ := List.mem_map.1 hx
      have : y = o := by simpa using hy
      rw [this]; exact hn r hr
    · intro p
      show h3.valid p = true ↔ _
      rw [fr.valid, v2', v1']; exact I.nodes p
    · intro p hp
      have ne : ∀ i : Nat, i ≤ (8 + 2 * nodeSize) → p ≠ o + i := fun i hi => geom_other (O.other o p h hp) hi
      have nm : ∀ {f : Rec → Nat} {i : Nat} (_ : ∀ r, f r = r.obj + i), i ≤ (8 + 2 * nodeSize) → p ∉ a.stored.map f :=
        fun hf hi => O.not_mem_other L hf hi hp
      exact (((I.same p hp).trans (S1 p (ne (8 + nodeSize) (by omega)) (nm (i := (8 + nodeSize)) (fun _ => rfl) (by omega)))).trans
        (S2 p (ne (8 + 2 * nodeSize) (by omega)) (nm (i := (8 + 2 * nodeSize)) (fun _ => rfl) (by omega)))).trans
        (S3 p (ne 8 (by omega)) (nm (i := 8) (fun _ => rfl) (by omega)))

/-! ### delete -/

omit [Arch] in
theorem filter_map_el {l : List Rec} {f : Rec → Elem} {i : Nat} (hf : ∀ r, (f r).node = r.obj + i) (r : Rec) :
    (l.map f).filter (fun x => x.node ≠ (f r).node) = (l.filter (fun x => x.obj ≠ r.obj)).map f := by
  induction l with
  | nil => rfl
  | cons y l ih =>
    simp only [List.map_cons, List.filter_cons, hf] at ih ⊢
    by_cases e : y.obj = r.obj
    · simpa [e] using ih
    · have : y.obj + i ≠ r.obj + i := fun h => e (Nat.add_right_cancel h)
      simpa [e, this] using ih

omit [Arch] in
theorem filter_split {A B : List Rec} {r : Rec} (nd : ((A ++ r :: B).map Rec.obj).Nodup) :
    (A ++ r :: B).filter (fun x => x.obj ≠ r.obj) = A ++ B := by
  rw [List.map_append, List.map_cons, List.nodup_append] at nd
  obtain ⟨_, h2, h3⟩ := nd
  rw [List.filter_append, List.filter_cons]
  have hA : A.filter (fun x => x.obj ≠ r.obj) = A := by
    rw [List.filter_eq_self]
    intro x hx
    simpa using h3 x.obj (List.mem_map_of_mem hx) r.obj (by simp)
  have hB : B.filter (fun x => x.obj ≠ r.obj) = B := by
    rw [List.filter_eq_self]
    intro x hx
    have := (List.nodup_cons.1 h2).1
    simp only [decide_eq_true_eq]
    intro e
    exact this (by rw [← e]; exact List.mem_map_of_mem hx)
  simp only [hA, hB]
  simp

theorem Inv.remove (I : Inv m0 s a) {r : Rec} (hr : r ∈ a.stored) :
    ∃ s', (do let _ ← onHash0 fun t => hashdynRemoveExisting t (hashNode0 r.obj)
              let _ ← onHash1 fun t => hashdynRemoveExisting t (hashNode1 r.obj)
              let _ ← onList fun l => listRemoveExisting l (listNode r.obj) : XM Unit) s = some ((), s') ∧
      Inv m0 s' { a with stored := a.stored.filter (fun x => x.obj ≠ r.obj) } := by
  have O := I.objs
  have L := I.live
  have len := I.length
  -- hash_0
  obtain ⟨t0, m1, e1, T1, v1', S1⟩ := I.tabs.remove (e := el0 r) (List.mem_map_of_mem hr)
    (by
      intro e he
      obtain ⟨x, hx, rfl⟩ := List.mem_map.1 he
      rw [nodes_el0]
      exact O.not_mem L (i := (8 + nodeSize)) (j := (8 + 2 * nodeSize)) (fun _ => rfl) (by omega) (by omega) (L x hx) (.inl (by arch)))
    (by simpa using len)
  rw [nodes_el0] at S1
  rw [filter_map_el (i := (8 + nodeSize)) (fun _ => rfl)] at T1
  have S1' : ∀ (o' j : Nat), a.live o' = true → j ≤ (8 + 2 * nodeSize) → j ≠ (8 + nodeSize) → SameNode s.mem.heap m1.heap (o' + j) :=
    fun o' j ho' hj ne => S1 _ (O.not_mem L (fun _ => rfl) (by omega) hj ho' (.inl ne))
  -- hash_1
  obtain ⟨t1, m2, e2, T2, v2', S2⟩ := T1.symm.remove (e := el1 r) (List.mem_map_of_mem hr)
    (by
      intro e he
      obtain ⟨x, hx, rfl⟩ := List.mem_map.1 he
      rw [nodes_el1]
      exact O.not_mem L (i := (8 + 2 * nodeSize)) (j := (8 + nodeSize)) (fun _ => rfl) (by omega) (by omega) (L x (List.mem_of_mem_filter hx))
        (.inl (by arch)))
    (by simpa using len)
  rw [nodes_el1] at S2
  rw [filter_map_el (i := (8 + 2 * nodeSize)) (fun _ => rfl)] at T2
  have S2' : ∀ (o' j : Nat), a.live o' = true → j ≤ (8 + 2 * nodeSize) → j ≠ (8 + 2 * nodeSize) → SameNode m1.heap m2.heap (o' + j) :=
    fun o' j ho' hj ne => S2 _ (O.not_mem L (fun _ => rfl) (by omega) hj ho' (.inl ne))
  have S12 : ∀ o', a.live o' = true → SameNode s.mem.heap m2.heap (listNode o') := fun o' ho' =>
    (S1' o' 8 ho' (by omega) (by arch)).trans (S2' o' 8 ho' (by omega) (by arch))
  -- list
  have hl2 : IsList m2.heap s.list (a.stored.map fun r => listNode r.obj) := by
    refine IsList.same I.list ?_
    intro x hx
    obtain ⟨r, hr, rfl⟩ := List.mem_map.1 hx
    exact S12 _ (L r hr)
  obtain ⟨A, B, hAB⟩ := List.append_of_mem hr
  have hfil : a.stored.filter (fun x => x.obj ≠ r.obj) = A ++ B := by
    rw [hAB]; exact filter_split (by rw [← hAB]; exact I.nodup)
  obtain ⟨l', h3, e3, hl3, d3, fr⟩ := listRemoveExisting_spec (h := m2.heap) (l := s.list) (n := listNode r.obj)
    (as := A.map fun r => listNode r.obj) (bs := B.map fun r => listNode r.obj)
    (by rw [hAB] at hl2; simpa using hl2)
  have hcat : ((A.map fun r => listNode r.obj) ++ listNode r.obj :: B.map fun r => listNode r.obj) =
      a.stored.map fun r => listNode r.obj := by rw [hAB]; simp
  have S3 : ∀ q, q ∉ a.stored.map (fun r => listNode r.obj) → SameNode m2.heap h3 q := by
    intro q h2
    refine sameNode_frame fr (fun hq => h2 ?_) (by rw [d3])
    rw [hcat] at hq; exact hq
  have S3' : ∀ (o' j : Nat), a.live o' = true → j ≤ (8 + 2 * nodeSize) → j ≠ 8 → SameNode m2.heap h3 (o' + j) :=
    fun o' j ho' hj ne => S3 _ (O.not_mem L (fun _ => rfl) (by omega) hj ho' (.inl ne))
  have T3 := T2.symm.congr (h' := h3) (by
    intro e he
    rcases List.mem_append.1 he with he | he
    · obtain ⟨x, hx, rfl⟩ := List.mem_map.1 he
      exact S3' x.obj (8 + nodeSize) (L x (List.mem_of_mem_filter hx)) (by omega) (by arch)
    · obtain ⟨x, hx, rfl⟩ := List.mem_map.1 he
      exact S3' x.obj (8 + 2 * nodeSize) (L x (List.mem_of_mem_filter hx)) (by omega) (by arch))
  refine ⟨⟨{ m2 with heap := h3 }, t0, t1, l', s.value0, s.value1⟩, ?_, ?_⟩
  · have e1' : hashdynRemoveExisting s.hash0 (hashNode0 r.obj) s.mem = _ := e1
    have e2' : hashdynRemoveExisting s.hash1 (hashNode1 r.obj) m1 = _ := e2
    simp only [run_bind, run_pure, onHash0, onHash1, onList, e1', e2', e3, Option.bind_some, Option.map_some]
  · refine ⟨I.start, O, T3, ?_, ?_, ?_, ?_, ?_, ?_, ?_⟩
    · show IsList h3 l' _
      rw [hfil]; simpa using hl3
    · intro x hx
      have hx := List.mem_of_mem_filter hx
      show h3.data _ = _
      rw [d3, (S12 _ (L x hx)).data]; exact I.ldata x hx
    · exact fun x hx => I.vals x (List.mem_of_mem_filter hx)
    · exact fun x hx => L x (List.mem_of_mem_filter hx)
    · exact I.nodup.sublist (List.filter_sublist.map _)
    · intro p
      show h3.valid p = true ↔ _
      rw [fr.valid, v2', v1']; exact I.nodes p
    · intro p hp
      have nm : ∀ {f : Rec → Nat} {i : Nat} (_ : ∀ r, f r = r.obj + i), i ≤ (8 + 2 * nodeSize) → p ∉ a.stored.map f :=
        fun hf hi => O.not_mem_other L hf hi hp
      exact (((I.same p hp).trans (S1 p (nm (i := (8 + nodeSize)) (fun _ => rfl) (by omega)))).trans
        (S2 p (nm (i := (8 + 2 * nodeSize)) (fun _ => rfl) (by omega)))).trans
        (S3 p (nm (i := 8) (fun _ => rfl) (by omega)))

theorem Inv.delete (I : Inv m0 s a) (junk : Nat → Int) (v : BitVec 32) :
    ∃ s', indexDelete junk v s = some (first (·.v1 == v) a.stored, s') ∧
      Inv m0 s' { a with stored := a.stored.filter (·.obj ≠ first (·.v1 == v) a.stored) } := by
  have hf := I.find1 junk v
  cases hfi : a.stored.find? (·.v1 == v) with
  | none =>
    have h0 : first (·.v1 == v) a.stored = 0 := by simp [first, hfi]
    rw [h0] at hf ⊢
    refine ⟨s, by simp [indexDelete, hf], ?_⟩
    have : a.stored.filter (fun x => x.obj ≠ 0) = a.stored := by
      rw [List.filter_eq_self]
      intro x hx
      simpa using I.objs.pos _ (I.live x hx)
    simp only [this]
    exact I
  | some r =>
    have hr := List.mem_of_find?_eq_some hfi
    have h0 : first (·.v1 == v) a.stored = r.obj := by simp [first, hfi]
    have hne : r.obj ≠ 0 := I.objs.pos _ (I.live r hr)
    obtain ⟨s', e, I'⟩ := I.remove hr
    rw [h0] at hf ⊢
    refine ⟨s', ?_, I'⟩
    simp only [run_bind, run_pure, Option.bind_eq_some_iff] at e
    obtain ⟨x, hx, y, hy, z, hz, e⟩ := e
    injection e with e
    simp only [indexDelete, run_bind, run_ite, run_pure, hf, Option.bind_some, ne_eq, hne, not_false_eq_true, if_true,
      hx, hy, hz, (Prod.mk.inj e).2]

/-! ### malloc, free, iterator -/

theorem isNodeOf_iff {o p : Ptr} : isNodeOf o p = true ↔ p = o + 8 ∨ p = o + (8 + nodeSize) ∨ p = o + (8 + 2 * nodeSize) := by
  simp [isNodeOf, listNode, hashNode0, hashNode1, or_assoc]

theorem self_lt {o : Nat} (h : o + (8 + 3 * nodeSize) ≤ o) : False := by omega

theorem Inv.malloc (I : Inv m0 s a) {o : Ptr} (hfit : Fits m0.heap.valid a.live o) (g : Heap) :
    Inv m0 { s with mem := { s.mem with heap := mallocObject o g s.mem.heap } } { a with live := upd a.live o true } := by
  obtain ⟨h0, ht, hl, ho⟩ := hfit
  have hno : a.live o = false := by
    rw [← Bool.not_eq_true]; intro h
    rcases hl o h with h | h <;> exact self_lt h
  have O : Objs m0.heap.valid (upd a.live o true) := by
    refine ⟨?_, ?_, ?_, ?_⟩
    · intro q hq
      by_cases e : q = o
      · subst e; exact h0
      · rw [upd_ne e] at hq; exact I.objs.pos q hq
    · intro q hq
      by_cases e : q = o
      · subst e; exact ht
      · rw [upd_ne e] at hq; exact I.objs.top q hq
    · intro p q hp hq
      by_cases e : p = o <;> by_cases e' : q = o
      · exact .inl (e.trans e'.symm)
      · subst e; rw [upd_ne e'] at hq; exact .inr (hl q hq)
      · subst e'; rw [upd_ne e] at hp; exact .inr (hl p hp).symm
      · rw [upd_ne e] at hp; rw [upd_ne e'] at hq; exact I.objs.apart p q hp hq
    · intro q p hq hp
      by_cases e : q = o
      · subst e; exact ho p hp
      · rw [upd_ne e] at hq; exact I.objs.other q p hq hp
  have ho' : (upd a.live o true) o = true := upd_same _ _ _
  have lv : ∀ q, a.live q = true → (upd a.live o true) q = true := by
    intro q hq; rw [upd_apply]; split
    · rfl
    · exact hq
  have S : ∀ q, isNodeOf o q = false → SameNode s.mem.heap (mallocObject o g s.mem.heap) q := by
    intro q hq
    exact ⟨fun h => ⟨h.1, by simp [mallocObject, h.2]⟩, by simp [mallocObject, hq], by simp [mallocObject, hq],
      by simp [mallocObject, hq], by simp [mallocObject, hq]⟩
  have nn : ∀ r ∈ a.stored, ∀ j : Nat, j ≤ (8 + 2 * nodeSize) → isNodeOf o (r.obj + j) = false := by
    intro r hr j hj
    rw [← Bool.not_eq_true, isNodeOf_iff]
    intro h
    obtain ⟨i, hi, e⟩ := off_of h
    have := (O.inj (lv _ (I.live r hr)) ho' hj (by omega) e).1
    have hlr := I.live r hr
    rw [this, hno] at hlr
    exact absurd hlr (by simp)
  refine ⟨I.start, O, ?_, ?_, ?_, I.vals, fun r hr => lv _ (I.live r hr), I.nodup, ?_, ?_⟩
  · refine I.tabs.congr ?_
    intro e he
    rcases List.mem_append.1 he with he | he
    · obtain ⟨x, hx, rfl⟩ := List.mem_map.1 he
      exact S _ (nn x hx (8 + nodeSize) (by omega))
    · obtain ⟨x, hx, rfl⟩ := List.mem_map.1 he
      exact S _ (nn x hx (8 + 2 * nodeSize) (by omega))
  · refine IsList.same I.list ?_
    intro x hx
    obtain ⟨r, hr, rfl⟩ := List.mem_map.1 hx
    exact S _ (nn r hr 8 (by omega))
  · intro r hr
    show (mallocObject o g s.mem.heap).data _ = _
    exact (S _ (nn r hr 8 (by omega))).data.trans (I.ldata r hr)
  · intro p
    show (isNodeOf o p || s.mem.heap.valid p) = true ↔ _
    rw [Bool.or_eq_true, isNodeOf_iff, I.nodes]
    constructor
    · rintro (h | h | ⟨q, hq, h⟩)
      · exact .inr ⟨o, ho', h⟩
      · exact .inl h
      · exact .inr ⟨q, lv q hq, h⟩
    · rintro (h | ⟨q, hq, h⟩)
      · exact .inr (.inl h)
      · by_cases e : q = o
        · subst e; exact .inl h
        · have hq : upd a.live o true q = true := hq
          rw [upd_ne e] at hq; exact .inr (.inr ⟨q, hq, h⟩)
  · intro p hp
    refine (I.same p hp).trans (S p ?_)
    rw [← Bool.not_eq_true, isNodeOf_iff]
    intro h
    obtain ⟨i, hi, e⟩ := off_of h
    exact geom_other (O.other o p ho' hp) (i := i) (by omega) e

/-- The memory after `free(obj)`. -/
def freed (obj : Ptr) (h : Heap) : Heap := { h with valid := fun p => !isNodeOf obj p && h.valid p }

theorem freed_same {o q : Ptr} {h : Heap} (hq : isNodeOf o q = false) : SameNode h (freed o h) q :=
  ⟨fun e => ⟨e.1, by simp [freed, hq, e.2]⟩, rfl, rfl, rfl, rfl⟩

theorem freed_iff {o q : Ptr} {h : Heap} (hq : isNodeOf o q = false) : h.ok q ↔ (freed o h).ok q :=
  ⟨(freed_same hq).ok, fun e => ⟨e.1, by have := e.2; simp only [freed, Bool.and_eq_true] at this; exact this.2⟩⟩

theorem Objs.not_node {other live : Ptr → Bool} (O : Objs other live) {o o' j : Nat} (h : live o = true)
    (h' : live o' = true) (ne : o' ≠ o) (hj : j ≤ (8 + 2 * nodeSize)) : isNodeOf o (o' + j) = false := by
  rw [← Bool.not_eq_true, isNodeOf_iff]
  intro e
  obtain ⟨i, hi, e⟩ := off_of e
  exact ne (O.inj h' h hj (by omega) e).1

theorem Objs.not_node_other {other live : Ptr → Bool} (O : Objs other live) {o p : Nat} (h : live o = true)
    (hp : other p = true) : isNodeOf o p = false := by
  rw [← Bool.not_eq_true, isNodeOf_iff]
  intro e
  obtain ⟨i, hi, e⟩ := off_of e
  exact geom_other (O.other o p h hp) (i := i) (by omega) e

theorem freed_nodes {other live : Ptr → Bool} (O : Objs other live) {o : Ptr} (h : live o = true) {hp : Heap}
    (hv : ∀ p, hp.valid p = true ↔ other p = true ∨ ∃ o, live o = true ∧ (p = o + 8 ∨ p = o + (8 + nodeSize) ∨ p = o + (8 + 2 * nodeSize)))
    (p : Ptr) : (freed o hp).valid p = true ↔
      other p = true ∨ ∃ q, upd live o false q = true ∧ (p = q + 8 ∨ p = q + (8 + nodeSize) ∨ p = q + (8 + 2 * nodeSize)) := by
  simp only [freed, Bool.and_eq_true, Bool.not_eq_true', hv]
  constructor
  · rintro ⟨h1, h2 | ⟨q, hq, h2⟩⟩
    · exact .inl h2
    · have ne : q ≠ o := by
        rintro rfl
        rw [isNodeOf_iff.2 h2] at h1; exact absurd h1 (by simp)
      exact .inr ⟨q, by rw [upd_ne ne]; exact hq, h2⟩
  · rintro (h2 | ⟨q, hq, h2⟩)
    · exact ⟨O.not_node_other h h2, .inl h2⟩
    · have ne : q ≠ o := by
        rintro rfl; rw [upd_same] at hq; exact absurd hq (by simp)
      rw [upd_ne ne] at hq
      obtain ⟨i, hi, rfl⟩ := off_of h2
      exact ⟨O.not_node h hq ne (by omega), .inr ⟨q, hq, h2⟩⟩

theorem Objs.free {other live : Ptr → Bool} (O : Objs other live) (o : Ptr) : Objs other (upd live o false) := by
  have lv : ∀ q, upd live o false q = true → live q = true := by
    intro q hq
    rw [upd_apply] at hq
    split at hq
    · exact absurd hq (by simp)
    · exact hq
  exact ⟨fun q hq => O.pos q (lv q hq), fun q hq => O.top q (lv q hq),
    fun p q hp hq => O.apart p q (lv p hp) (lv q hq), fun q p hq hp => O.other q p (lv q hq) hp⟩

theorem Inv.free (I : Inv m0 s a) {o : Ptr} (h : a.live o = true) (hn : ∀ r ∈ a.stored, r.obj ≠ o) :
    freeObject o s.mem.heap = some ((), freed o s.mem.heap) ∧
    Inv m0 { s with mem := { s.mem with heap := freed o s.mem.heap } } { a with live := upd a.live o false } := by
  have O := I.objs
  have L := I.live
  refine ⟨by simp [freeObject, I.object h, freed], I.start, O.free o, ?_, ?_, ?_, I.vals, ?_, I.nodup,
    freed_nodes O h I.nodes, ?_⟩
  · refine I.tabs.congr ?_
    intro e he
    rcases List.mem_append.1 he with he | he
    · obtain ⟨x, hx, rfl⟩ := List.mem_map.1 he
      exact freed_same (O.not_node (j := (8 + nodeSize)) h (L x hx) (hn x hx) (by omega))
    · obtain ⟨x, hx, rfl⟩ := List.mem_map.1 he
      exact freed_same (O.not_node (j := (8 + 2 * nodeSize)) h (L x hx) (hn x hx) (by omega))
  · refine IsList.same I.list ?_
    intro x hx
    obtain ⟨r, hr, rfl⟩ := List.mem_map.1 hx
    exact freed_same (O.not_node (j := 8) h (L r hr) (hn r hr) (by omega))
  · exact I.ldata
  · intro r hr
    show upd a.live o false r.obj = true
    rw [upd_ne (hn r hr)]; exact L r hr
  · intro p hp
    exact (I.same p hp).trans (freed_same (O.not_node_other h hp))

omit [Arch] in
theorem iter_spec {h : Heap} {l : Ptr} {xs : List Rec} (hl : IsList h l (xs.map fun r => listNode r.obj))
    (hd : ∀ r ∈ xs, h.data (listNode r.obj) = r.obj) (ds : List Bool) : ∀ i,
    indexIterLoop ((((xs.map fun r => listNode r.obj)[i]?)).getD 0) ds h = some (visit (xs.map Rec.obj) ds i, h) := by
  have W := ListSpec.IsList.wellLinked hl
  induction ds with
  | nil => intro i; rfl
  | cons d ds ih =>
    intro i
    simp only [indexIterLoop, visit, List.getElem?_map]
    cases hi : xs[i]? with
    | none => simp
    | some r =>
      have hr : r ∈ xs := List.mem_of_getElem? hi
      have hlt : i < xs.length := (List.getElem?_eq_some_iff.1 hi).1
      have hok : h.ok (listNode r.obj) := hl.ok _ (List.mem_map_of_mem hr)
      have hne : listNode r.obj ≠ 0 := hok.1
      simp only [Option.map_some, Option.getD_some, hne, if_false, run_ite, run_bind, getData_run hok, Option.bind_some,
        hd r hr, run_pure]
      have hx : (xs.map fun r => listNode r.obj)[i]? = some (listNode r.obj) := by simp [hi]
      have key : (if d = true then getNext (listNode r.obj) else getPrev (listNode r.obj)) h =
          some (((xs.map fun r => listNode r.obj)[if d = true then i + 1 else if i = 0 then xs.length - 1 else i - 1]?).getD 0, h) := by
        cases d with
        | true =>
          simp only [if_true, getNext_run hok, Option.some.injEq, Prod.mk.injEq, and_true]
          cases hy : (xs.map fun r => listNode r.obj)[i + 1]? with
          | some y => exact (W.next_prev i _ y hx hy).1
          | none =>
            refine W.terminated _ ?_
            rw [List.getElem?_eq_none_iff] at hy
            rw [List.getLast?_eq_getElem?]
            have : (xs.map fun r => listNode r.obj).length - 1 = i := by
              simp at hy ⊢; omega
            rw [this]; exact hx
        | false =>
          simp only [Bool.false_eq_true, if_false, getPrev_run hok, Option.some.injEq, Prod.mk.injEq, and_true]
          by_cases h0 : i = 0
          · subst h0
            simp only [if_true]
            have hlen : xs.length - 1 < xs.length := by omega
            have hlast : (xs.map fun r => listNode r.obj)[xs.length - 1]? = some (listNode xs[xs.length - 1].obj) := by
              simp [hlen]
            rw [hlast]
            refine W.circular _ _ ?_ ?_
            · rw [List.head?_eq_getElem?]; exact hx
            · rw [List.getLast?_eq_getElem?, List.length_map]; exact hlast
          · simp only [h0, if_false]
            obtain ⟨k, rfl⟩ := Nat.exists_eq_succ_of_ne_zero h0
            have hk : k < xs.length := by omega
            have hlast : (xs.map fun r => listNode r.obj)[k]? = some (listNode xs[k].obj) := by
              simp [hk]
            simp only [Nat.succ_sub_one]
            rw [hlast]
            exact (W.next_prev k _ _ hlast hx).2
      cases d with
      | true =>
        simp only [if_true] at key ⊢
        rw [key]; simp only [Option.bind_some, ih]
      | false =>
        simp only [Bool.false_eq_true, if_false, List.length_map] at key ⊢
        rw [key]; simp only [Option.bind_some, ih]

theorem Inv.iter (I : Inv m0 s a) (ds : List Bool) :
    indexIter ds s = some (visit (a.stored.map Rec.obj) ds 0, s) := by
  have h := iter_spec I.list I.ldata ds 0
  have hh : s.list = (((a.stored.map fun r => listNode r.obj)[0]?)).getD 0 := by
    rw [I.list.head]
    cases a.stored <;> rfl
  rw [← hh] at h
  simp [indexIter, onList, run_bind, listHead, h]

/-! ### The end -/

theorem Inv.init {m0 : Mem} {s : Index} {a : Ab} (h : (sys m0).init s a) : Inv m0 s a := by
  obtain ⟨h0, ⟨x0, x1, e⟩, hs, hl⟩ := h
  obtain ⟨t, m1, u, m, e1, e2, hh, T⟩ := Tabs.init h0
  simp only [indexInit, e1, e2, Option.some.injEq, Prod.mk.injEq] at e
  obtain ⟨rfl, -⟩ := e
  refine ⟨h0, ?_, ?_, ?_, ?_, ?_, ?_, ?_, ?_, ?_⟩
  · exact ⟨fun o h => by simp [hl] at h, fun o h => by simp [hl] at h, fun o _ h => by simp [hl] at h,
      fun o _ h => by simp [hl] at h⟩
  · rw [hs]; exact T
  · rw [hs]; exact ⟨rfl, by simp, by simp, by simp⟩
  · simp [hs]
  · simp [hs]
  · simp [hs]
  · simp [hs]
  · intro p; simp [hl, hh]
  · intro p _; rw [hh]; exact ⟨id, rfl, rfl, rfl, rfl⟩

theorem Inv.call (I : Inv m0 s a) {op : Op} (hl : legal m0.heap.valid a op) :
    ∃ out s', step op s = some (out, s') ∧ allowed a op out ∧ Inv m0 s' (next a op out) := by
  cases op with
  | malloc o g => exact ⟨.unit, _, rfl, rfl, I.malloc hl g⟩
  | insert o v0 v1 =>
    obtain ⟨s', e, I'⟩ := I.insert hl.1 hl.2 v0 v1
    exact ⟨.unit, s', by simp [step, e], rfl, I'⟩
  | search0 junk v => exact ⟨_, s, by simp [step, I.find0], rfl, I⟩
  | search1 junk v => exact ⟨_, s, by simp [step, I.find1], rfl, I⟩
  | delete junk v =>
    obtain ⟨s', e, I'⟩ := I.delete junk v
    exact ⟨_, s', by simp [step, e], rfl, I'⟩
  | free o =>
    obtain ⟨e, I'⟩ := I.free hl.1 hl.2
    exact ⟨.unit, _, by simp [step, onList, e], rfl, I'⟩
  | iter ds => exact ⟨_, s, by simp [step, I.iter], rfl, I⟩

theorem freeAll {other : Ptr → Bool} {l : List Rec} : ∀ {live : Ptr → Bool} {h : Heap}, Objs other live →
    (∀ p, h.valid p = true ↔ other p = true ∨ ∃ o, live o = true ∧ (p = o + 8 ∨ p = o + (8 + nodeSize) ∨ p = o + (8 + 2 * nodeSize))) →
    (∀ r ∈ l, live r.obj = true) → (l.map Rec.obj).Nodup →
    ∃ h', ListSpec.callAll freeObject (l.map Rec.obj) h = some ((), h') ∧
      (∀ p, h'.valid p = true ↔ other p = true ∨
        ∃ o, (live o = true ∧ o ∉ l.map Rec.obj) ∧ (p = o + 8 ∨ p = o + (8 + nodeSize) ∨ p = o + (8 + 2 * nodeSize))) ∧
      h'.next = h.next ∧ h'.prev = h.prev ∧ h'.data = h.data ∧ h'.index = h.index := by
  induction l with
  | nil => intro live h O hv _ _; exact ⟨h, rfl, by simpa using hv, rfl, rfl, rfl, rfl⟩
  | cons r l ih =>
    intro live h O hv hl nd
    have hr := hl r (by simp)
    simp only [List.map_cons, List.nodup_cons] at nd
    have hob : h.object r.obj = true := by
      have h1 := (hv (listNode r.obj)).2 (.inr ⟨_, hr, .inl rfl⟩)
      have h2 := (hv (hashNode0 r.obj)).2 (.inr ⟨_, hr, .inr (.inl rfl)⟩)
      have h3 := (hv (hashNode1 r.obj)).2 (.inr ⟨_, hr, .inr (.inr rfl)⟩)
      simp [Heap.object, O.pos _ hr, h1, h2, h3]
    have e : freeObject r.obj h = some ((), freed r.obj h) := by simp [freeObject, hob, freed]
    obtain ⟨h', e', v', r1, r2, r3, r4⟩ := ih (O.free r.obj) (freed_nodes O hr hv) (by
      intro x hx
      rw [upd_ne]
      · exact hl x (by simp [hx])
      · intro e; exact nd.1 (by rw [← e]; exact List.mem_map_of_mem hx)) nd.2
    refine ⟨h', by simp [ListSpec.callAll, e, e'], ?_, r1, r2, r3, r4⟩
    intro p
    rw [v']
    refine or_congr Iff.rfl (exists_congr fun o => and_congr_left fun _ => ?_)
    simp only [List.map_cons, List.mem_cons, not_or, upd_apply]
    split
    · rename_i e; simp [e]
    · rename_i e; simp [e]

theorem Inv.done (I : Inv m0 s a) : ∃ s', indexDone s = some ((), s') ∧
    Owns m0 s'.mem (fun o => a.live o && !(a.stored.map Rec.obj).contains o) ∧ s'.mem.vlen = m0.vlen := by
  obtain ⟨h', e, v, r1, r2, r3, r4⟩ := freeAll I.objs I.nodes I.live I.nodup
  have hfe : listForeach s.list freeObject s.mem.heap = some ((), h') := by
    have := ListSpec.foreach_spec (h0 := s.mem.heap) freeObject (a.stored.map fun r => (listNode r.obj, r.obj)) s.mem.heap
      (by simpa [Function.comp_def] using I.list.seg.fwd) (by
        intro x hx; exact I.list.ok x (by simpa [Function.comp_def] using hx))
      (by
        intro x hx
        obtain ⟨r, hr, rfl⟩ := List.mem_map.1 hx
        exact I.ldata r hr)
      (fun x _ => ⟨Iff.rfl, rfl, rfl⟩)
      (by
        intro as x bs hsp h1 h2 sm hf y hy
        have hf' : h2 = freed x.2 h1 := by
          simp only [freeObject] at hf
          split at hf
          · simp only [Option.some.injEq, Prod.mk.injEq, true_and] at hf; exact hf.symm
          · simp at hf
        subst hf'
        have hx : ∃ r ∈ a.stored, x = (listNode r.obj, r.obj) := by
          have : x ∈ a.stored.map fun r => (listNode r.obj, r.obj) := by rw [hsp]; simp
          obtain ⟨r, hr, e⟩ := List.mem_map.1 this
          exact ⟨r, hr, e.symm⟩
        obtain ⟨r, hr, rfl⟩ := hx
        obtain ⟨z, hz, rfl⟩ := List.mem_map.1 hy
        have hz' : ∃ r' ∈ a.stored, z = (listNode r'.obj, r'.obj) := by
          have : z ∈ a.stored.map fun r => (listNode r.obj, r.obj) := by rw [hsp]; simp [hz]
          obtain ⟨r, hr, e⟩ := List.mem_map.1 this
          exact ⟨r, hr, e.symm⟩
        obtain ⟨r', hr', rfl⟩ := hz'
        have nd : ((a.stored.map fun r => (listNode r.obj, r.obj)).map Prod.fst).Nodup := by
          simpa [Function.comp_def] using I.list.nodup
        rw [hsp, List.map_append, List.map_cons, List.nodup_append] at nd
        have ne : r'.obj ≠ r.obj := by
          intro e
          refine (List.nodup_cons.1 nd.2.1).1 ?_
          show listNode r.obj ∈ _
          rw [← e]
          exact List.mem_map_of_mem hz
        have hnn := I.objs.not_node (j := 8) (I.live r hr) (I.live r' hr') ne (by omega)
        obtain ⟨c1, c2, c3⟩ := sm _ (List.mem_map_of_mem hz)
        exact ⟨c1.trans (freed_iff hnn), c2, c3⟩)
    have hh : s.list = (((a.stored.map fun r => (listNode r.obj, r.obj)).map Prod.fst)).headD 0 := by
      rw [I.list.head]; simp [Function.comp_def]
    rw [listForeach, listHead, hh, this]
    simpa [Function.comp_def] using e
  obtain ⟨m1, m2, e1, e2, hh, hv, hc⟩ := I.tabs.done h'
  refine ⟨⟨m2, s.hash0, s.hash1, s.list, s.value0, s.value1⟩, ?_, ⟨?_, ?_, hc⟩, hv⟩
  · simp only [indexDone, run_bind, run_pure, onList, onHash0, onHash1, hfe, e1, e2, Option.bind_some, Option.map_some]
  · intro p
    show m2.heap.valid p = true ↔ _
    rw [hh, v]
    refine or_congr Iff.rfl (exists_congr fun o => and_congr_left fun _ => ?_)
    simp
  · intro p hp
    show m2.heap.next p = _ ∧ m2.heap.prev p = _ ∧ m2.heap.data p = _ ∧ m2.heap.index p = _
    rw [hh, r1, r2, r3, r4]
    exact ⟨(I.same p hp).next, (I.same p hp).prev, (I.same p hp).data, (I.same p hp).index⟩

end IndexSpec
end Tommy
