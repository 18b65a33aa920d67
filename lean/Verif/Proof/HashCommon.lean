import Verif.Spec.Hash
import Verif.Proof.Mem
import Mathlib.Data.List.Nodup
/-! Code shared by the hashtables: lists of elements, buckets, search, insert, remove, split, merge. -/
set_option linter.unusedSimpArgs false
namespace Tommy

variable [Arch]
namespace HashSpec

/-- The list `p` stores the elements `L`. -/
structure ERep (h : Heap) (p : Ptr) (L : List Elem) : Prop where
  list : IsList h p (L.map Elem.node)
  data : ∀ e ∈ L, h.data e.node = e.data
  index : ∀ e ∈ L, h.index e.node = e.hash

/-- The node `x` is the same in the two memories. -/
structure SameNode (h h' : Heap) (x : Ptr) : Prop where
  ok : h.ok x → h'.ok x
  next : h'.next x = h.next x
  prev : h'.prev x = h.prev x
  data : h'.data x = h.data x
  index : h'.index x = h.index x

omit [Arch] in
theorem ERep.same {h h' : Heap} {p : Ptr} {L : List Elem} (r : ERep h p L)
    (s : ∀ e ∈ L, SameNode h h' e.node) : ERep h' p L where
  list := r.list.congr
    (fun x hx => by obtain ⟨e, he, rfl⟩ := List.mem_map.1 hx; exact (s e he).ok)
    (fun x hx => by obtain ⟨e, he, rfl⟩ := List.mem_map.1 hx; exact (s e he).next)
    (fun x hx => by obtain ⟨e, he, rfl⟩ := List.mem_map.1 hx; exact (s e he).prev)
  data e he := by rw [(s e he).data]; exact r.data e he
  index e he := by rw [(s e he).index]; exact r.index e he

omit [Arch] in
theorem ERep.nil (h : Heap) : ERep h 0 [] := ⟨IsList.nil h, by simp, by simp⟩

omit [Arch] in
theorem ERep.ok {h : Heap} {p : Ptr} {L : List Elem} (r : ERep h p L) {e : Elem} (he : e ∈ L) :
    h.ok e.node := r.list.ok _ (List.mem_map_of_mem he)

omit [Arch] in
theorem ERep.nodup {h : Heap} {p : Ptr} {L : List Elem} (r : ERep h p L) : L.Nodup :=
  List.Nodup.of_map _ r.list.nodup

omit [Arch] in
theorem frame_same {h h' : Heap} {S : Ptr → Prop} (fr : Frame h h' S) (hd : h'.data = h.data) {x : Ptr}
    (hx : ¬ S x) : SameNode h h' x :=
  ⟨(fr.ok x).2, fr.next x hx, fr.prev x hx, by rw [hd], by rw [fr.index]⟩

/-! ### Loops on a bucket -/

omit [Arch] in
theorem hashSearchLoop_spec (cmp : Nat → Int) (hash : Nat) {h : Heap} (L : List Elem) :
    (∀ e ∈ L, h.ok e.node) → Fwd h (L.map Elem.node) 0 →
    (∀ e ∈ L, h.data e.node = e.data) → (∀ e ∈ L, h.index e.node = e.hash) →
    hashSearchLoop cmp hash ((L.map Elem.node).headD 0) h =
      some (((L.find? (hit cmp hash)).map Elem.data).getD 0, h) := by
  induction L with
  | nil => intros; rw [hashSearchLoop]; simp
  | cons e L ih =>
    intro ok fw da ix
    have oe := ok e (by simp)
    have ih := ih (fun x hx => ok x (by simp [hx])) fw.2 (fun x hx => da x (by simp [hx]))
      (fun x hx => ix x (by simp [hx]))
    rw [List.map_cons, List.headD_cons, hashSearchLoop]
    have h0 : e.node ≠ 0 := oe.1
    have hn : h.next e.node = (L.map Elem.node).headD 0 := fw.1
    simp only [h0, if_false, run_ite, run_bind, getIndex_run oe, Option.bind_some, ix e (by simp),
      getData_run oe, getNext_run oe, da e (by simp), hn, ih, run_pure]
    by_cases hh : e.hash = hash
    · by_cases hc : cmp e.data = 0
      · simp [hh, hc, hit]
      · simp [hh, hc, hit]
    · simp [hh, hit]

omit [Arch] in
theorem hashFindLoop_spec (cmp : Nat → Int) (hash : Nat) {h : Heap} (L : List Elem) :
    (∀ e ∈ L, h.ok e.node) → Fwd h (L.map Elem.node) 0 →
    (∀ e ∈ L, h.data e.node = e.data) → (∀ e ∈ L, h.index e.node = e.hash) →
    hashFindLoop cmp hash ((L.map Elem.node).headD 0) h =
      some (((L.find? (hit cmp hash)).map Elem.node).getD 0, h) := by
  induction L with
  | nil => intros; rw [hashFindLoop]; simp
  | cons e L ih =>
    intro ok fw da ix
    have oe := ok e (by simp)
    have ih := ih (fun x hx => ok x (by simp [hx])) fw.2 (fun x hx => da x (by simp [hx]))
      (fun x hx => ix x (by simp [hx]))
    rw [List.map_cons, List.headD_cons, hashFindLoop]
    have h0 : e.node ≠ 0 := oe.1
    have hn : h.next e.node = (L.map Elem.node).headD 0 := fw.1
    simp only [h0, if_false, run_ite, run_bind, getIndex_run oe, Option.bind_some, ix e (by simp),
      getData_run oe, getNext_run oe, da e (by simp), hn, ih, run_pure]
    by_cases hh : e.hash = hash
    · by_cases hc : cmp e.data = 0
      · simp [hh, hc, hit]
      · simp [hh, hc, hit]
    · simp [hh, hit]

omit [Arch] in
theorem walkLoop_spec {h : Heap} (L : List Elem) : ∀ acc,
    (∀ e ∈ L, h.ok e.node) → Fwd h (L.map Elem.node) 0 →
    (∀ e ∈ L, h.data e.node = e.data) → (∀ e ∈ L, h.index e.node = e.hash) →
    walkLoop ((L.map Elem.node).headD 0) acc h = some (acc.reverse ++ L, h) := by
  induction L with
  | nil => intros; rw [walkLoop]; simp
  | cons e L ih =>
    intro acc ok fw da ix
    have oe := ok e (by simp)
    have ih := ih (⟨e.node, e.data, e.hash⟩ :: acc) (fun x hx => ok x (by simp [hx])) fw.2
      (fun x hx => da x (by simp [hx])) (fun x hx => ix x (by simp [hx]))
    rw [List.map_cons, List.headD_cons, walkLoop]
    have h0 : e.node ≠ 0 := oe.1
    have hn : h.next e.node = (L.map Elem.node).headD 0 := fw.1
    simp only [h0, if_false, run_ite, run_bind, getIndex_run oe, Option.bind_some, ix e (by simp),
      getData_run oe, getNext_run oe, da e (by simp), hn, ih, run_pure]
    simp

omit [Arch] in
theorem ERep.search {h : Heap} {p : Ptr} {L : List Elem} (r : ERep h p L) (cmp : Nat → Int) (hash : Nat) :
    hashSearchLoop cmp hash p h = some (((L.find? (hit cmp hash)).map Elem.data).getD 0, h) := by
  rw [r.list.head]
  exact hashSearchLoop_spec cmp hash L (fun e he => r.ok he) r.list.seg.fwd r.data r.index

omit [Arch] in
theorem ERep.find {h : Heap} {p : Ptr} {L : List Elem} (r : ERep h p L) (cmp : Nat → Int) (hash : Nat) :
    hashFindLoop cmp hash p h = some (((L.find? (hit cmp hash)).map Elem.node).getD 0, h) := by
  rw [r.list.head]
  exact hashFindLoop_spec cmp hash L (fun e he => r.ok he) r.list.seg.fwd r.data r.index

omit [Arch] in
theorem ERep.walk {h : Heap} {p : Ptr} {L : List Elem} (r : ERep h p L) :
    walkLoop p [] h = some (L, h) := by
  have := walkLoop_spec (h := h) L [] (fun e he => r.ok he) r.list.seg.fwd r.data r.index
  rw [r.list.head]; simpa using this

/-! ### Operations on a cell -/

omit [Arch] in
theorem cellInsertTail_spec {m : Mem} {r : Ref} {p : Ptr} {L : List Elem} (hc : m.cell? r = some p)
    (hr : ERep m.heap p L) {n : Ptr} (hn : m.heap.ok n) (hnl : n ∉ L.map Elem.node) (d x : Nat) :
    ∃ m' p', (do cellInsertTail r n d; onNodes (setIndex n x)) m = some ((), m') ∧
      m'.cell? r = some p' ∧ ERep m'.heap p' (L ++ [⟨n, d, x⟩]) ∧ Touch m m' (· = r) ∧
      ∀ q, q ≠ n → q ∉ L.map Elem.node → SameNode m.heap m'.heap q := by
  obtain ⟨l', h', e, il, hd, fr⟩ := listInsertTail_spec d hr.list hn hnl
  obtain ⟨m1, e1, hh1, c1, t1⟩ := writeRef_run (m := { m with heap := h' }) (r := r) l'
    (by have := Mem.cell_inside hc; simpa [Mem.inside] using this)
  have t0 : Touch m { m with heap := h' } (· = r) := Touch.heap m fr.valid _
  have ok' : h'.ok n := (fr.ok n).2 hn
  have ok1 : m1.heap.ok n := by rw [hh1]; exact ok'
  refine ⟨{ m1 with heap := { h' with index := upd h'.index n x } }, l', ?_, ?_, ?_, ?_, ?_⟩
  · simp only [cellInsertTail, run_bind, readRef_run hc, Option.bind_some, onNodes_run e, e1]
    rw [onNodes_run (setIndex_run ok1), hh1]
  · exact c1
  · refine ⟨?_, ?_, ?_⟩
    · simpa using il.congr (h' := { h' with index := upd h'.index n x }) (fun _ _ h => h)
        (fun _ _ => rfl) (fun _ _ => rfl)
    · intro e he
      simp only [hd]
      rcases List.mem_append.1 he with he | he
      · have : e.node ≠ n := fun h => hnl (h ▸ List.mem_map_of_mem he)
        rw [upd_ne this]; exact hr.data e he
      · simp at he; subst he; simp
    · intro e he
      simp only [fr.index]
      rcases List.mem_append.1 he with he | he
      · have : e.node ≠ n := fun h => hnl (h ▸ List.mem_map_of_mem he)
        rw [upd_ne this]; exact hr.index e he
      · simp at he; subst he; simp
  · exact ⟨t1.vlen, t1.vnext, fr.valid, fun q hq => t1.cell q hq⟩
  · intro q hq hql
    have hS : ¬ (q = n ∨ q ∈ L.map Elem.node) := by tauto
    refine ⟨(fr.ok q).2, fr.next q hS, fr.prev q hS, ?_, ?_⟩
    · simp only [hd]; rw [upd_ne hq]
    · simp only [fr.index]; rw [upd_ne hq]

omit [Arch] in
theorem cellRemoveExisting_spec {m : Mem} {r : Ref} {p : Ptr} {as bs : List Elem} {x : Elem}
    (hc : m.cell? r = some p) (hr : ERep m.heap p (as ++ x :: bs)) :
    ∃ m' p', cellRemoveExisting r x.node m = some ((), m') ∧
      m'.cell? r = some p' ∧ ERep m'.heap p' (as ++ bs) ∧ Touch m m' (· = r) ∧
      m'.heap.data = m.heap.data ∧
      ∀ q, q ∉ (as ++ x :: bs).map Elem.node → SameNode m.heap m'.heap q := by
  have hl := hr.list
  simp only [List.map_append, List.map_cons] at hl
  obtain ⟨l', h', e, il, hd, fr⟩ := listRemoveExisting_spec hl
  obtain ⟨m1, e1, hh1, c1, t1⟩ := writeRef_run (m := { m with heap := h' }) (r := r) l'
    (by have := Mem.cell_inside hc; simpa [Mem.inside] using this)
  refine ⟨m1, l', ?_, c1, ?_, ?_, by rw [hh1]; exact hd, ?_⟩
  · simp only [cellRemoveExisting, run_bind, readRef_run hc, Option.bind_some, onNodes_run e, e1]
  · rw [hh1]
    refine ⟨by simpa using il, fun e he => ?_, fun e he => ?_⟩
    · simp only [hd]; exact hr.data e (by simp at he ⊢; tauto)
    · simp only [fr.index]; exact hr.index e (by simp at he ⊢; tauto)
  · exact ⟨t1.vlen, t1.vnext, by rw [hh1]; exact fr.valid, fun q hq => t1.cell q hq⟩
  · intro q hq
    rw [hh1]
    exact frame_same fr hd (by simpa using hq)

omit [Arch] in
theorem cellConcat_spec {m : Mem} {r s : Ref} {p q : Ptr} {L M : List Elem}
    (hc : m.cell? r = some p) (hk : m.cell? s = some q) (hr : ERep m.heap p L) (hs : ERep m.heap q M)
    (hd : ∀ x ∈ L.map Elem.node, x ∉ M.map Elem.node) :
    ∃ m' p', cellConcat r s m = some ((), m') ∧
      m'.cell? r = some p' ∧ ERep m'.heap p' (L ++ M) ∧ Touch m m' (· = r) ∧
      m'.heap.data = m.heap.data ∧
      ∀ q, q ∉ L.map Elem.node → q ∉ M.map Elem.node → SameNode m.heap m'.heap q := by
  obtain ⟨l', h', e, il, hd, fr⟩ := listConcat_spec hr.list hs.list hd
  obtain ⟨m1, e1, hh1, c1, t1⟩ := writeRef_run (m := { m with heap := h' }) (r := r) l'
    (by have := Mem.cell_inside hc; simpa [Mem.inside] using this)
  refine ⟨m1, l', ?_, c1, ?_, ?_, by rw [hh1]; exact hd, ?_⟩
  · simp only [cellConcat, run_bind, readRef_run hc, readRef_run hk, Option.bind_some, onNodes_run e, e1]
  · rw [hh1]
    refine ⟨by simpa using il, fun e he => ?_, fun e he => ?_⟩
    · simp only [hd]
      rcases List.mem_append.1 he with he | he
      · exact hr.data e he
      · exact hs.data e he
    · simp only [fr.index]
      rcases List.mem_append.1 he with he | he
      · exact hr.index e he
      · exact hs.index e he
  · exact ⟨t1.vlen, t1.vnext, by rw [hh1]; exact fr.valid, fun q hq => t1.cell q hq⟩
  · intro x hx hx'
    rw [hh1]
    exact frame_same fr hd (by simp at hx hx' ⊢; tauto)

omit [Arch] in
/-- Append of a node to a cell, as in the flush of a bucket. -/
theorem flushOne_spec {m : Mem} {r : Ref} {p : Ptr} {L : List Elem} {e : Elem} (hc : m.cell? r = some p)
    (hr : ERep m.heap p L) (he : m.heap.ok e.node) (hel : e.node ∉ L.map Elem.node)
    (hda : m.heap.data e.node = e.data) (hix : m.heap.index e.node = e.hash) {α : Type} (k : MM α) :
    ∃ m' p', (do let l ← readRef r
                 if l ≠ 0 then do onNodes (listInsertTailNotEmpty l e.node); k
                 else do
                  let l' ← onNodes (listInsertFirst e.node)
                  writeRef r l'
                  k) m = k m' ∧
      m'.cell? r = some p' ∧ ERep m'.heap p' (L ++ [e]) ∧ Touch m m' (· = r) ∧
      m'.heap.data = m.heap.data ∧
      ∀ q, q ≠ e.node → q ∉ L.map Elem.node → SameNode m.heap m'.heap q := by
  by_cases hL : L = []
  · subst hL
    have hp : p = 0 := hr.list.eq_zero_iff.2 rfl
    subst hp
    obtain ⟨h', e', il, hd, fr⟩ := listInsertFirst_spec he
    obtain ⟨m1, e1, hh1, c1, t1⟩ := writeRef_run (m := { m with heap := h' }) (r := r) e.node
      (by have := Mem.cell_inside hc; simpa [Mem.inside] using this)
    refine ⟨m1, e.node, ?_, c1, ?_, ?_, by rw [hh1]; exact hd, ?_⟩
    · simp [run_bind, readRef_run hc, onNodes_run e', e1]
    · rw [hh1]
      refine ⟨by simpa using il, fun x hx => ?_, fun x hx => ?_⟩
      · simp at hx; subst hx; simp only [hd]; exact hda
      · simp at hx; subst hx; simp only [fr.index]; exact hix
    · exact ⟨t1.vlen, t1.vnext, by rw [hh1]; exact fr.valid, fun q hq => t1.cell q hq⟩
    · intro q hq _
      rw [hh1]; exact frame_same fr hd hq
  · have hp : p ≠ 0 := fun h => hL (List.map_eq_nil_iff.1 (hr.list.eq_zero_iff.1 h))
    obtain ⟨h', e', il, hd, fr⟩ := listInsertTailNotEmpty_spec hr.list (by simpa using hL) he hel
    refine ⟨{ m with heap := h' }, p, ?_, hc, ?_, Touch.heap m fr.valid _, hd, ?_⟩
    · simp [run_bind, readRef_run hc, hp, onNodes_run e']
    · refine ⟨by simpa using il, fun x hx => ?_, fun x hx => ?_⟩
      · simp only [hd]
        rcases List.mem_append.1 hx with hx | hx
        · exact hr.data x hx
        · simp at hx; subst hx; exact hda
      · simp only [fr.index]
        rcases List.mem_append.1 hx with hx | hx
        · exact hr.index x hx
        · simp at hx; subst hx; exact hix
    · intro q hq hql
      exact frame_same fr hd (by tauto)

omit [Arch] in
/-- The flush of a detached bucket into two cells. -/
theorem flushLoop_spec (dest : Nat → Ref) (r0 r1 : Ref) (h01 : r0 ≠ r1) (hi : Elem → Bool) (L : List Elem) :
    ∀ (m : Mem) (p0 p1 : Ptr) (P0 P1 : List Elem),
    (∀ e ∈ L, dest e.hash = if hi e then r1 else r0) →
    (∀ e ∈ L, m.heap.ok e.node) → Fwd m.heap (L.map Elem.node) 0 → (L.map Elem.node).Nodup →
    (∀ e ∈ L, m.heap.data e.node = e.data) → (∀ e ∈ L, m.heap.index e.node = e.hash) →
    m.cell? r0 = some p0 → ERep m.heap p0 P0 → m.cell? r1 = some p1 → ERep m.heap p1 P1 →
    (∀ x ∈ P0.map Elem.node, x ∉ P1.map Elem.node) →
    (∀ x ∈ L.map Elem.node, x ∉ P0.map Elem.node ∧ x ∉ P1.map Elem.node) →
    ∃ m' q0 q1, flushLoop dest ((L.map Elem.node).headD 0) m = some (L.length, m') ∧
      m'.cell? r0 = some q0 ∧ ERep m'.heap q0 (P0 ++ L.filter (fun e => !hi e)) ∧
      m'.cell? r1 = some q1 ∧ ERep m'.heap q1 (P1 ++ L.filter hi) ∧
      Touch m m' (fun r => r = r0 ∨ r = r1) ∧
      (∀ q, q ∉ L.map Elem.node → q ∉ P0.map Elem.node → q ∉ P1.map Elem.node →
        SameNode m.heap m'.heap q) := by
  induction L with
  | nil =>
    intro m p0 p1 P0 P1 _ _ _ _ _ _ c0 R0 c1 R1 _ _
    refine ⟨m, p0, p1, ?_, c0, by simpa using R0, c1, by simpa using R1, Touch.refl _ _, ?_⟩
    · rw [flushLoop]; simp
    · intro q _ _ _; exact ⟨id, rfl, rfl, rfl, rfl⟩
  | cons e L ih =>
    intro m p0 p1 P0 P1 hdest ok fw nd da ix c0 R0 c1 R1 dis dL
    have oe := ok e (by simp)
    have h0 : e.node ≠ 0 := oe.1
    have hn : m.heap.next e.node = (L.map Elem.node).headD 0 := fw.1
    rw [List.map_cons, List.nodup_cons] at nd
    have heL : ∀ x ∈ L, x.node ≠ e.node := fun x hx h => nd.1 (h ▸ List.mem_map_of_mem hx)
    have dLe := dL e.node (by simp)
    -- unfold one step
    have unf : flushLoop dest (((e :: L).map Elem.node).headD 0) m =
        (do let l ← readRef (dest e.hash)
            if l ≠ 0 then do
              onNodes (listInsertTailNotEmpty l e.node)
              (do let moved ← flushLoop dest ((L.map Elem.node).headD 0); pure (moved + 1))
            else do
              let l' ← onNodes (listInsertFirst e.node)
              writeRef (dest e.hash) l'
              (do let moved ← flushLoop dest ((L.map Elem.node).headD 0); pure (moved + 1))) m := by
      rw [List.map_cons, List.headD_cons, flushLoop]
      simp only [h0, if_false, run_ite, run_bind, onNodes_run (getNext_run oe), Option.bind_some,
        onNodes_run (getIndex_run oe), ix e (by simp), hn]
    rw [unf]
    cases hh : hi e with
    | false =>
      have hde : dest e.hash = r0 := by rw [hdest e (by simp), hh]; simp
      rw [hde]
      obtain ⟨m1, p', e1, c', R', T', hd', S'⟩ := flushOne_spec c0 R0 oe dLe.1 (da e (by simp)) (ix e (by simp))
        (do let moved ← flushLoop dest ((L.map Elem.node).headD 0); pure (moved + 1))
      rw [e1]
      have sameL : ∀ x ∈ L, SameNode m.heap m1.heap x.node := fun x hx =>
        S' _ (heL x hx) (dL x.node (by simp; exact Or.inr ⟨x, hx, rfl⟩)).1
      have R1' : ERep m1.heap p1 P1 := R1.same fun x hx =>
        S' _ (fun h => dLe.2 (h ▸ List.mem_map_of_mem hx))
          (fun h => dis _ h (List.mem_map_of_mem hx))
      have fw' : Fwd m1.heap (L.map Elem.node) 0 := by
        have := fw.2
        clear ih
        revert this sameL
        generalize L = K
        induction K with
        | nil => intros; trivial
        | cons k K ihK =>
          intro s f
          refine ⟨?_, ihK (fun x hx => s x (by simp [hx])) f.2⟩
          rw [(s k (by simp)).next]; exact f.1
      obtain ⟨m2, q0, q1, e2, cc0, RR0, cc1, RR1, T2, S2⟩ := ih m1 p' p1 (P0 ++ [e]) P1
        (fun x hx => hdest x (by simp [hx])) (fun x hx => (sameL x hx).ok (ok x (by simp [hx]))) fw' nd.2
        (fun x hx => by rw [(sameL x hx).data]; exact da x (by simp [hx]))
        (fun x hx => by rw [(sameL x hx).index]; exact ix x (by simp [hx]))
        c' R' ((T'.cell r1 (fun h => h01 h.symm)).trans c1) R1'
        (by
          intro x hx
          simp only [List.map_append, List.mem_append, List.map_cons, List.map_nil, List.mem_singleton] at hx
          rcases hx with hx | rfl
          · exact dis x hx
          · exact dLe.2)
        (by
          intro x hx
          have := dL x (by simp at hx ⊢; exact Or.inr hx)
          refine ⟨?_, this.2⟩
          simp only [List.map_append, List.mem_append, List.map_cons, List.map_nil, List.mem_singleton]
          rintro (h | rfl)
          · exact this.1 h
          · exact nd.1 hx)
      refine ⟨m2, q0, q1, by rw [run_bind, e2]; rfl, cc0, ?_, cc1, ?_, ?_, ?_⟩
      · simpa [hh] using RR0
      · simpa [hh] using RR1
      · exact (T'.mono (by intro r hr; exact Or.inl hr)).trans T2
      · intro q hqL hq0 hq1
        simp only [List.map_cons, List.mem_cons, not_or] at hqL
        have a := S' q hqL.1 hq0
        have b := S2 q hqL.2 (by simp at hq0 ⊢; exact ⟨hq0, hqL.1⟩) hq1
        exact ⟨fun h => b.ok (a.ok h), b.next.trans a.next, b.prev.trans a.prev, b.data.trans a.data,
          b.index.trans a.index⟩
    | true =>
      have hde : dest e.hash = r1 := by rw [hdest e (by simp), hh]; simp
      rw [hde]
      obtain ⟨m1, p', e1, c', R', T', hd', S'⟩ := flushOne_spec c1 R1 oe dLe.2 (da e (by simp)) (ix e (by simp))
        (do let moved ← flushLoop dest ((L.map Elem.node).headD 0); pure (moved + 1))
      rw [e1]
      have sameL : ∀ x ∈ L, SameNode m.heap m1.heap x.node := fun x hx =>
        S' _ (heL x hx) (dL x.node (by simp; exact Or.inr ⟨x, hx, rfl⟩)).2
      have R0' : ERep m1.heap p0 P0 := R0.same fun x hx =>
        S' _ (fun h => dLe.1 (h ▸ List.mem_map_of_mem hx))
          (fun h => dis _ (List.mem_map_of_mem hx) h)
      have fw' : Fwd m1.heap (L.map Elem.node) 0 := by
        have := fw.2
        clear ih
        revert this sameL
        generalize L = K
        induction K with
        | nil => intros; trivial
        | cons k K ihK =>
          intro s f
          refine ⟨?_, ihK (fun x hx => s x (by simp [hx])) f.2⟩
          rw [(s k (by simp)).next]; exact f.1
      obtain ⟨m2, q0, q1, e2, cc0, RR0, cc1, RR1, T2, S2⟩ := ih m1 p0 p' P0 (P1 ++ [e])
        (fun x hx => hdest x (by simp [hx])) (fun x hx => (sameL x hx).ok (ok x (by simp [hx]))) fw' nd.2
        (fun x hx => by rw [(sameL x hx).data]; exact da x (by simp [hx]))
        (fun x hx => by rw [(sameL x hx).index]; exact ix x (by simp [hx]))
        ((T'.cell r0 h01).trans c0) R0' c' R'
        (by
          intro x hx
          simp only [List.map_append, List.mem_append, List.map_cons, List.map_nil, List.mem_singleton]
          rintro (h | rfl)
          · exact dis x hx h
          · exact dLe.1 hx)
        (by
          intro x hx
          have := dL x (by simp at hx ⊢; exact Or.inr hx)
          refine ⟨this.1, ?_⟩
          simp only [List.map_append, List.mem_append, List.map_cons, List.map_nil, List.mem_singleton]
          rintro (h | rfl)
          · exact this.2 h
          · exact nd.1 hx)
      refine ⟨m2, q0, q1, by rw [run_bind, e2]; rfl, cc0, ?_, cc1, ?_, ?_, ?_⟩
      · simpa [hh] using RR0
      · simpa [hh] using RR1
      · exact (T'.mono (by intro r hr; exact Or.inr hr)).trans T2
      · intro q hqL hq0 hq1
        simp only [List.map_cons, List.mem_cons, not_or] at hqL
        have a := S' q hqL.1 hq1
        have b := S2 q hqL.2 hq0 (by simp at hq1 ⊢; exact ⟨hq1, hqL.1⟩)
        exact ⟨fun h => b.ok (a.ok h), b.next.trans a.next, b.prev.trans a.prev, b.data.trans a.data,
          b.index.trans a.index⟩

end HashSpec
end Tommy
