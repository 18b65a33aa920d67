import Verif.Proof.TrieInpCore
/-! Removal from an in-place trie. -/
set_option linter.unusedSimpArgs false
set_option linter.unusedVariables false
namespace Tommy

variable [Arch]
namespace InpSpec
open HashSpec (Elem ERep SameNode)
open TrieSpec (dig dig_lt shift_succ shift_div slot_run sub32_eq)

variable {c : TrieCfg}

/-- The memory with a changed cell. -/
def setCell (m : TMem) (l : Loc) (p : Ptr) : TMem :=
  { m with cell := upd m.cell l.base (upd (m.cell l.base) l.idx p) }

omit [Arch] in
theorem setCell_at (m : TMem) (l : Loc) (p : Ptr) : (setCell m l p).cell l.base l.idx = p := by
  show upd m.cell l.base _ l.base l.idx = p
  rw [upd_same, upd_same]

omit [Arch] in
theorem setCell_other {m : TMem} {l : Loc} {p b : Ptr} {i : Nat} (h : ¬ (b = l.base ∧ i = l.idx)) :
    (setCell m l p).cell b i = m.cell b i :=
  (TrieSpec.tfr_cell (N := fun _ => True) (B := fun _ => False) (m := m) l p).cell b i (fun h => h) h

omit [Arch] in
theorem setCell_base {m : TMem} {l : Loc} {p b : Ptr} (i : Nat) (h : b ≠ l.base) :
    (setCell m l p).cell b i = m.cell b i := setCell_other fun x => h x.1

omit [Arch] in
theorem setCell_same {m : TMem} {l : Loc} {p : Ptr} (h : m.cell l.base l.idx = p) : setCell m l p = m := by
  refine cells_ext ?_
  funext b i
  by_cases hb : b = l.base ∧ i = l.idx
  · obtain ⟨rfl, rfl⟩ := hb
    rw [upd_same, upd_same, h]
  · exact setCell_other (m := m) (p := p) hb

omit [Arch] in
theorem setCell_run {m : TMem} {l : Loc} (p : Ptr) (h : l.idx < m.csize l.base) :
    cellSet l p m = some ((), setCell m l p) := cellSet_run p h

/-! ### The list -/

omit [Arch] in
theorem listRemove_run {m : TMem} {l : Loc} {n : Ptr} {as bs : List Ptr} (hl : l.idx < m.csize l.base)
    (il : IsList m.heap (m.cell l.base l.idx) (as ++ n :: bs)) :
    ∃ l' h', inpListRemove l n m = some ((), setCell { m with heap := h' } l l') ∧ IsList h' l' (as ++ bs) ∧
      h'.data = m.heap.data ∧ Frame m.heap h' (fun q => q ∈ as ++ n :: bs) := by
  obtain ⟨l', h', e, il', hd, fr⟩ := listRemoveExisting_spec il
  refine ⟨l', h', ?_, il', hd, fr⟩
  have nok : m.heap.ok n := il.ok n (by simp)
  have hok : m.heap.ok (m.cell l.base l.idx) := il.headD_ok (by simp)
  have okp : ∀ (h : Heap) f q, Heap.ok { h with prev := f } q ↔ h.ok q := fun _ _ _ => Iff.rfl
  have okn : ∀ (h : Heap) f q, Heap.ok { h with next := f } q ↔ h.ok q := fun _ _ _ => Iff.rfl
  have okb : ∀ f g, Heap.ok ⟨m.heap.valid, f, g, m.heap.data, m.heap.index⟩ n := fun _ _ => nok
  by_cases h0 : m.heap.next n = 0 <;> by_cases hh : m.cell l.base l.idx = n
  · rw [hh] at hok
    simp only [listRemoveExisting, listHead, getNext, getPrev, setPrev, setNext, getData, h0, hh, run_bind, run_ite, nok, hok,
      okp, okn, okb, if_true, if_false, Option.bind_some, Option.bind_none, ne_eq, not_true, not_false_eq_true, run_pure,
      Option.some.injEq, Prod.mk.injEq, reduceCtorEq] at e
    simp only [inpListRemove, inpUnlinkPrev, inpUnlinkNext, onN, zoom, getNext, getPrev, setPrev, setNext, run_bind,
      cellGet_run hl, Option.bind_some, h0, hh, nok, hok, run_ite, ne_eq, not_true, not_false_eq_true, if_true, if_false,
      okp, okn, okb]
    rw [setCell_run 0 (by exact hl), e.1.1, e.2]
  · by_cases po : m.heap.ok (upd m.heap.prev (m.cell l.base l.idx) (m.heap.prev n) n)
    · simp only [listRemoveExisting, listHead, getNext, getPrev, setPrev, setNext, getData, h0, hh, run_bind, run_ite, nok, hok,
        okp, okn, okb, po, if_true, if_false, Option.bind_some, Option.bind_none, ne_eq, not_true, not_false_eq_true, run_pure,
        Option.some.injEq, Prod.mk.injEq, reduceCtorEq] at e
      simp only [inpListRemove, inpUnlinkPrev, inpUnlinkNext, onN, zoom, getNext, getPrev, setPrev, setNext, run_bind,
        cellGet_run hl, Option.bind_some, h0, hh, nok, hok, run_ite, ne_eq, not_true, not_false_eq_true, if_true, if_false,
        okp, okn, okb, po]
      rw [e.2, ← e.1.1, setCell_same (by rfl)]
    · simp only [listRemoveExisting, listHead, getNext, getPrev, setPrev, setNext, getData, h0, hh, run_bind, run_ite, nok, hok,
        okp, okn, okb, po, if_true, if_false, Option.bind_some, Option.bind_none, ne_eq, not_true, not_false_eq_true, run_pure,
        Option.some.injEq, Prod.mk.injEq, reduceCtorEq] at e
  · by_cases no : m.heap.ok (m.heap.next n)
    · simp only [listRemoveExisting, listHead, getNext, getPrev, setPrev, setNext, getData, h0, hh, run_bind, run_ite, nok, hok,
        okp, okn, okb, no, if_true, if_false, Option.bind_some, Option.bind_none, ne_eq, not_true, not_false_eq_true, run_pure,
        Option.some.injEq, Prod.mk.injEq, reduceCtorEq] at e
      simp only [inpListRemove, inpUnlinkPrev, inpUnlinkNext, onN, zoom, getNext, getPrev, setPrev, setNext, run_bind,
        cellGet_run hl, Option.bind_some, h0, hh, nok, hok, run_ite, ne_eq, not_true, not_false_eq_true, if_true, if_false,
        okp, okn, okb, no]
      rw [setCell_run _ (by exact hl), e.2, e.1.1]
    · simp only [listRemoveExisting, listHead, getNext, getPrev, setPrev, setNext, getData, h0, hh, run_bind, run_ite, nok, hok,
        okp, okn, okb, no, if_true, if_false, Option.bind_some, Option.bind_none, ne_eq, not_true, not_false_eq_true, run_pure,
        Option.some.injEq, Prod.mk.injEq, reduceCtorEq] at e
  · by_cases no : m.heap.ok (m.heap.next n)
    · by_cases po : m.heap.ok (upd m.heap.prev (m.heap.next n) (m.heap.prev n) n)
      · simp only [listRemoveExisting, listHead, getNext, getPrev, setPrev, setNext, getData, h0, hh, run_bind, run_ite, nok, hok,
          okp, okn, okb, no, po, if_true, if_false, Option.bind_some, Option.bind_none, ne_eq, not_true, not_false_eq_true, run_pure,
          Option.some.injEq, Prod.mk.injEq, reduceCtorEq] at e
        simp only [inpListRemove, inpUnlinkPrev, inpUnlinkNext, onN, zoom, getNext, getPrev, setPrev, setNext, run_bind,
          cellGet_run hl, Option.bind_some, h0, hh, nok, hok, run_ite, ne_eq, not_true, not_false_eq_true, if_true, if_false,
          okp, okn, okb, no, po]
        rw [e.2, ← e.1.1, setCell_same (by rfl)]
      · simp only [listRemoveExisting, listHead, getNext, getPrev, setPrev, setNext, getData, h0, hh, run_bind, run_ite, nok, hok,
          okp, okn, okb, no, po, if_true, if_false, Option.bind_some, Option.bind_none, ne_eq, not_true, not_false_eq_true, run_pure,
          Option.some.injEq, Prod.mk.injEq, reduceCtorEq] at e
    · simp only [listRemoveExisting, listHead, getNext, getPrev, setPrev, setNext, getData, h0, hh, run_bind, run_ite, nok, hok,
        okp, okn, okb, no, if_true, if_false, Option.bind_some, Option.bind_none, ne_eq, not_true, not_false_eq_true, run_pure,
        Option.some.injEq, Prod.mk.injEq, reduceCtorEq] at e

/-! ### Copy of the children -/

/-- The memory with the cells of `src` copied to `dst`. -/
def copied (c : TrieCfg) (m : TMem) (dst src : Ptr) : TMem :=
  { m with cell := upd m.cell dst (fun j => if 0 ≤ j ∧ j < 0 + c.treeMax then m.cell src j else m.cell dst j) }

omit [Arch] in
theorem copyCells_run {dst src : Ptr} (hne : src ≠ dst) : ∀ (k i : Nat) (m : TMem), i + k ≤ m.csize dst →
    i + k ≤ m.csize src →
    copyCells dst src i k m = some ((), { m with
      cell := upd m.cell dst (fun j => if i ≤ j ∧ j < i + k then m.cell src j else m.cell dst j) }) := by
  intro k
  induction k with
  | zero =>
    intro i m _ _
    have : upd m.cell dst (fun j => if i ≤ j ∧ j < i + 0 then m.cell src j else m.cell dst j) = m.cell := by
      funext q j
      rw [upd_apply]
      by_cases hq : q = dst
      · subst hq; rw [if_pos rfl, if_neg (by omega)]
      · rw [if_neg hq]
    simp only [copyCells, run_pure, this]
  | succ k ih =>
    intro i m h h'
    simp only [copyCells, run_bind]
    rw [cellGet_run (by show i < m.csize src; omega)]
    simp only [Option.bind_some]
    rw [cellSet_run _ (by show i < m.csize dst; omega)]
    simp only [Option.bind_some]
    rw [ih (i + 1) _ (by simpa using (by omega : i + 1 + k ≤ m.csize dst)) (by simpa using (by omega : i + 1 + k ≤ m.csize src))]
    congr 2
    have : ∀ A B : Ptr → Nat → Ptr, A = B → ({ m with cell := A } : TMem) = { m with cell := B } := by
      intro A B h; rw [h]
    refine this _ _ ?_
    funext q j
    simp only [upd_apply]
    by_cases hq : q = dst
    · subst hq
      simp only [if_true, hne, if_false]
      grind [upd]
    · simp only [hq, if_false]

omit [Arch] in
theorem copied_run {m : TMem} {dst src : Ptr} (hne : src ≠ dst) (h1 : m.csize dst = c.treeMax) (h2 : m.csize src = c.treeMax) :
    copyCells dst src 0 c.treeMax m = some ((), copied c m dst src) :=
  copyCells_run hne _ _ m (by rw [h1]; omega) (by rw [h2]; omega)

omit [Arch] in
theorem copied_at (m : TMem) (dst src : Ptr) {i : Nat} (hi : i < c.treeMax) :
    (copied c m dst src).cell dst i = m.cell src i := by
  show upd m.cell dst _ dst i = _
  rw [upd_same, if_pos (by omega)]

omit [Arch] in
theorem copied_other {m : TMem} {dst src b : Ptr} (i : Nat) (h : b ≠ dst) :
    (copied c m dst src).cell b i = m.cell b i := by
  show upd m.cell dst _ b i = _
  rw [upd_ne h]

/-! ### The search of a leaf -/

/-- The leaf `L2` of the trie `t` is in the cell `l2`, and without it the trie is `t'`. -/
structure LeafRes (c : TrieCfg) (m : TMem) (l : Loc) (n pre : Nat) (t t' : IT) (l2 : Loc) (q : Ptr) (L2 : List Elem)
    (k2 : Nat) : Prop where
  loc : l2.idx < m.csize l2.base
  place : l2 = l ∨ l2.base ∈ (t.elems c.treeMax).map Elem.node
  ne : L2 ≠ []
  er : ERep m.heap q L2
  sub : ∀ e ∈ L2, e ∈ t.elems c.treeMax
  key : ∀ e ∈ L2, e.hash = k2
  hpre : k2 >>> (c.treeBit * n) = pre
  rep : IRep c (setCell m l2 0) t' n pre ((setCell m l2 0).cell l.base l.idx)
  elems : ∀ k, (t.elems c.treeMax).filter (fun e => e.hash = k) =
    if k = k2 then L2 else (t'.elems c.treeMax).filter (fun e => e.hash = k)
  rest : ∀ e ∈ t'.elems c.treeMax, e ∈ t.elems c.treeMax ∧ e.hash ≠ k2

def LeafAt (c : TrieCfg) (t : IT) : Prop := ∀ (n : Nat) (m : TMem) (l : Loc) (pre : Nat), t ≠ .nil →
  IRep c m t n pre (m.cell l.base l.idx) → ((t.elems c.treeMax).map Elem.node).Nodup →
  l.base ∉ (t.elems c.treeMax).map Elem.node → l.idx < m.csize l.base →
  ∃ l2 q L2 k2 t', inpLeaf c (some l) (m.cell l.base l.idx) c.treeMax m = some ((some l2, q), m) ∧
    LeafRes c m l n pre t t' l2 q L2 k2

omit [Arch] in
theorem leaf_scan {m : TMem} {p : Ptr} (lo : Option Loc) (hs : m.csize p = c.treeMax) : ∀ j, j ≤ c.treeMax →
    (inpLeaf c lo p j m = some ((lo, p), m) ∧ ∀ i, i < j → m.cell p i = 0) ∨
    ∃ i, i < j ∧ m.cell p i ≠ 0 ∧
      inpLeaf c lo p j m = inpLeaf c (some ⟨p, i⟩) (m.cell p i) c.treeMax m := by
  intro j
  induction j with
  | zero =>
    intro _
    left
    refine ⟨?_, fun i hi => absurd hi (by omega)⟩
    rw [inpLeaf]; simp
  | succ j ih =>
    intro hj
    have g : cellGet ⟨p, j⟩ m = some (m.cell p j, m) := cellGet_run (by simp only; omega)
    have unf : inpLeaf c lo p (j + 1) m =
        if m.cell p j ≠ 0 then inpLeaf c (some ⟨p, j⟩) (m.cell p j) c.treeMax m else inpLeaf c lo p j m := by
      conv => lhs; rw [inpLeaf]
      simp only [Nat.add_eq_zero_iff, one_ne_zero, and_false, if_false, Nat.add_sub_cancel, run_bind, g, Option.bind_some,
        run_ite, Nat.succ_ne_zero]
    rw [unf]
    by_cases h0 : m.cell p j = 0
    · rw [if_neg (by simpa using h0)]
      rcases ih (by omega) with ⟨h1, h2⟩ | ⟨i, hi, h1, h2⟩
      · refine Or.inl ⟨h1, fun i hi => ?_⟩
        by_cases hij : i = j
        · rw [hij]; exact h0
        · exact h2 i (by omega)
      · exact Or.inr ⟨i, by omega, h1, h2⟩
    · rw [if_pos h0]
      exact Or.inr ⟨j, by omega, h0, rfl⟩

theorem leaf_kid (hc : TrieSpec.CfgOk c) {m : TMem} {ch : Nat → IT} {n pre : Nat} {p : Ptr} (kids : Kids c m ch n pre p)
    (hs : m.csize p = c.treeMax) (nd : ((kidsElems c.treeMax ch).map Elem.node).Nodup)
    (hp : p ∉ (kidsElems c.treeMax ch).map Elem.node) {i : Nat} (hi : i < c.treeMax) (h0 : m.cell p i ≠ 0)
    (ih : LeafAt c (ch i)) :
    ∃ l2 q L2 k2 t1, inpLeaf c (some ⟨p, i⟩) (m.cell p i) c.treeMax m = some ((some l2, q), m) ∧
      l2.idx < m.csize l2.base ∧ (l2.base = p ∨ l2.base ∈ (kidsElems c.treeMax ch).map Elem.node) ∧
      L2 ≠ [] ∧ ERep m.heap q L2 ∧ (∀ e ∈ L2, e ∈ kidsElems c.treeMax ch) ∧ (∀ e ∈ L2, e.hash = k2) ∧
      k2 >>> (c.treeBit * n) = pre ∧ Kids c (setCell m l2 0) (upd ch i t1) n pre p ∧
      (∀ k, (kidsElems c.treeMax ch).filter (fun e => e.hash = k) =
        if k = k2 then L2 else (kidsElems c.treeMax (upd ch i t1)).filter (fun e => e.hash = k)) ∧
      ∀ e ∈ kidsElems c.treeMax (upd ch i t1), e ∈ kidsElems c.treeMax ch ∧ e.hash ≠ k2 := by
  have nn : ch i ≠ .nil := by
    intro h
    have := (kids i hi).2
    rw [h] at this
    exact h0 this
  cases n with
  | zero => exact absurd ((kids i hi).1 rfl) nn
  | succ n =>
    have sub : ∀ y ∈ (ch i).elems c.treeMax, y ∈ kidsElems c.treeMax ch := fun y hy => mem_kids.2 ⟨_, hi, hy⟩
    have subn : ∀ q ∈ ((ch i).elems c.treeMax).map Elem.node, q ∈ (kidsElems c.treeMax ch).map Elem.node := by
      intro q hq
      obtain ⟨y, hy, rfl⟩ := List.mem_map.1 hq
      exact List.mem_map_of_mem (sub y hy)
    obtain ⟨l2, q, L2, k2, t1, run, R⟩ := ih n m ⟨p, i⟩ _ nn (kids i hi).2 (flatMap_nodup (kids_nodup nd) hi)
      (fun h => hp (subn _ h)) (by simp only; rw [hs]; exact hi)
    have hk2 := shift_div hc hi R.hpre
    have kids' : Kids c (setCell m l2 0) (upd ch i t1) (n + 1) pre p := by
      have fr0 : TFr m (setCell m l2 0) (fun _ => False) (fun b => b ∈ ((ch i).elems c.treeMax).map Elem.node) l2 :=
        TrieSpec.tfr_cell l2 0
      have fr : TFr m (setCell m l2 0) (fun _ => False) (fun b => b ∈ ((ch i).elems c.treeMax).map Elem.node) ⟨p, i⟩ := by
        rcases R.place with h | h
        · rw [h] at fr0 ⊢; exact fr0
        · exact fr0.inner h
      exact kids.upd hi fr rfl nd hp (fun q h => h.elim) (fun q h => h) R.rep
    refine ⟨l2, q, L2, k2, t1, run, R.loc, ?_, R.ne, R.er, fun e he => sub e (R.sub e he), R.key, hk2.1, kids', ?_, ?_⟩
    · rcases R.place with h | h
      · rw [h]; exact Or.inl rfl
      · exact Or.inr (subn _ h)
    · intro k
      rw [kids.filter hc, kids'.filter hc]
      by_cases hd : dig c n k = i
      · rw [hd, upd_same]; exact R.elems k
      · rw [upd_ne hd, if_neg]
        rintro rfl
        exact hd hk2.2
    · intro e he
      obtain ⟨j, hj, he⟩ := mem_kids.1 he
      by_cases hji : j = i
      · subst hji
        rw [upd_same] at he
        exact ⟨sub e (R.rest e he).1, (R.rest e he).2⟩
      · rw [upd_ne hji] at he
        refine ⟨mem_kids.2 ⟨j, hj, he⟩, fun h => hji ?_⟩
        rw [← kids.dig hc j hj e he, h, hk2.2]

omit [Arch] in
theorem kids_nil_of_zero {m : TMem} {ch : Nat → IT} {n pre : Nat} {p : Ptr} (kids : Kids c m ch n pre p)
    (h : ∀ i, i < c.treeMax → m.cell p i = 0) : kidsElems c.treeMax ch = [] := by
  unfold kidsElems
  rw [List.flatMap_eq_nil_iff]
  intro i hi
  have hi := List.mem_range.1 hi
  have := (kids i hi).2
  rw [h i hi] at this
  rw [this.zero, elems_nil]

theorem leaf_run (hc : TrieSpec.CfgOk c) : ∀ t : IT, LeafAt c t := by
  intro t
  induction t with
  | nil => intro n m l pre h; exact absurd rfl h
  | node L ch ih =>
    intro n m l pre _ hr hnd hbase hloc
    obtain ⟨pok, psz, e0, M, hL, pe⟩ := hr.head
    obtain ⟨ne, er, sz, ⟨k, hk, hh, hkne⟩, kids⟩ := id hr
    have kids : Kids c m ch n pre (m.cell l.base l.idx) := kids
    have nd := hnd
    have hb := hbase
    rw [elems_node, List.map_append, List.nodup_append] at nd
    rw [elems_node, List.map_append, List.mem_append] at hb
    have pL : m.cell l.base l.idx ∈ L.map Elem.node := by rw [pe, hL]; simp
    have pk : m.cell l.base l.idx ∉ (kidsElems c.treeMax ch).map Elem.node := fun h => nd.2.2 _ pL _ h rfl
    rcases leaf_scan (c := c) (some l) psz c.treeMax (by omega) with ⟨run, hz⟩ | ⟨i, hi, h0, run⟩
    · have hk0 := kids_nil_of_zero kids hz
      refine ⟨l, m.cell l.base l.idx, L, k, .nil, run, ⟨hloc, Or.inl rfl, ne, er, ?_, hh, hk, ?_, ?_, ?_⟩⟩
      · intro e he; rw [elems_node]; simp [he]
      · exact setCell_at m l 0
      · intro k'
        rw [elems_node, hk0, List.append_nil, elems_nil]
        by_cases h : k' = k
        · rw [if_pos h, h]; exact filter_eq_of_key hh
        · rw [if_neg h]; exact filter_nil_of_key' hh (fun e => h e.symm)
      · intro e he; simp [elems_nil] at he
    · obtain ⟨l2, q, L2, k2, t1, run2, h1, h2, h3, h4, h5, h6, h7, h8, h9, h10⟩ :=
        leaf_kid hc kids psz nd.2.1 pk hi h0 (ih i)
      have hkk : k ≠ k2 := by
        obtain ⟨e, he⟩ := List.exists_mem_of_ne_nil _ h3
        intro h
        exact hkne e (h5 e he) ((h6 e he).trans h.symm)
      have lb : l.base ≠ l2.base := by
        intro h
        rcases h2 with h2 | h2
        · exact hb (Or.inl (by rw [h, h2]; exact pL))
        · exact hb (Or.inr (by rw [h]; exact h2))
      refine ⟨l2, q, L2, k2, .node L (upd ch i t1), run.trans run2, ⟨h1, Or.inr ?_, h3, h4, ?_, h6, h7, ?_, ?_, ?_⟩⟩
      · rw [elems_node, List.map_append, List.mem_append]
        rcases h2 with h2 | h2
        · rw [h2]; exact Or.inl pL
        · exact Or.inr h2
      · intro e he; rw [elems_node, List.mem_append]; exact Or.inr (h5 e he)
      · rw [setCell_base _ lb]
        exact ⟨ne, er, sz, ⟨k, hk, hh, fun e he => hkne e (h10 e he).1⟩, h8⟩
      · intro k'
        rw [elems_node, elems_node, List.filter_append, List.filter_append, h9]
        by_cases h : k' = k2
        · rw [if_pos h, if_pos h, filter_nil_of_key' hh (by rw [h]; exact hkk), List.nil_append]
        · rw [if_neg h, if_neg h]
      · intro e he
        rw [elems_node, List.mem_append] at he ⊢
        rcases he with he | he
        · exact ⟨Or.inl he, by rw [hh e he]; exact hkk⟩
        · exact ⟨Or.inr (h10 e he).1, (h10 e he).2⟩

/-! ### Removal -/

/-- What is needed to remove a key from the trie `t` in the cell `l`. -/
structure RemPre (c : TrieCfg) (m : TMem) (l : Loc) (n pre s : Nat) (t : IT) (key : Nat) : Prop where
  nodup : ((t.elems c.treeMax).map Elem.node).Nodup
  base : l.base ∉ (t.elems c.treeMax).map Elem.node
  loc : l.idx < m.csize l.base
  pre : key >>> (c.treeBit * n) = pre
  shift : ∀ n', n = n' + 1 → s = c.treeBit * n'
  small : c.treeBit * n ≤ sizeBit

/-- The element `e` was removed from the trie `t` in the cell `l`. -/
structure RemRes (c : TrieCfg) (m m' : TMem) (l : Loc) (n pre : Nat) (t t' : IT) (e : Elem) : Prop where
  rep : IRep c m' t' n pre (m'.cell l.base l.idx)
  elems : ∀ k, (t'.elems c.treeMax).filter (fun e => e.hash = k) =
    ((t.elems c.treeMax).filter (fun f => f.node ≠ e.node)).filter (fun e => e.hash = k)
  fr : TFr m m' (fun q => ∃ f ∈ t.elems c.treeMax, f.hash = e.hash ∧ f.node = q)
    (fun b => b ∈ (t.elems c.treeMax).map Elem.node) l
  size : m'.csize = m.csize

/-- The element `e` is the one to remove. -/
def Picks (c : TrieCfg) (t : IT) (rm : Ptr) (key : Nat) (e : Elem) : Prop :=
  e ∈ t.elems c.treeMax ∧ e.hash = key ∧
    (rm = e.node ∨ rm = 0 ∧ ((t.elems c.treeMax).filter fun f => f.hash = key).head? = some e)

theorem unlink_run (hc : TrieSpec.CfgOk c) {m : TMem} {l : Loc} {n pre : Nat} {L : List Elem} {ch : Nat → IT} {e : Elem}
    (hr : IRep c m (.node L ch) n pre (m.cell l.base l.idx))
    (hnd : (((IT.node L ch).elems c.treeMax).map Elem.node).Nodup)
    (hbase : l.base ∉ ((IT.node L ch).elems c.treeMax).map Elem.node) (hloc : l.idx < m.csize l.base) (he : e ∈ L) :
    ∃ m' t', inpUnlink c l (m.cell l.base l.idx) e.node m = some (e.node, m') ∧
      RemRes c m m' l n pre (.node L ch) t' e := by
  obtain ⟨pok, psz, e0, M, hL, pe⟩ := hr.head
  obtain ⟨ne, er, sz, ⟨k, hk, hh, hkne⟩, kids⟩ := id hr
  have kids : Kids c m ch n pre (m.cell l.base l.idx) := kids
  have nd := hnd
  have hb := hbase
  rw [elems_node, List.map_append, List.nodup_append] at nd
  rw [elems_node, List.map_append, List.mem_append] at hb
  have pL : m.cell l.base l.idx ∈ L.map Elem.node := by rw [pe, hL]; simp
  have pk : m.cell l.base l.idx ∉ (kidsElems c.treeMax ch).map Elem.node := fun h => nd.2.2 _ pL _ h rfl
  have plb : m.cell l.base l.idx ≠ l.base := fun h => hb (Or.inl (h ▸ pL))
  have disj : ∀ y ∈ kidsElems c.treeMax ch, y.node ∉ L.map Elem.node := fun y hy h =>
    nd.2.2 _ h _ (List.mem_map_of_mem hy) rfl
  have klb : ∀ y ∈ kidsElems c.treeMax ch, y.node ≠ l.base := fun y hy h =>
    hb (Or.inr (h ▸ List.mem_map_of_mem hy))
  obtain ⟨as, bs, hab⟩ := List.append_of_mem he
  have il := er.list
  rw [hab, List.map_append, List.map_cons] at il
  obtain ⟨l', h', run1, il', hd, frh⟩ := listRemove_run hloc il
  have frh : Frame m.heap h' (fun q => q ∈ L.map Elem.node) := by
    rw [hab, List.map_append, List.map_cons]; exact frh
  rw [← List.map_append] at il'
  let m1 := setCell { m with heap := h' } l l'
  have f1 : ∀ B, TFr m m1 (fun q => q ∈ L.map Elem.node) B l := fun B =>
    (TrieSpec.same_of_frame frh hd l _).trans (TrieSpec.tfr_cell (m := { m with heap := h' }) l l')
  have c1 : m1.cell l.base l.idx = l' := setCell_at _ _ _
  have o1 : ∀ b i, b ≠ l.base → m1.cell b i = m.cell b i := fun b i h => setCell_base i h
  have kids1 : Kids c m1 ch n pre (m.cell l.base l.idx) :=
    kids.congr (fun i _ => o1 _ i plb) fun y hy => ⟨(f1 (fun _ => False)).node _ (disj y hy), rfl, fun i _ => o1 _ i (klb y hy)⟩
  have inab : ∀ y ∈ as ++ bs, y ∈ L := by
    intro y hy; rw [hab]; simp only [List.mem_append, List.mem_cons] at hy ⊢; tauto
  have er1 : ERep m1.heap l' (as ++ bs) :=
    ⟨il', fun y hy => by show h'.data _ = _; rw [hd]; exact er.data y (inab y hy),
      fun y hy => by show h'.index _ = _; rw [frh.index]; exact er.index y (inab y hy)⟩
  have ndL := nd.1
  rw [hab] at ndL
  simp only [List.map_append, List.map_cons, List.nodup_append, List.nodup_cons, List.mem_cons] at ndL
  have fas : ∀ f ∈ as, f.node ≠ e.node := fun f hf => ndL.2.2 f.node (List.mem_map_of_mem hf) e.node (Or.inl rfl)
  have fbs : ∀ f ∈ bs, f.node ≠ e.node := fun f hf h => ndL.2.1.1 (h ▸ List.mem_map_of_mem hf)
  have fk : ∀ f ∈ kidsElems c.treeMax ch, f.node ≠ e.node := fun f hf h =>
    disj f hf (h ▸ List.mem_map_of_mem he)
  have filt : ((IT.node L ch).elems c.treeMax).filter (fun f => f.node ≠ e.node) = as ++ bs ++ kidsElems c.treeMax ch := by
    rw [elems_node, hab]
    simp only [List.filter_append, List.filter_cons]
    have g : ∀ X : List Elem, (∀ f ∈ X, f.node ≠ e.node) → X.filter (fun f => decide (f.node ≠ e.node)) = X := by
      intro X hX; rw [List.filter_eq_self]; intro f hf; simpa using hX f hf
    rw [g as fas, g bs fbs, g _ fk]; simp
  have frN : ∀ q, q ∈ L.map Elem.node → ∃ f ∈ (IT.node L ch).elems c.treeMax, f.hash = e.hash ∧ f.node = q := by
    intro q hq
    obtain ⟨f, hf, rfl⟩ := List.mem_map.1 hq
    exact ⟨f, by rw [elems_node]; simp [hf], by rw [hh f hf, hh e he], rfl⟩
  have inB : ∀ q, (q ∈ L.map Elem.node ∨ q ∈ (kidsElems c.treeMax ch).map Elem.node) →
      q ∈ ((IT.node L ch).elems c.treeMax).map Elem.node := by
    intro q hq; rw [elems_node, List.map_append, List.mem_append]; exact hq
  have get1 : cellGet l m1 = some (l', m1) := by rw [cellGet_run (by exact hloc), c1]
  have unf : ∀ p, inpUnlink c l p e.node m = (if l' = p then some (e.node, m1)
      else if l' ≠ 0 then (copyCells l' e.node 0 c.treeMax m1).bind (fun r => some (e.node, r.2))
      else (inpLeaf c none e.node c.treeMax m1).bind fun r => inpReplace c l e.node r.1 r.2) := by
    intro p
    simp only [inpUnlink, run_bind, run1, Option.bind_some]
    rw [show setCell { m with heap := h' } l l' = m1 from rfl, get1]
    simp only [Option.bind_some, run_ite, run_bind, run_pure]
  rw [unf]
  cases as with
  | cons a as =>
    -- not the head
    have hpa : m.cell l.base l.idx = a.node := by
      rw [er.list.head, hab]; rfl
    have hla : l' = a.node := il'.head
    rw [if_pos (hla.trans hpa.symm)]
    refine ⟨m1, .node ((a :: as) ++ bs) ch, rfl, ?_, ?_, ?_, rfl⟩
    · rw [c1]
      refine ⟨by simp, er1, fun y hy => sz y (inab y hy), ⟨k, hk, fun y hy => hh y (inab y hy), hkne⟩, ?_⟩
      have : Kids c m1 ch n pre l' := by rw [hla, ← hpa]; exact kids1
      exact this
    · intro k'; rw [filt, elems_node]
    · exact (f1 _).mono frN (fun _ h => h)
  | nil =>
    have hpe : m.cell l.base l.idx = e.node := by
      rw [er.list.head, hab]; rfl
    cases bs with
    | cons b bs =>
      -- the head, with a substitute
      have hlb : l' = b.node := il'.head
      have hbe : b.node ≠ e.node := fbs b (by simp)
      have bL : b ∈ L := inab b (by simp)
      have bok := er.ok bL
      have b0 : l' ≠ 0 := by rw [hlb]; exact bok.1
      have bl : b.node ≠ l.base := fun h => hb (Or.inl (h ▸ List.mem_map_of_mem bL))
      rw [if_neg (by rw [hlb, hpe]; exact hbe), if_pos b0]
      rw [hlb, copied_run hbe.symm (by exact sz b bL) (by exact sz e he)]
      refine ⟨copied c m1 b.node e.node, .node (b :: bs) ch, rfl, ?_, ?_, ?_, rfl⟩
      · rw [copied_other _ (fun h => bl h.symm), c1]
        refine ⟨by simp, er1, fun y hy => sz y (inab y hy), ⟨k, hk, fun y hy => hh y (inab y hy), hkne⟩, ?_⟩
        refine Kids.congr (m' := copied c m1 b.node e.node) (p' := l') kids1 (fun i hi => ?_) fun y hy => ⟨HashSpec.SameNode.refl _ _, rfl, fun i _ => ?_⟩
        · rw [hlb, copied_at _ _ _ hi, hpe]
        · exact copied_other i fun h => disj y hy (h ▸ List.mem_map_of_mem bL)
      · intro k'; rw [filt, elems_node]; rfl
      · refine ((f1 _).mono frN (fun _ h => h)).trans ⟨fun q _ => HashSpec.SameNode.refl _ q, rfl, fun _ => rfl,
          fun _ => rfl, fun d i hd _ => copied_other i fun h => hd (inB _ (Or.inl (h ▸ List.mem_map_of_mem bL))), fun _ _ => rfl⟩
    | nil =>
      -- the only element
      have hl0 : l' = 0 := il'.head
      have eok := er.ok he
      rw [if_neg (by rw [hl0, hpe]; exact fun h => eok.1 h.symm), if_neg (by simpa using hl0)]
      have sz1 : m1.csize e.node = c.treeMax := sz e he
      rw [hpe] at kids1 pk plb
      rcases leaf_scan (c := c) none sz1 c.treeMax (by omega) with ⟨run, hz⟩ | ⟨i, hi, h0, run⟩
      · -- without children
        have hk0 := kids_nil_of_zero kids1 hz
        refine ⟨m1, .nil, ?_, ?_, ?_, ?_, rfl⟩
        · rw [run]; rfl
        · rw [c1]; exact hl0
        · intro k'; rw [filt, hk0]; rfl
        · exact (f1 _).mono frN (fun _ h => h)
      · -- a leaf takes the place
        obtain ⟨l2, q, L2, k2, t1, run2, h1, h2, h3, h4, h5, h6, h7, h8, h9, h10⟩ :=
          leaf_kid hc kids1 sz1 nd.2.1 pk hi h0 (leaf_run hc _)
        obtain ⟨e2, M2, hL2⟩ := List.exists_cons_of_ne_nil h3
        have e2L : e2 ∈ L2 := by rw [hL2]; simp
        have q2 : q = e2.node := by rw [h4.list.head, hL2]; rfl
        have e2k := h5 e2 e2L
        have qe : e.node ≠ q := by rw [q2]; exact (fk e2 e2k).symm
        have ql : q ≠ l.base := by rw [q2]; exact klb e2 e2k
        have szk : ∀ y ∈ kidsElems c.treeMax ch, m1.csize y.node = c.treeMax := by
          intro y hy
          obtain ⟨j, hj, hy⟩ := mem_kids.1 hy
          exact ((kids1 j hj).2.ok y hy).2.2.2
        let m2 := setCell m1 l2 0
        let m3 := copied c m2 q e.node
        let m4 := setCell m3 l q
        have lb : l.base ≠ l2.base := by
          intro h
          rcases h2 with h2 | h2
          · exact plb (h2.symm.trans h.symm)
          · obtain ⟨y, hy, hy'⟩ := List.mem_map.1 h2
            exact klb y hy (hy'.trans h.symm)
        refine ⟨m4, .node L2 (upd ch i t1), ?_, ?_, ?_, ?_, rfl⟩
        · rw [run, run2]
          simp only [Option.bind_some, inpReplace, run_bind]
          rw [setCell_run 0 h1]
          simp only [Option.bind_some]
          rw [show setCell m1 l2 0 = m2 from rfl, copied_run (c := c) qe (by rw [q2]; exact szk e2 e2k) (by exact sz1)]
          simp only [Option.bind_some]
          rw [setCell_run q (by exact hloc)]
          rfl
        · rw [show m4.cell l.base l.idx = q from setCell_at _ _ _]
          refine ⟨h3, h4, fun y hy => szk y (h5 y hy), ⟨k2, h7, h6, fun y hy => (h10 y hy).2⟩, ?_⟩
          refine Kids.congr (m' := m4) (p' := q) h8 (fun j hj => ?_) fun y hy => ⟨HashSpec.SameNode.refl _ _, rfl, fun j _ => ?_⟩
          · rw [show m4.cell q j = m3.cell q j from setCell_base j ql]
            exact copied_at m2 q e.node hj
          · have hy1 := h10 y hy
            rw [show m4.cell y.node j = m3.cell y.node j from setCell_base j (klb y hy1.1)]
            refine copied_other (m := m2) j fun h => hy1.2 ?_
            have : y = e2 := List.inj_on_of_nodup_map nd.2.1 hy1.1 e2k (h.trans q2)
            rw [this]; exact h6 e2 e2L
        · intro k'
          rw [filt, elems_node, List.nil_append, List.nil_append, List.filter_append, h9]
          by_cases h : k' = k2
          · rw [if_pos h, h, filter_eq_of_key h6, filter_nil_of_key (fun y hy => (h10 y hy).2), List.append_nil]
          · rw [if_neg h, filter_nil_of_key' h6 (fun e => h e.symm), List.nil_append]
        · refine ((f1 _).mono frN (fun _ h => h)).trans ⟨fun q _ => HashSpec.SameNode.refl _ q, rfl, fun _ => rfl,
            fun _ => rfl, fun d j hd hdl => ?_, fun _ _ => rfl⟩
          rw [show m4.cell d j = m3.cell d j from setCell_other hdl]
          rw [show m3.cell d j = m2.cell d j from
            copied_other j fun h => hd (inB _ (Or.inr (by rw [h, q2]; exact List.mem_map_of_mem e2k)))]
          refine setCell_base j fun h => hd (inB _ ?_)
          rcases h2 with h2 | h2
          · left; rw [h, h2]; exact List.mem_map_of_mem he
          · right; rw [h]; exact h2

theorem remove_run (hc : TrieSpec.CfgOk c) {e : Elem} {rm : Ptr} : ∀ (t : IT) (n : Nat) (m : TMem) (l : Loc) (pre s : Nat),
    IRep c m t n pre (m.cell l.base l.idx) → RemPre c m l n pre s t e.hash → Picks c t rm e.hash e →
    ∃ m' t', inpBucketRemove c s l rm e.hash m = some (e.node, m') ∧ RemRes c m m' l n pre t t' e := by
  intro t
  induction t with
  | nil => intro n m l pre s hr hp pk; exact absurd pk.1 (by simp [elems_nil])
  | node L ch ih =>
    intro n m l pre s hr hp hpk
    obtain ⟨pok, psz, e0, M, hL, pe⟩ := hr.head
    obtain ⟨ne, er, sz, ⟨k, hk, hh, hkne⟩, kids⟩ := id hr
    have kids : Kids c m ch n pre (m.cell l.base l.idx) := kids
    have hidx : m.heap.index (m.cell l.base l.idx) = k := by
      rw [pe, er.index e0 (by simp [hL])]; exact hh e0 (by simp [hL])
    have nd := hp.nodup
    have hbase := hp.base
    rw [elems_node, List.map_append, List.nodup_append] at nd
    rw [elems_node, List.map_append, List.mem_append] at hbase
    have disj : ∀ e ∈ kidsElems c.treeMax ch, e.node ∉ L.map Elem.node := fun e he h =>
      nd.2.2 _ h _ (List.mem_map_of_mem he) rfl
    obtain ⟨hin, _, hsel⟩ := hpk
    have hnode := (hr.ok e hin).1
    by_cases hkx : k = e.hash
    · -- the same key
      have hf : ((IT.node L ch).elems c.treeMax).filter (fun f => f.hash = e.hash) = L := by
        rw [elems_node, List.filter_append, ← hkx, filter_eq_of_key hh, filter_nil_of_key hkne, List.append_nil]
      have heL : e ∈ L := by
        rw [elems_node, List.mem_append] at hin
        rcases hin with h | h
        · exact h
        · exact absurd hkx.symm (hkne e h)
      obtain ⟨m', t', run, R⟩ := unlink_run hc hr hp.nodup hp.base hp.loc heL
      refine ⟨m', t', ?_, R⟩
      simp only [inpBucketRemove, run_bind, desc_hit s hp.loc rfl pok (hidx.trans hkx), Option.bind_some, run_ite]
      rw [if_neg pok.1]
      have : (if rm = 0 then m.cell l.base l.idx else rm) = e.node := by
        rcases hsel with h | ⟨h, h'⟩
        · rw [h, if_neg hnode.1]
        · rw [if_pos h, pe]
          rw [hf, hL] at h'
          simp at h'
          rw [h']
      rw [this]; exact run
    · -- another key: one level down
      cases n with
      | zero =>
        have := hp.pre
        simp at hk this
        exact absurd (hk.trans this.symm) hkx
      | succ n =>
        have hs : s = c.treeBit * n := hp.shift n rfl
        have hsm : c.treeBit * n < sizeBit := by
          have := hp.small; have := hc.bit_pos; rw [Nat.mul_add] at *; omega
        have dl := dig_lt hc n e.hash
        have sub : ∀ y ∈ (ch (dig c n e.hash)).elems c.treeMax, y ∈ kidsElems c.treeMax ch := fun y hy =>
          mem_kids.2 ⟨_, dl, hy⟩
        have subn : ∀ q ∈ ((ch (dig c n e.hash)).elems c.treeMax).map Elem.node, q ∈ (kidsElems c.treeMax ch).map Elem.node := by
          intro q hq
          obtain ⟨y, hy, rfl⟩ := List.mem_map.1 hq
          exact List.mem_map_of_mem (sub y hy)
        have pL : m.cell l.base l.idx ∈ L.map Elem.node := by rw [pe, hL]; simp
        have pk : m.cell l.base l.idx ∉ (kidsElems c.treeMax ch).map Elem.node := fun h =>
          nd.2.2 _ pL _ h rfl
        have hfk : ∀ k', ((IT.node L ch).elems c.treeMax).filter (fun f => f.hash = k') =
            L.filter (fun f => f.hash = k') ++ ((ch (dig c n k')).elems c.treeMax).filter (fun f => f.hash = k') := by
          intro k'; rw [elems_node, List.filter_append, kids.filter hc]
        have hfe : ((IT.node L ch).elems c.treeMax).filter (fun f => f.hash = e.hash) =
            ((ch (dig c n e.hash)).elems c.treeMax).filter (fun f => f.hash = e.hash) := by
          rw [hfk, filter_nil_of_key' hh hkx, List.nil_append]
        have ip : RemPre c m ⟨m.cell l.base l.idx, dig c n e.hash⟩ n (pre * c.treeMax + dig c n e.hash)
            (sub32 s c.treeBit) (ch (dig c n e.hash)) e.hash := by
          refine ⟨flatMap_nodup (kids_nodup nd.2.1) dl, fun h => pk (subn _ h), by simp only; rw [psz]; exact dl, ?_, ?_, ?_⟩
          · rw [shift_succ hc, hp.pre]
          · rintro n' rfl
            rw [hs]; exact sub32_eq hc hsm
          · have := hp.small; rw [Nat.mul_add] at this; omega
        have ipk : Picks c (ch (dig c n e.hash)) rm e.hash e := by
          refine ⟨?_, rfl, by rw [← hfe]; exact hsel⟩
          have : e ∈ ((IT.node L ch).elems c.treeMax).filter (fun f => f.hash = e.hash) :=
            List.mem_filter.2 ⟨hin, by simp⟩
          rw [hfe] at this
          exact (List.mem_filter.1 this).1
        obtain ⟨m', t', run, R⟩ := ih _ n m ⟨m.cell l.base l.idx, dig c n e.hash⟩ _ _ (kids _ dl).2 ip ipk
        have hpl : m'.cell l.base l.idx = m.cell l.base l.idx := by
          refine R.fr.cell _ _ (fun h => hbase (Or.inr (subn _ h))) ?_
          rintro ⟨h, _⟩
          exact hbase (Or.inl (by rw [h]; exact pL))
        have perm := perm_of_filter R.elems
        have kids' := kids.upd dl R.fr R.size nd.2.1 pk
          (by rintro q ⟨y, hy, _, rfl⟩; exact Or.inl (List.mem_map_of_mem hy))
          (fun q h => h) R.rep
        have eK : e ∈ kidsElems c.treeMax ch := sub e ipk.1
        refine ⟨m', .node L (upd ch (dig c n e.hash) t'), ?_, ?_, ?_, ?_, R.size⟩
        · rw [← run]
          simp only [inpBucketRemove, run_bind]
          rw [hs, desc_step hc hp.loc rfl pok (by rw [hidx]; exact hkx) hsm]
        · rw [hpl]
          refine ⟨ne, er.same fun y hy => R.fr.node _ ?_, fun y hy => by rw [R.size]; exact sz y hy,
            ⟨k, hk, hh, fun y hy => ?_⟩, kids'⟩
          · rintro ⟨z, hz, _, h⟩
            exact disj z (sub z hz) (h ▸ List.mem_map_of_mem hy)
          · rcases mem_kids_upd hy with h | h
            · exact hkne y (sub y (List.mem_filter.1 (perm.mem_iff.1 h)).1)
            · exact hkne y h
        · intro k'
          have sw : ∀ X : List Elem, (X.filter (fun f => f.node ≠ e.node)).filter (fun f => f.hash = k') =
              (X.filter (fun f => f.hash = k')).filter (fun f => f.node ≠ e.node) := by
            intro X; rw [List.filter_filter, List.filter_filter]; congr 1; funext f; exact Bool.and_comm _ _
          rw [sw, hfk, List.filter_append, elems_node, List.filter_append, kids'.filter hc]
          have h1 : (L.filter (fun f => f.hash = k')).filter (fun f => f.node ≠ e.node) = L.filter (fun f => f.hash = k') := by
            rw [List.filter_eq_self]
            intro f hf
            have hf := (List.mem_filter.1 hf).1
            have : f.node ≠ e.node := fun h => disj e eK (h ▸ List.mem_map_of_mem hf)
            simpa using this
          rw [h1]
          congr 1
          by_cases hd : dig c n k' = dig c n e.hash
          · rw [hd, upd_same, R.elems k', sw]
          · rw [upd_ne hd, eq_comm, List.filter_eq_self]
            intro f hf
            have hf := List.mem_filter.1 hf
            have hfk : f.hash = k' := by simpa using hf.2
            have : f.node ≠ e.node := by
              intro h
              have hfK : f ∈ kidsElems c.treeMax ch := mem_kids.2 ⟨_, dig_lt hc n k', hf.1⟩
              have : f = e := List.inj_on_of_nodup_map nd.2.1 hfK eK h
              exact hd (by rw [← hfk, this])
            simpa using this
        · refine (R.fr.mono ?_ ?_).inner ?_
          · rintro q ⟨y, hy, h1, h2⟩
            exact ⟨y, by rw [elems_node]; simp [sub y hy], h1, h2⟩
          · intro q h; rw [elems_node, List.map_append, List.mem_append]; exact Or.inr (subn q h)
          · rw [elems_node, List.map_append, List.mem_append]; exact Or.inl pL

theorem remove_none_run (hc : TrieSpec.CfgOk c) {key : Nat} {rm : Ptr} : ∀ (t : IT) (n : Nat) (m : TMem) (l : Loc) (pre s : Nat),
    IRep c m t n pre (m.cell l.base l.idx) → RemPre c m l n pre s t key →
    (t.elems c.treeMax).filter (fun f => f.hash = key) = [] →
    inpBucketRemove c s l rm key m = some (0, m) := by
  intro t
  induction t with
  | nil =>
    intro n m l pre s hr hp _
    have h0 : m.cell l.base l.idx = 0 := hr
    simp only [inpBucketRemove, run_bind, desc_zero s key hp.loc h0, Option.bind_some, run_ite, if_true, run_pure]
  | node L ch ih =>
    intro n m l pre s hr hp hf
    obtain ⟨pok, psz, e0, M, hL, pe⟩ := hr.head
    obtain ⟨ne, er, sz, ⟨k, hk, hh, hkne⟩, kids⟩ := id hr
    have kids : Kids c m ch n pre (m.cell l.base l.idx) := kids
    have hidx : m.heap.index (m.cell l.base l.idx) = k := by
      rw [pe, er.index e0 (by simp [hL])]; exact hh e0 (by simp [hL])
    have nd := hp.nodup
    rw [elems_node, List.map_append, List.nodup_append] at nd
    rw [elems_node, List.filter_append, List.append_eq_nil_iff] at hf
    have hkx : k ≠ key := by
      rintro rfl
      rw [filter_eq_of_key hh] at hf
      exact ne hf.1
    cases n with
    | zero =>
      have := hp.pre
      simp at hk this
      exact absurd (hk.trans this.symm) hkx
    | succ n =>
      have hs : s = c.treeBit * n := hp.shift n rfl
      have hsm : c.treeBit * n < sizeBit := by
        have := hp.small; have := hc.bit_pos; rw [Nat.mul_add] at *; omega
      have dl := dig_lt hc n key
      have subn : ∀ q ∈ ((ch (dig c n key)).elems c.treeMax).map Elem.node, q ∈ (kidsElems c.treeMax ch).map Elem.node := by
        intro q hq
        obtain ⟨y, hy, rfl⟩ := List.mem_map.1 hq
        exact List.mem_map_of_mem (mem_kids.2 ⟨_, dl, hy⟩)
      have pL : m.cell l.base l.idx ∈ L.map Elem.node := by rw [pe, hL]; simp
      have pk : m.cell l.base l.idx ∉ (kidsElems c.treeMax ch).map Elem.node := fun h =>
        nd.2.2 _ pL _ h rfl
      have ip : RemPre c m ⟨m.cell l.base l.idx, dig c n key⟩ n (pre * c.treeMax + dig c n key)
          (sub32 s c.treeBit) (ch (dig c n key)) key := by
        refine ⟨flatMap_nodup (kids_nodup nd.2.1) dl, fun h => pk (subn _ h), by simp only; rw [psz]; exact dl, ?_, ?_, ?_⟩
        · rw [shift_succ hc, hp.pre]
        · rintro n' rfl
          rw [hs]; exact sub32_eq hc hsm
        · have := hp.small; rw [Nat.mul_add] at this; omega
      rw [← ih _ n m ⟨m.cell l.base l.idx, dig c n key⟩ _ _ (kids _ dl).2 ip (by rw [← kids.filter hc]; exact hf.2)]
      simp only [inpBucketRemove, run_bind]
      rw [hs, desc_step hc hp.loc rfl pok (by rw [hidx]; exact hkx) hsm]

end InpSpec
end Tommy
