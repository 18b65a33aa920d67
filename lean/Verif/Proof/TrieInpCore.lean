import Verif.Proof.Arch
import Verif.Proof.TrieOps
import Verif.Spec.TrieInp
/-! The shape of an in-place trie in the memory, search and insertion. -/
set_option linter.unusedSimpArgs false
set_option linter.unusedVariables false
namespace Tommy

variable [Arch]
namespace InpSpec
open HashSpec (Elem ERep SameNode)
open TrieSpec (dig dig_lt shift_succ shift_div slot_run sub32_eq)

/-- What is in a cell: nothing, or a list of elements with the same key whose head has children. -/
inductive IT
  | nil
  | node (L : List Elem) (ch : Nat → IT)

def IT.elems (M : Nat) : IT → List Elem
  | .nil => []
  | .node L ch => L ++ (List.range M).flatMap fun i => (ch i).elems M

/-- The elements of the children. -/
def kidsElems (M : Nat) (ch : Nat → IT) : List Elem := (List.range M).flatMap fun i => (ch i).elems M

/-- The pointer `p` is the root of the trie `t` with at most `n` levels below, where all the keys have the
    high digits `pre`. -/
def IRep (c : TrieCfg) (m : TMem) : IT → Nat → Nat → Ptr → Prop
  | .nil, _, _, p => p = 0
  | .node L ch, n, pre, p => L ≠ [] ∧ ERep m.heap p L ∧ (∀ e ∈ L, m.csize e.node = c.treeMax) ∧
      (∃ k, k >>> (c.treeBit * n) = pre ∧ (∀ e ∈ L, e.hash = k) ∧ ∀ e ∈ kidsElems c.treeMax ch, e.hash ≠ k) ∧
      ∀ i, i < c.treeMax → (n = 0 → ch i = .nil) ∧ IRep c m (ch i) (n - 1) (pre * c.treeMax + i) (m.cell p i)

/-- The node `p` has the children `ch`. -/
def Kids (c : TrieCfg) (m : TMem) (ch : Nat → IT) (n pre : Nat) (p : Ptr) : Prop :=
  ∀ i, i < c.treeMax → (n = 0 → ch i = .nil) ∧ IRep c m (ch i) (n - 1) (pre * c.treeMax + i) (m.cell p i)

variable {c : TrieCfg}

theorem CfgOk.trie (hc : CfgOk c) : TrieSpec.CfgOk c := by
  obtain ⟨t, h1, h2, h⟩ := hc.pow
  refine ⟨⟨t, h1, by omega, h⟩, Nat.le_trans ?_ hc.low, hc.high⟩
  exact Nat.le_self_pow (by decide) _

omit [Arch] in
theorem elems_nil (M : Nat) : IT.elems M .nil = [] := rfl
omit [Arch] in
theorem elems_node (M : Nat) (L : List Elem) (ch : Nat → IT) :
    (IT.node L ch).elems M = L ++ kidsElems M ch := rfl

omit [Arch] in
theorem mem_kids {M : Nat} {ch : Nat → IT} {e : Elem} :
    e ∈ kidsElems M ch ↔ ∃ i, i < M ∧ e ∈ (ch i).elems M := by
  unfold kidsElems
  rw [List.mem_flatMap]
  simp only [List.mem_range]

omit [Arch] in
theorem kidsElems_zero {m : TMem} {ch : Nat → IT} {pre : Nat} {p : Ptr} (h : Kids c m ch 0 pre p) :
    kidsElems c.treeMax ch = [] := by
  unfold kidsElems
  rw [List.flatMap_eq_nil_iff]
  intro i hi
  rw [(h i (List.mem_range.1 hi)).1 rfl, elems_nil]

theorem IRep.pre (hc : TrieSpec.CfgOk c) {m : TMem} : ∀ {t : IT} {n pre : Nat} {p : Ptr}, IRep c m t n pre p →
    ∀ e ∈ t.elems c.treeMax, e.hash >>> (c.treeBit * n) = pre := by
  intro t
  induction t with
  | nil => intro n pre p _ e he; simp [IT.elems] at he
  | node L ch ih =>
    intro n pre p h e he
    obtain ⟨_, _, _, ⟨k, hk, hh, _⟩, h⟩ := h
    rw [elems_node, List.mem_append] at he
    rcases he with he | he
    · rw [hh e he, hk]
    · cases n with
      | zero => rw [kidsElems_zero (p := p) (m := m) (pre := pre) h] at he; simp at he
      | succ n =>
        obtain ⟨i, hi, he⟩ := mem_kids.1 he
        exact (shift_div hc hi (ih i (h i hi).2 e he)).1

omit [Arch] in
theorem IRep.ok {m : TMem} : ∀ {t : IT} {n pre : Nat} {p : Ptr}, IRep c m t n pre p →
    ∀ e ∈ t.elems c.treeMax, m.heap.ok e.node ∧ m.heap.data e.node = e.data ∧
      m.heap.index e.node = e.hash ∧ m.csize e.node = c.treeMax := by
  intro t
  induction t with
  | nil => intro n pre p _ e he; simp [IT.elems] at he
  | node L ch ih =>
    intro n pre p h e he
    obtain ⟨_, er, sz, _, h⟩ := h
    rw [elems_node, List.mem_append] at he
    rcases he with he | he
    · exact ⟨er.ok he, er.data e he, er.index e he, sz e he⟩
    · obtain ⟨i, hi, he⟩ := mem_kids.1 he
      exact ih i (h i hi).2 e he

omit [Arch] in
theorem IRep.congr {m m' : TMem} : ∀ {t : IT} {n pre : Nat} {p : Ptr}, IRep c m t n pre p →
    (∀ e ∈ t.elems c.treeMax, SameNode m.heap m'.heap e.node ∧ m'.csize e.node = m.csize e.node ∧
      ∀ i, i < c.treeMax → m'.cell e.node i = m.cell e.node i) →
    IRep c m' t n pre p := by
  intro t
  induction t with
  | nil => intro n pre p h _; exact h
  | node L ch ih =>
    intro n pre p h hs
    obtain ⟨ne, er, sz, hk, h⟩ := h
    have hp : ∃ e ∈ L, p = e.node := by
      cases L with
      | nil => exact absurd rfl ne
      | cons e M => exact ⟨e, by simp, er.list.head⟩
    have inL : ∀ e ∈ L, e ∈ (IT.node L ch).elems c.treeMax := fun e he => by rw [elems_node]; simp [he]
    refine ⟨ne, er.same fun e he => (hs e (inL e he)).1, fun e he => (hs e (inL e he)).2.1.trans (sz e he), hk,
      fun i hi => ⟨(h i hi).1, ?_⟩⟩
    obtain ⟨e, he, rfl⟩ := hp
    rw [(hs e (inL e he)).2.2 i hi]
    exact ih i (h i hi).2 fun f hf => hs f (by
      rw [elems_node, List.mem_append]; exact Or.inr (mem_kids.2 ⟨i, hi, hf⟩))

omit [Arch] in
theorem IRep.zero {m : TMem} {t : IT} {n pre : Nat} (h : IRep c m t n pre 0) : t = .nil := by
  cases t with
  | nil => rfl
  | node L ch => exact absurd (by simpa using h.2.1.list.eq_nil) h.1

omit [Arch] in
/-- The head of a node. -/
theorem IRep.head {m : TMem} {L : List Elem} {ch : Nat → IT} {n pre : Nat} {p : Ptr}
    (h : IRep c m (.node L ch) n pre p) :
    m.heap.ok p ∧ m.csize p = c.treeMax ∧ ∃ e M, L = e :: M ∧ p = e.node := by
  cases L with
  | nil => exact absurd rfl h.1
  | cons e M =>
    have hp : p = e.node := h.2.1.list.head
    have ok := h.2.1.ok (e := e) (by simp)
    have sz := h.2.2.1 e (by simp)
    subst hp
    exact ⟨ok, sz, e, M, rfl, rfl⟩

theorem Kids.dig (hc : TrieSpec.CfgOk c) {m : TMem} {ch : Nat → IT} {p : Ptr} {n pre : Nat}
    (h : Kids c m ch (n + 1) pre p) :
    ∀ i, i < c.treeMax → ∀ e ∈ (ch i).elems c.treeMax, TrieSpec.dig c n e.hash = i :=
  fun i hi e he => (shift_div hc hi ((h i hi).2.pre hc e he)).2

theorem Kids.filter (hc : TrieSpec.CfgOk c) {m : TMem} {ch : Nat → IT} {p : Ptr} {n pre : Nat}
    (h : Kids c m ch (n + 1) pre p) (k : Nat) :
    (kidsElems c.treeMax ch).filter (fun e => e.hash = k) =
      ((ch (TrieSpec.dig c n k)).elems c.treeMax).filter (fun e => e.hash = k) := by
  refine filter_flatMap_one _ _ (dig_lt hc n k) fun j hj hne => ?_
  rw [List.filter_eq_nil_iff]
  intro e he hk
  simp only [decide_eq_true_eq] at hk
  exact hne (by rw [← h.dig hc j hj e he, hk])

omit [Arch] in
theorem Kids.congr {m m' : TMem} {ch : Nat → IT} {n pre : Nat} {p p' : Ptr} (h : Kids c m ch n pre p)
    (hp : ∀ i, i < c.treeMax → m'.cell p' i = m.cell p i)
    (hs : ∀ e ∈ kidsElems c.treeMax ch, SameNode m.heap m'.heap e.node ∧ m'.csize e.node = m.csize e.node ∧
      ∀ i, i < c.treeMax → m'.cell e.node i = m.cell e.node i) : Kids c m' ch n pre p' := by
  intro i hi
  refine ⟨(h i hi).1, ?_⟩
  rw [hp i hi]
  exact (h i hi).2.congr fun e he => hs e (mem_kids.2 ⟨i, hi, he⟩)

omit [Arch] in
theorem kids_nodup {M : Nat} {ch : Nat → IT} (h : ((kidsElems M ch).map Elem.node).Nodup) :
    ((List.range M).flatMap fun i => ((ch i).elems M).map Elem.node).Nodup := by
  rw [← List.map_flatMap]; exact h

omit [Arch] in
/-- The children when the child `i` changes. -/
theorem Kids.upd {m m' : TMem} {ch : Nat → IT} {n pre : Nat} {p : Ptr} (h : Kids c m ch (n + 1) pre p)
    {i : Nat} (hi : i < c.treeMax) {N B : Ptr → Prop} (fr : TFr m m' N B ⟨p, i⟩) (sz : m'.csize = m.csize)
    (nd : ((kidsElems c.treeMax ch).map Elem.node).Nodup) (hp : p ∉ (kidsElems c.treeMax ch).map Elem.node)
    (hN : ∀ q, N q → q ∈ ((ch i).elems c.treeMax).map Elem.node ∨ q ∉ (kidsElems c.treeMax ch).map Elem.node)
    (hB : ∀ q, B q → q ∈ ((ch i).elems c.treeMax).map Elem.node)
    {t : IT} (ht : IRep c m' t n (pre * c.treeMax + i) (m'.cell p i)) :
    Kids c m' (Tommy.upd ch i t) (n + 1) pre p := by
  have sub : ∀ j, j < c.treeMax → ∀ q ∈ ((ch j).elems c.treeMax).map Elem.node, q ∈ (kidsElems c.treeMax ch).map Elem.node := by
    intro j hj q hq
    obtain ⟨e, he, rfl⟩ := List.mem_map.1 hq
    exact List.mem_map_of_mem (mem_kids.2 ⟨j, hj, he⟩)
  intro j hj
  refine ⟨fun h => absurd h (by omega), ?_⟩
  by_cases hji : j = i
  · subst hji; rw [upd_same]; exact ht
  · rw [upd_ne hji, fr.cell p j (fun hb => hp (sub i hi _ (hB _ hb))) (by simp [hji])]
    have hij : i ≠ j := fun h => hji h.symm
    refine (h j hj).2.congr fun e he => ⟨fr.node _ fun hq => ?_, by rw [sz], fun a _ => fr.cell _ a (fun hb => ?_) ?_⟩
    · rcases hN _ hq with h1 | h1
      · exact flatMap_disj (kids_nodup nd) hi hj hij h1 (List.mem_map_of_mem he)
      · exact h1 (sub j hj _ (List.mem_map_of_mem he))
    · exact flatMap_disj (kids_nodup nd) hi hj hij (hB _ hb) (List.mem_map_of_mem he)
    · rintro ⟨h1, _⟩
      exact hp (sub j hj _ (by rw [← show e.node = p from h1]; exact List.mem_map_of_mem he))

omit [Arch] in
/-- The elements when the child `i` changes. -/
theorem mem_kids_upd {M i : Nat} {ch : Nat → IT} {t : IT} {e : Elem} (he : e ∈ kidsElems M (Tommy.upd ch i t)) :
    e ∈ t.elems M ∨ e ∈ kidsElems M ch := by
  obtain ⟨j, hj, he⟩ := mem_kids.1 he
  rw [upd_apply] at he
  split at he
  · exact Or.inl he
  · exact Or.inr (mem_kids.2 ⟨j, hj, he⟩)

/-! ### The descent -/

theorem desc_zero {m : TMem} {l : Loc} (s key : Nat) (hl : l.idx < m.csize l.base)
    (h0 : m.cell l.base l.idx = 0) : inpDescend c s l key m = some ((l, 0), m) := by
  rw [inpDescend]
  simp only [run_bind, cellGet_run hl, Option.bind_some, h0, run_ite, if_true, run_pure]

theorem desc_hit {m : TMem} {l : Loc} (s : Nat) {key : Nat} {p : Ptr} (hl : l.idx < m.csize l.base)
    (hp : m.cell l.base l.idx = p) (ok : m.heap.ok p) (hk : m.heap.index p = key) :
    inpDescend c s l key m = some ((l, p), m) := by
  rw [inpDescend]
  simp only [run_bind, cellGet_run hl, Option.bind_some, hp, run_ite, ok.1, if_false,
    onN_run (getIndex_run ok), hk, if_true, run_pure]

theorem desc_step (hc : TrieSpec.CfgOk c) {m : TMem} {l : Loc} {n key : Nat} {p : Ptr} (hl : l.idx < m.csize l.base)
    (hp : m.cell l.base l.idx = p) (ok : m.heap.ok p) (hk : m.heap.index p ≠ key) (hs : c.treeBit * n < sizeBit) :
    inpDescend c (c.treeBit * n) l key m =
      inpDescend c (sub32 (c.treeBit * n) c.treeBit) ⟨p, dig c n key⟩ key m := by
  conv => lhs; rw [inpDescend]
  simp only [run_bind, cellGet_run hl, Option.bind_some, hp, run_ite, ok.1, if_false,
    onN_run (getIndex_run ok), hk, slot_run hc _ hs]

/-! ### Insertion -/

/-- What is needed to insert `x` in the cell `l` which contains `t`. -/
structure InsPre (c : TrieCfg) (m : TMem) (l : Loc) (n pre s : Nat) (t : IT) (x : Elem) : Prop where
  ok : m.heap.ok x.node
  data : m.heap.data x.node = x.data
  index : m.heap.index x.node = x.hash
  size : m.csize x.node = c.treeMax
  zero : ∀ i, i < c.treeMax → m.cell x.node i = 0
  fresh : x.node ∉ (t.elems c.treeMax).map Elem.node
  nodup : ((t.elems c.treeMax).map Elem.node).Nodup
  base : l.base ∉ (t.elems c.treeMax).map Elem.node
  basex : l.base ≠ x.node
  loc : l.idx < m.csize l.base
  pre : x.hash >>> (c.treeBit * n) = pre
  shift : ∀ n', n = n' + 1 → s = c.treeBit * n'
  small : c.treeBit * n ≤ sizeBit

/-- The element `x` was added to the trie `t` in the cell `l`. -/
structure InsRes (c : TrieCfg) (m m' : TMem) (l : Loc) (n pre : Nat) (t t' : IT) (x : Elem) : Prop where
  rep : IRep c m' t' n pre (m'.cell l.base l.idx)
  elems : ∀ k, (t'.elems c.treeMax).filter (fun e => e.hash = k) =
    (t.elems c.treeMax ++ [x]).filter (fun e => e.hash = k)
  fr : TFr m m' (fun q => q = x.node ∨ ∃ e ∈ t.elems c.treeMax, e.hash = x.hash ∧ e.node = q)
    (fun b => b ∈ (t.elems c.treeMax).map Elem.node) l
  size : m'.csize = m.csize

omit [Arch] in
theorem filter_eq_of_key {L : List Elem} {k : Nat} (h : ∀ e ∈ L, e.hash = k) : L.filter (fun e => e.hash = k) = L := by
  rw [List.filter_eq_self]; intro e he; simp [h e he]

omit [Arch] in
theorem filter_nil_of_key {L : List Elem} {k : Nat} (h : ∀ e ∈ L, e.hash ≠ k) : L.filter (fun e => e.hash = k) = [] := by
  rw [List.filter_eq_nil_iff]; intro e he; simp [h e he]

omit [Arch] in
theorem filter_nil_of_key' {L : List Elem} {k k' : Nat} (h : ∀ e ∈ L, e.hash = k) (hne : k ≠ k') :
    L.filter (fun e => e.hash = k') = [] :=
  filter_nil_of_key fun e he h' => hne ((h e he).symm.trans h')

theorem insert_run (hc : TrieSpec.CfgOk c) {x : Elem} : ∀ (t : IT) (n : Nat) (m : TMem) (l : Loc) (pre s : Nat),
    IRep c m t n pre (m.cell l.base l.idx) → InsPre c m l n pre s t x →
    ∃ m' t', inpBucketInsert c s l x.node x.hash m = some ((), m') ∧ InsRes c m m' l n pre t t' x := by
  intro t
  induction t with
  | nil =>
    intro n m l pre s hr hp
    have h0 : m.cell l.base l.idx = 0 := hr
    obtain ⟨h', e, il, hd', fr⟩ := listInsertFirst_spec hp.ok
    refine ⟨{ m with heap := h', cell := upd m.cell l.base (upd (m.cell l.base) l.idx x.node) },
      .node [x] (fun _ => .nil), ?_, ?_, ?_, ?_, rfl⟩
    · simp only [inpBucketInsert, run_bind, desc_zero s x.hash hp.loc h0, Option.bind_some, inpLink, run_ite, if_true]
      rw [onN_run (f := inpListInsertFirst x.node) e]
      simp only [Option.bind_some]
      rw [cellSet_run (m := { m with heap := h' }) x.node hp.loc]
    · show IRep c _ _ _ _ (upd m.cell l.base _ l.base l.idx)
      rw [upd_same, upd_same]
      refine ⟨by simp, ⟨by simpa using il, ?_, ?_⟩, by simpa using hp.size, ⟨x.hash, hp.pre, by simp, ?_⟩, ?_⟩
      · simp only [List.mem_singleton]; rintro y rfl; rw [hd']; exact hp.data
      · simp only [List.mem_singleton]; rintro y rfl; rw [fr.index]; exact hp.index
      · intro y hy
        obtain ⟨i, _, hy⟩ := mem_kids.1 hy
        simp [IT.elems] at hy
      · intro i hi
        refine ⟨fun _ => rfl, ?_⟩
        show upd m.cell l.base _ x.node i = 0
        rw [upd_ne hp.basex.symm]; exact hp.zero i hi
    · intro k
      have : kidsElems c.treeMax (fun _ => IT.nil) = [] := by
        unfold kidsElems; rw [List.flatMap_eq_nil_iff]; intro i _; rfl
      rw [elems_node, this, elems_nil]; rfl
    · exact ((TrieSpec.same_of_frame fr hd' l _).mono (fun q h => Or.inl h) (fun _ h => h)).trans
        (TrieSpec.tfr_cell (m := { m with heap := h' }) l x.node)
  | node L ch ih =>
    intro n m l pre s hr hp
    obtain ⟨pok, psz, e0, M, hL, pe⟩ := hr.head
    obtain ⟨ne, er, sz, ⟨k, hk, hh, hkne⟩, kids⟩ := id hr
    have kids : Kids c m ch n pre (m.cell l.base l.idx) := kids
    have hidx : m.heap.index (m.cell l.base l.idx) = k := by
      rw [pe, er.index e0 (by simp [hL])]; exact hh e0 (by simp [hL])
    have nd := hp.nodup
    have fresh := hp.fresh
    have hbase := hp.base
    rw [elems_node, List.map_append, List.nodup_append] at nd
    rw [elems_node, List.map_append, List.mem_append] at fresh hbase
    have disj : ∀ e ∈ kidsElems c.treeMax ch, e.node ∉ L.map Elem.node := fun e he h =>
      nd.2.2 _ h _ (List.mem_map_of_mem he) rfl
    by_cases hkx : k = x.hash
    · -- the same key
      subst hkx
      obtain ⟨h', e, il, hd', fr⟩ := listInsertTailNotEmpty_spec er.list (by simp [hL]) hp.ok (fun h => fresh (Or.inl h))
      refine ⟨{ m with heap := h' }, .node (L ++ [x]) ch, ?_, ?_, ?_, ?_, rfl⟩
      · simp only [inpBucketInsert, run_bind, desc_hit s hp.loc rfl pok hidx, Option.bind_some, inpLink, run_ite]
        rw [if_neg pok.1]
        exact onN_run (f := inpListInsertTailNotEmpty _ x.node) e
      · show IRep c _ _ _ _ (m.cell l.base l.idx)
        refine ⟨by simp, ⟨by simpa using il, ?_, ?_⟩, ?_, ⟨x.hash, hk, ?_, hkne⟩, ?_⟩
        · intro y hy
          show h'.data _ = _
          rw [hd']
          rcases List.mem_append.1 hy with hy | hy
          · exact er.data y hy
          · simp at hy; subst hy; exact hp.data
        · intro y hy
          show h'.index _ = _
          rw [fr.index]
          rcases List.mem_append.1 hy with hy | hy
          · exact er.index y hy
          · simp at hy; subst hy; exact hp.index
        · intro y hy
          rcases List.mem_append.1 hy with hy | hy
          · exact sz y hy
          · simp at hy; subst hy; exact hp.size
        · intro y hy
          rcases List.mem_append.1 hy with hy | hy
          · exact hh y hy
          · simp at hy; subst hy; rfl
        · refine Kids.congr (m' := { m with heap := h' }) kids (fun i _ => rfl) fun y hy => ⟨?_, rfl, fun i _ => rfl⟩
          refine HashSpec.frame_same fr hd' ?_
          rintro (h | h)
          · exact fresh (Or.inr (h ▸ List.mem_map_of_mem hy))
          · exact disj y hy h
      · intro k'
        rw [elems_node, elems_node]
        simp only [List.filter_append]
        by_cases hk' : k' = x.hash
        · subst hk'
          rw [filter_nil_of_key hkne]; simp
        · rw [filter_nil_of_key' (L := [x]) (k := x.hash) (by simp) (fun h => hk' h.symm)]; simp
      · refine (TrieSpec.same_of_frame fr hd' l _).mono ?_ (fun _ h => h)
        rintro q (h | h)
        · exact Or.inl h
        · obtain ⟨y, hy, rfl⟩ := List.mem_map.1 h
          exact Or.inr ⟨y, by rw [elems_node]; simp [hy], hh y hy, rfl⟩
    · -- another key: one level down
      cases n with
      | zero =>
        have := hp.pre
        simp at hk this
        exact absurd (hk.trans this.symm) hkx
      | succ n =>
        have hs : s = c.treeBit * n := hp.shift n rfl
        have hsm : c.treeBit * n < sizeBit := by
          have := hp.small; have := hc.bit_pos; rw [Nat.mul_add] at *; omega
        have dl := dig_lt hc n x.hash
        have sub : ∀ y ∈ (ch (dig c n x.hash)).elems c.treeMax, y ∈ kidsElems c.treeMax ch := fun y hy =>
          mem_kids.2 ⟨_, dl, hy⟩
        have subn : ∀ q ∈ ((ch (dig c n x.hash)).elems c.treeMax).map Elem.node, q ∈ (kidsElems c.treeMax ch).map Elem.node := by
          intro q hq
          obtain ⟨y, hy, rfl⟩ := List.mem_map.1 hq
          exact List.mem_map_of_mem (sub y hy)
        have pL : m.cell l.base l.idx ∈ L.map Elem.node := by rw [pe, hL]; simp
        have pk : m.cell l.base l.idx ∉ (kidsElems c.treeMax ch).map Elem.node := fun h =>
          nd.2.2 _ pL _ h rfl
        have ip : InsPre c m ⟨m.cell l.base l.idx, dig c n x.hash⟩ n (pre * c.treeMax + dig c n x.hash)
            (sub32 s c.treeBit) (ch (dig c n x.hash)) x := by
          refine ⟨hp.ok, hp.data, hp.index, hp.size, hp.zero, fun h => fresh (Or.inr (subn _ h)),
            flatMap_nodup (kids_nodup nd.2.1) dl, fun h => pk (subn _ h), ?_, by simp only; rw [psz]; exact dl, ?_, ?_, ?_⟩
          · intro h; exact fresh (Or.inl (by rw [← show m.cell l.base l.idx = x.node from h]; exact pL))
          · rw [shift_succ hc, hp.pre]
          · rintro n' rfl
            rw [hs]; exact sub32_eq hc hsm
          · have := hp.small; rw [Nat.mul_add] at this; omega
        obtain ⟨m', t', run, R⟩ := ih _ n m ⟨m.cell l.base l.idx, dig c n x.hash⟩ _ _ (kids _ dl).2 ip
        have hpl : m'.cell l.base l.idx = m.cell l.base l.idx := by
          refine R.fr.cell _ _ (fun h => hbase (Or.inr (subn _ h))) ?_
          rintro ⟨h, _⟩
          exact hbase (Or.inl (by rw [h]; exact pL))
        have perm := perm_of_filter R.elems
        have kids' := kids.upd dl R.fr R.size nd.2.1 pk
          (by
            rintro q (rfl | ⟨y, hy, _, rfl⟩)
            · exact Or.inr fun h => fresh (Or.inr h)
            · exact Or.inl (List.mem_map_of_mem hy))
          (fun q h => h) R.rep
        refine ⟨m', .node L (upd ch (dig c n x.hash) t'), ?_, ?_, ?_, ?_, R.size⟩
        · rw [← run]
          simp only [inpBucketInsert, run_bind]
          rw [hs, desc_step hc hp.loc rfl pok (by rw [hidx]; exact hkx) hsm]
        · rw [hpl]
          refine ⟨ne, er.same fun y hy => R.fr.node _ ?_, fun y hy => by rw [R.size]; exact sz y hy,
            ⟨k, hk, hh, fun y hy => ?_⟩, kids'⟩
          · rintro (h | ⟨z, hz, _, h⟩)
            · exact fresh (Or.inl (h ▸ List.mem_map_of_mem hy))
            · exact disj z (sub z hz) (h ▸ List.mem_map_of_mem hy)
          · rcases mem_kids_upd hy with h | h
            · rcases List.mem_append.1 (perm.mem_iff.1 h) with h | h
              · exact hkne y (sub y h)
              · simp at h; subst h; exact fun h => hkx h.symm
            · exact hkne y h
        · intro k'
          rw [elems_node, elems_node]
          simp only [List.filter_append]
          rw [kids'.filter hc, kids.filter hc]
          by_cases hd : dig c n k' = dig c n x.hash
          · rw [hd, upd_same, R.elems k', List.filter_append, List.append_assoc]
          · rw [upd_ne hd, filter_nil_of_key' (L := [x]) (k := x.hash) (by simp) (fun h => hd (by rw [h]))]; simp
        · refine (R.fr.mono ?_ ?_).inner ?_
          · rintro q (h | ⟨y, hy, h1, h2⟩)
            · exact Or.inl h
            · exact Or.inr ⟨y, by rw [elems_node]; simp [sub y hy], h1, h2⟩
          · intro q h; rw [elems_node, List.map_append, List.mem_append]; exact Or.inr (subn q h)
          · rw [elems_node, List.map_append, List.mem_append]; exact Or.inl pL

/-! ### Search -/

theorem bucket_run (hc : TrieSpec.CfgOk c) {m : TMem} (key : Nat) : ∀ (t : IT) (n pre s : Nat) (p : Ptr),
    IRep c m t n pre p → key >>> (c.treeBit * n) = pre → (∀ n', n = n' + 1 → s = c.treeBit * n') →
    c.treeBit * n ≤ sizeBit →
    ∃ q, inpBucketLoop c p s key m = some (q, m) ∧
      ERep m.heap q ((t.elems c.treeMax).filter fun e => e.hash = key) := by
  intro t
  induction t with
  | nil =>
    intro n pre s p hr _ _ _
    have : p = 0 := hr
    subst this
    exact ⟨0, by rw [inpBucketLoop]; simp, by simpa [IT.elems] using ERep.nil _⟩
  | node L ch ih =>
    intro n pre s p hr hpre hsh hsmall
    obtain ⟨pok, psz, e0, M, hL, pe⟩ := hr.head
    obtain ⟨ne, er, sz, ⟨k, hk, hh, hkne⟩, kids⟩ := id hr
    have kids : Kids c m ch n pre p := kids
    have hidx : m.heap.index p = k := by
      rw [pe, er.index e0 (by simp [hL])]; exact hh e0 (by simp [hL])
    rw [elems_node, List.filter_append]
    by_cases hkx : k = key
    · subst hkx
      refine ⟨p, ?_, ?_⟩
      · rw [inpBucketLoop]
        simp only [run_bind, Option.bind_some, run_ite, pok.1, if_false, onN_run (getIndex_run pok), hidx, if_true,
          run_pure]
      · rw [filter_eq_of_key hh, filter_nil_of_key hkne, List.append_nil]; exact er
    · cases n with
      | zero =>
        simp at hk hpre
        exact absurd (hk.trans hpre.symm) hkx
      | succ n =>
        have hs : s = c.treeBit * n := hsh n rfl
        have hsm : c.treeBit * n < sizeBit := by
          have := hc.bit_pos; rw [Nat.mul_add] at *; omega
        have dl := dig_lt hc n key
        obtain ⟨q, run, erq⟩ := ih (dig c n key) n _ (sub32 s c.treeBit) _ (kids _ dl).2
          (by rw [shift_succ hc, hpre]) (by rintro n' rfl; rw [hs]; exact sub32_eq hc hsm)
          (by rw [Nat.mul_add] at hsmall; omega)
        refine ⟨q, ?_, ?_⟩
        · rw [inpBucketLoop]
          simp only [run_bind, Option.bind_some, run_ite, pok.1, if_false, onN_run (getIndex_run pok), hidx, hkx]
          rw [hs, slot_run hc _ hsm]
          simp only [Option.bind_some]
          rw [cellGet_run (by simp only; rw [psz]; exact dl)]
          simp only [Option.bind_some]
          rw [← hs]; exact run
        · rw [filter_nil_of_key' hh hkx, List.nil_append, kids.filter hc]; exact erq

end InpSpec
end Tommy
