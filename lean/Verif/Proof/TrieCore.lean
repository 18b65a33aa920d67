import Verif.Proof.TrieMem
import Mathlib.Data.Nat.Bitwise
/-! The shape of a trie in the memory, and insertion. -/
set_option linter.unusedSimpArgs false
set_option linter.unusedVariables false
namespace Tommy

variable [Arch]
namespace TrieSpec
open HashSpec (Elem ERep SameNode)

/-- What is in a cell: nothing, a list of elements with the same key, a block. -/
inductive TT
  | nil
  | leaf (L : List Elem)
  | node (b : Ptr) (ch : Nat → TT)

namespace TT

def isNode : TT → Prop
  | .node _ _ => True
  | _ => False

def elems (M : Nat) : TT → List Elem
  | .nil => []
  | .leaf L => L
  | .node _ ch => (List.range M).flatMap fun i => (ch i).elems M

def blocks (M : Nat) : TT → List Ptr
  | .nil => []
  | .leaf _ => []
  | .node b ch => b :: (List.range M).flatMap fun i => (ch i).blocks M

end TT

/-- A block has a sub block, or at least two children. -/
def Fat (M : Nat) (ch : Nat → TT) : Prop :=
  (∃ i, i < M ∧ (ch i).isNode) ∨ ∃ i j, i < j ∧ j < M ∧ ch i ≠ .nil ∧ ch j ≠ .nil

/-- The digit of a key at the level `n`. -/
def dig (c : TrieCfg) (n k : Nat) : Nat := (k >>> (c.treeBit * n)) % c.treeMax

/-- The pointer `p` is the root of the trie `t` with at most `n` levels of blocks, where all the keys have
    the high digits `pre`. -/
def TRep (c : TrieCfg) (m : TMem) : TT → Nat → Nat → Ptr → Prop
  | .nil, _, _, p => p = 0
  | .leaf L, n, pre, p => L ≠ [] ∧ ERep m.heap p L ∧ (∀ e ∈ L, e.node % 2 = 0) ∧
      ∃ k, k >>> (c.treeBit * n) = pre ∧ ∀ e ∈ L, e.hash = k
  | .node b ch, n, pre, p => p = b + 1 ∧ b % 2 = 0 ∧ m.csize b = c.treeMax ∧ Fat c.treeMax ch ∧
      ∃ n', n = n' + 1 ∧ ∀ i, i < c.treeMax → TRep c m (ch i) n' (pre * c.treeMax + i) (m.cell b i)

variable {c : TrieCfg}

theorem CfgOk.max (hc : CfgOk c) : c.treeMax = 2 ^ c.treeBit := by
  obtain ⟨t, h1, h2, h⟩ := hc.pow
  have : ∀ t, t ≤ 8 → 1 ≤ t → macroIlog2 (2 ^ t) = t := by decide
  unfold TrieCfg.treeBit
  rw [h, this t h2 h1]

theorem CfgOk.bit_pos (hc : CfgOk c) : 1 ≤ c.treeBit ∧ c.treeBit ≤ 8 := by
  obtain ⟨t, h1, h2, h⟩ := hc.pow
  have : ∀ t, t ≤ 8 → 1 ≤ t → macroIlog2 (2 ^ t) = t := by decide
  unfold TrieCfg.treeBit
  rw [h, this t h2 h1]; exact ⟨h1, h2⟩

theorem CfgOk.max_pos (hc : CfgOk c) : 2 ≤ c.treeMax := by
  rw [hc.max]
  calc 2 = 2 ^ 1 := rfl
    _ ≤ 2 ^ c.treeBit := Nat.pow_le_pow_right (by omega) hc.bit_pos.1

theorem dig_lt (hc : CfgOk c) (n k : Nat) : dig c n k < c.treeMax :=
  Nat.mod_lt _ (by have := hc.max_pos; omega)

/-- The digits of a key one level down. -/
theorem shift_succ (hc : CfgOk c) (n k : Nat) :
    k >>> (c.treeBit * n) = (k >>> (c.treeBit * (n + 1))) * c.treeMax + dig c n k := by
  unfold dig
  have e : k >>> (c.treeBit * (n + 1)) = (k >>> (c.treeBit * n)) / c.treeMax := by
    rw [Nat.mul_add, Nat.mul_one, Nat.shiftRight_add, hc.max, ← Nat.shiftRight_eq_div_pow]
  rw [e]
  have := Nat.div_add_mod (k >>> (c.treeBit * n)) c.treeMax
  rw [Nat.mul_comm] at this
  exact this.symm

theorem shift_div (hc : CfgOk c) {n k pre i : Nat} (hi : i < c.treeMax)
    (h : k >>> (c.treeBit * n) = pre * c.treeMax + i) : k >>> (c.treeBit * (n + 1)) = pre ∧ dig c n k = i := by
  have e : k >>> (c.treeBit * (n + 1)) = (k >>> (c.treeBit * n)) / c.treeMax := by
    rw [Nat.mul_add, Nat.mul_one, Nat.shiftRight_add, hc.max, ← Nat.shiftRight_eq_div_pow]
  have hp : 0 < c.treeMax := by have := hc.max_pos; omega
  refine ⟨?_, ?_⟩
  · rw [e, h, Nat.mul_comm, Nat.mul_add_div hp, Nat.div_eq_of_lt hi, Nat.add_zero]
  · unfold dig
    rw [h, Nat.mul_comm, Nat.mul_add_mod, Nat.mod_eq_of_lt hi]

theorem slot_run (hc : CfgOk c) {n : Nat} (k : Nat) (h : c.treeBit * n < sizeBit) (m : TMem) :
    trieSlot c k (c.treeBit * n) m = some (dig c n k, m) := by
  simp only [trieSlot, run_bind, shrKey_run k h, Option.bind_some, run_pure]
  congr 2
  unfold dig TrieCfg.treeMask
  rw [hc.max]
  exact Nat.and_two_pow_sub_one_eq_mod _ _

theorem sub32_eq (hc : CfgOk c) {n : Nat} (h : c.treeBit * (n + 1) < sizeBit) :
    sub32 (c.treeBit * (n + 1)) c.treeBit = c.treeBit * n := by
  unfold sub32
  have := hc.bit_pos
  rw [Nat.mul_add, Nat.mul_one] at h ⊢
  arch

omit [Arch] in
theorem isTree_iff (p : Ptr) : trieIsTree p ↔ p % 2 = 1 := by
  unfold trieIsTree; rw [Nat.and_one_is_mod]

omit [Arch] in
theorem not_isTree {p : Ptr} (h : p % 2 = 0) : ¬ trieIsTree p := by
  rw [isTree_iff, h]; decide

omit [Arch] in
theorem isTree_succ {b : Nat} (h : b % 2 = 0) : trieIsTree (b + 1) := by
  have : (b + 1) % 2 = 1 := by omega
  exact (isTree_iff _).2 this

/-! ### TRep -/

theorem TRep.pre (hc : CfgOk c) {m : TMem} : ∀ {t : TT} {n pre : Nat} {p : Ptr}, TRep c m t n pre p →
    ∀ e ∈ t.elems c.treeMax, e.hash >>> (c.treeBit * n) = pre := by
  intro t
  induction t with
  | nil => intro n pre p _ e he; simp [TT.elems] at he
  | leaf L =>
    intro n pre p h e he
    obtain ⟨_, _, _, k, hk, hh⟩ := h
    rw [hh e he, hk]
  | node b ch ih =>
    intro n pre p h e he
    obtain ⟨_, _, _, _, n', rfl, h⟩ := h
    obtain ⟨i, hi, he⟩ := List.mem_flatMap.1 he
    have hi := List.mem_range.1 hi
    exact (shift_div hc hi (ih i (h i hi) e he)).1

theorem TRep.dig (hc : CfgOk c) {m : TMem} {ch : Nat → TT} {b : Ptr} {n pre : Nat}
    (h : ∀ i, i < c.treeMax → TRep c m (ch i) n (pre * c.treeMax + i) (m.cell b i)) :
    ∀ i, i < c.treeMax → ∀ e ∈ (ch i).elems c.treeMax, dig c n e.hash = i :=
  fun i hi e he => (shift_div hc hi ((h i hi).pre hc e he)).2

omit [Arch] in
theorem TRep.ok {m : TMem} : ∀ {t : TT} {n pre : Nat} {p : Ptr}, TRep c m t n pre p →
    ∀ e ∈ t.elems c.treeMax, m.heap.ok e.node ∧ m.heap.data e.node = e.data ∧
      m.heap.index e.node = e.hash ∧ e.node % 2 = 0 := by
  intro t
  induction t with
  | nil => intro n pre p _ e he; simp [TT.elems] at he
  | leaf L =>
    intro n pre p h e he
    exact ⟨h.2.1.ok he, h.2.1.data e he, h.2.1.index e he, h.2.2.1 e he⟩
  | node b ch ih =>
    intro n pre p h e he
    obtain ⟨_, _, _, _, n', rfl, h⟩ := h
    obtain ⟨i, hi, he⟩ := List.mem_flatMap.1 he
    exact ih i (h i (List.mem_range.1 hi)) e he

omit [Arch] in
theorem TRep.congr {m m' : TMem} : ∀ {t : TT} {n pre : Nat} {p : Ptr}, TRep c m t n pre p →
    (∀ e ∈ t.elems c.treeMax, SameNode m.heap m'.heap e.node) →
    (∀ b ∈ t.blocks c.treeMax, m'.csize b = m.csize b ∧ ∀ i, i < c.treeMax → m'.cell b i = m.cell b i) →
    TRep c m' t n pre p := by
  intro t
  induction t with
  | nil => intro n pre p h _ _; exact h
  | leaf L => intro n pre p h hs _; exact ⟨h.1, h.2.1.same hs, h.2.2⟩
  | node b ch ih =>
    intro n pre p h hs hb
    obtain ⟨h1, h2, h3, h4, n', rfl, h⟩ := h
    have hb0 := hb b (by simp [TT.blocks])
    refine ⟨h1, h2, hb0.1.trans h3, h4, n', rfl, fun i hi => ?_⟩
    rw [hb0.2 i hi]
    refine ih i (h i hi) (fun e he => hs e ?_) (fun d hd => hb d ?_)
    · exact List.mem_flatMap.2 ⟨i, List.mem_range.2 hi, he⟩
    · exact List.mem_cons_of_mem _ (List.mem_flatMap.2 ⟨i, List.mem_range.2 hi, hd⟩)

omit [Arch] in
theorem TRep.zero {m : TMem} {t : TT} {n pre : Nat} (h : TRep c m t n pre 0) : t = .nil := by
  cases t with
  | nil => rfl
  | leaf L => exact absurd (by simpa using h.2.1.list.eq_nil) h.1
  | node b ch => exact absurd h.1 (by simp)

omit [Arch] in
/-- The pointer of a leaf is an even not null pointer. -/
theorem TRep.leaf_ptr {m : TMem} {L : List Elem} {n pre : Nat} {p : Ptr} (h : TRep c m (.leaf L) n pre p) :
    p ≠ 0 ∧ p % 2 = 0 ∧ m.heap.ok p ∧ ∃ e M, L = e :: M ∧ p = e.node := by
  cases L with
  | nil => exact absurd rfl h.1
  | cons e M =>
    have hp : p = e.node := h.2.1.list.head
    have ok := h.2.1.ok (e := e) (by simp)
    subst hp
    exact ⟨ok.1, h.2.2.1 e (by simp), ok, e, M, rfl, rfl⟩

theorem filter_node (hc : CfgOk c) {ch : Nat → TT} {n : Nat} (b : Ptr)
    (h : ∀ i, i < c.treeMax → ∀ e ∈ (ch i).elems c.treeMax, dig c n e.hash = i) (k : Nat) :
    ((TT.node b ch).elems c.treeMax).filter (fun e => e.hash = k) =
      ((ch (dig c n k)).elems c.treeMax).filter (fun e => e.hash = k) := by
  refine filter_flatMap_one _ _ (dig_lt hc n k) fun j hj hne => ?_
  rw [List.filter_eq_nil_iff]
  intro e he hk
  simp only [decide_eq_true_eq] at hk
  exact hne (by rw [← h j hj e he, hk])

omit [Arch] in
theorem Fat.upd {M : Nat} {ch : Nat → TT} (h : Fat M ch) {i : Nat} {t : TT} (h1 : t ≠ .nil)
    (h2 : (ch i).isNode → t.isNode) : Fat M (upd ch i t) := by
  rcases h with ⟨j, hj, hn⟩ | ⟨j, k, hjk, hk, a, b⟩
  · refine Or.inl ⟨j, hj, ?_⟩
    by_cases hji : j = i
    · subst hji; rw [upd_same]; exact h2 hn
    · rw [upd_ne hji]; exact hn
  · refine Or.inr ⟨j, k, hjk, hk, ?_, ?_⟩
    · by_cases hji : j = i
      · subst hji; rw [upd_same]; exact h1
      · rw [upd_ne hji]; exact a
    · by_cases hji : k = i
      · subst hji; rw [upd_same]; exact h1
      · rw [upd_ne hji]; exact b

/-! ### Insertion -/

/-- The element `x` was added to the trie `t` at the cell `l`, using the new blocks `new`. -/
structure InsRes (c : TrieCfg) (m m' : TMem) (l : Loc) (n pre : Nat) (t t' : TT) (x : Elem)
    (new : List Ptr) : Prop where
  rep : TRep c m' t' n pre (m'.cell l.base l.idx)
  elems : ∀ k, (t'.elems c.treeMax).filter (fun e => e.hash = k) =
    (t.elems c.treeMax ++ [x]).filter (fun e => e.hash = k)
  blocks : (t'.blocks c.treeMax).Perm (t.blocks c.treeMax ++ new)
  supply : m.supply = new ++ m'.supply
  freed : m'.freed = m.freed
  fr : TFr m m' (fun q => q = x.node ∨ ∃ e ∈ t.elems c.treeMax, e.hash = x.hash ∧ e.node = q)
    (fun b => b ∈ t.blocks c.treeMax ∨ b ∈ new) l
  ne : t' ≠ .nil
  grow : t.isNode → t'.isNode
  len : new.length ≤ n

/-- What is needed to insert `x` in the cell `l` of a trie which uses the nodes of `t`. -/
structure InsPre (c : TrieCfg) (m : TMem) (l : Loc) (n pre s : Nat) (t : TT) (x : Elem) : Prop where
  ok : m.heap.ok x.node
  data : m.heap.data x.node = x.data
  index : m.heap.index x.node = x.hash
  even : x.node % 2 = 0
  fresh : x.node ∉ (t.elems c.treeMax).map Elem.node
  nodup : ((t.elems c.treeMax).map Elem.node).Nodup
  bnodup : (t.blocks c.treeMax).Nodup
  base : l.base ∉ t.blocks c.treeMax
  loc : l.idx < m.csize l.base
  pre : x.hash >>> (c.treeBit * n) = pre
  shift : ∀ n', n = n' + 1 → s = c.treeBit * n'
  small : c.treeBit * n ≤ sizeBit
  len : n ≤ m.supply.length
  snodup : m.supply.Nodup
  sfresh : ∀ b ∈ m.supply, b ∉ t.blocks c.treeMax ∧ b ≠ l.base ∧ b % 2 = 0

omit [Arch] in
theorem same_of_frame {m : TMem} {h' : Heap} {S : Ptr → Prop} (fr : Frame m.heap h' S)
    (hd : h'.data = m.heap.data) (l : Loc) (B : Ptr → Prop) : TFr m { m with heap := h' } S B l :=
  ⟨fun q hq => HashSpec.frame_same fr hd hq, fr.valid, fun q => by rw [hd], fun q => by rw [fr.index],
    fun _ _ _ _ => rfl, fun _ _ => rfl⟩

omit [Arch] in
theorem tfr_cell {m : TMem} {N B : Ptr → Prop} (l : Loc) (p : Ptr) :
    TFr m { m with cell := upd m.cell l.base (upd (m.cell l.base) l.idx p) } N B l := by
  refine ⟨fun q _ => HashSpec.SameNode.refl _ q, rfl, fun _ => rfl, fun _ => rfl, fun b i _ h => ?_, fun _ _ => rfl⟩
  show upd m.cell l.base _ b i = _
  rw [upd_apply]
  split
  · next hb => subst hb; exact upd_ne fun hi => h ⟨rfl, hi⟩
  · rfl

omit [Arch] in
/-- A list of one element. -/
theorem ins_first {m : TMem} {l : Loc} {n pre : Nat} {x : Elem} (hl : l.idx < m.csize l.base)
    (ok : m.heap.ok x.node) (hd : m.heap.data x.node = x.data) (hi : m.heap.index x.node = x.hash)
    (ev : x.node % 2 = 0) (hp : x.hash >>> (c.treeBit * n) = pre) {α : Type} (r : α) :
    ∃ m', (do let p ← onN (listInsertFirst x.node); cellSet l p; return r) m = some (r, m') ∧
      TRep c m' (.leaf [x]) n pre (m'.cell l.base l.idx) ∧ m'.supply = m.supply ∧ m'.freed = m.freed ∧
      TFr m m' (fun q => q = x.node) (fun _ => False) l := by
  obtain ⟨h', e, il, hd', fr⟩ := listInsertFirst_spec ok
  refine ⟨{ m with heap := h', cell := upd m.cell l.base (upd (m.cell l.base) l.idx x.node) }, ?_, ?_, rfl, rfl, ?_⟩
  · simp only [run_bind, onN_run e, Option.bind_some]
    rw [cellSet_run (m := { m with heap := h' }) x.node hl]
    rfl
  · show TRep c _ _ _ _ (upd m.cell l.base _ l.base l.idx)
    rw [upd_same, upd_same]
    refine ⟨by simp, ⟨by simpa using il, ?_, ?_⟩, by simpa using ev, x.hash, hp, by simp⟩
    · simp only [List.mem_singleton]; rintro y rfl; rw [hd']; exact hd
    · simp only [List.mem_singleton]; rintro y rfl; rw [fr.index]; exact hi
  · exact (same_of_frame fr hd' l _).trans (tfr_cell (m := { m with heap := h' }) l x.node)

omit [Arch] in
/-- A new empty block in the cell `l`. -/
theorem newBlock_run {m : TMem} {l : Loc} {b : Ptr} {r : List Ptr} (M : Nat) (hs : m.supply = b :: r)
    (hl : l.idx < m.csize l.base) (hb : b ≠ l.base) :
    ∃ m', (∀ {α : Type} (f : Ptr → TM α), (do
        let tree ← blockAlloc M
        cellSet l (trieSetTree tree)
        clearCells tree 0 M
        f tree) m = f b m') ∧ m'.heap = m.heap ∧ m'.csize b = M ∧ (∀ j, j < M → m'.cell b j = 0) ∧
      m'.cell l.base l.idx = b + 1 ∧ m'.supply = r ∧ m'.freed = m.freed ∧
      ∀ N, TFr m m' N (· = b) l := by
  have hb' : l.base ≠ b := fun h => hb h.symm
  let m1 : TMem := { m with
    csize := upd m.csize b M, supply := r
    cell := upd m.cell l.base (upd (m.cell l.base) l.idx (b + 1)) }
  refine ⟨{ m1 with cell := upd m1.cell b (fun j => if 0 ≤ j ∧ j < 0 + M then 0 else m1.cell b j) },
    ?_, rfl, ?_, ?_, ?_, rfl, rfl, ?_⟩
  · intro α f
    simp only [run_bind, blockAlloc_run M hs, Option.bind_some]
    rw [cellSet_run (m := { m with csize := upd m.csize b M, supply := r }) _
      (by show l.idx < upd m.csize b M l.base; rw [upd_ne hb']; exact hl)]
    simp only [Option.bind_some]
    rw [clearCells_run M 0 _ (by show 0 + M ≤ upd m.csize b M b; rw [upd_same]; omega)]
    rfl
  · exact upd_same _ _ _
  · intro j hj
    show upd m1.cell b _ b j = 0
    rw [upd_same, if_pos (by omega)]
  · show upd m1.cell b _ l.base l.idx = _
    rw [upd_ne hb']
    show upd m.cell l.base _ l.base l.idx = _
    rw [upd_same, upd_same]
  · intro N
    refine ⟨fun q _ => HashSpec.SameNode.refl _ q, rfl, fun _ => rfl, fun _ => rfl, fun d i hd h => ?_,
      fun d hd => upd_ne hd⟩
    show upd m1.cell b _ d i = _
    rw [upd_ne hd]
    exact (tfr_cell (N := N) (B := fun _ => False) (m := m) l (b + 1)).cell d i (fun h => h) h

omit [Arch] in
theorem elems_nil (M : Nat) : TT.elems M .nil = [] := rfl
omit [Arch] in
theorem elems_leaf (M : Nat) (L : List Elem) : TT.elems M (.leaf L) = L := rfl
omit [Arch] in
theorem blocks_nil (M : Nat) : TT.blocks M .nil = [] := rfl
omit [Arch] in
theorem blocks_leaf (M : Nat) (L : List Elem) : TT.blocks M (.leaf L) = [] := rfl

omit [Arch] in
/-- The blocks of a node when a child changes. -/
theorem blocks_upd {M i : Nat} (hi : i < M) (b : Ptr) (ch : Nat → TT) :
    ∃ A B, ∀ t, (TT.node b (upd ch i t)).blocks M = b :: (A ++ t.blocks M ++ B) := by
  obtain ⟨A, B, e⟩ := filter_flatMap_upd (TT.blocks M) ch hi
  exact ⟨A, B, fun t => by rw [TT.blocks, e]⟩

omit [Arch] in
theorem blocks_empty {M : Nat} {ch : Nat → TT} (h : ∀ j, j < M → (ch j).blocks M = []) (b : Ptr) :
    (TT.node b ch).blocks M = [b] := by
  rw [TT.blocks]
  congr 1
  rw [List.flatMap_eq_nil_iff]
  intro j hj
  exact h j (List.mem_range.1 hj)

theorem expand_run (hc : CfgOk c) {L : List Elem} {k : Nat} {x : Elem} {p : Ptr} (hk : ∀ e ∈ L, e.hash = k)
    (hne : k ≠ x.hash) : ∀ (n : Nat) (m : TMem) (l : Loc) (pre s nc : Nat),
    TRep c m (.leaf L) n pre p → InsPre c m l n pre s (.leaf L) x → nc + n < 2 ^ sizeBit →
    ∃ m' t' new, trieExpand c nc s l p x.node x.hash m = some (nc + new.length, m') ∧
      InsRes c m m' l n pre (.leaf L) t' x new ∧ t'.isNode := by
  intro n
  induction n with
  | zero =>
    intro m l pre s nc hr hp _
    obtain ⟨_, _, _, e, M, rfl, _⟩ := hr.leaf_ptr
    obtain ⟨_, _, _, k', h1, h2⟩ := hr
    have := h2 e (by simp)
    have hke := hk e (by simp)
    have := hp.pre
    simp at h1 this
    omega
  | succ n ih =>
    intro m l pre s nc hr hp hnc
    obtain ⟨p0, pev, pok, e, M, hL, pe⟩ := hr.leaf_ptr
    have hke := hk e (by simp [hL])
    obtain ⟨_, er, lev, k', hk', h2⟩ := hr
    obtain rfl : k = k' := hke.symm.trans (h2 e (by simp [hL]))
    cases hsup : m.supply with
    | nil => have := hp.len; rw [hsup] at this; simp at this
    | cons b r =>
      have hbf := hp.sfresh b (by simp [hsup])
      obtain ⟨m1, run1, hh1, sz1, z1, c1, su1, fd1, fr1⟩ := newBlock_run c.treeMax hsup hp.loc hbf.2.1
      have hs : s = c.treeBit * n := hp.shift n rfl
      have hsm : c.treeBit * n < sizeBit := by
        have := hp.small; have := hc.bit_pos; rw [Nat.mul_add] at *; omega
      have hidx : onN (getIndex p) m1 = some (k, m1) := by
        rw [onN_run (getIndex_run (by rw [hh1]; exact pok))]
        have : m1.heap.index p = k := by rw [hh1, pe, er.index e (by simp [hL])]; exact hke
        rw [this]
      have unf : trieExpand c nc s l p x.node x.hash m =
          (if dig c n k ≠ dig c n x.hash then do
            cellSet ⟨b, dig c n k⟩ p
            let q ← onN (listInsertFirst x.node)
            cellSet ⟨b, dig c n x.hash⟩ q
            return nc + 1
          else trieExpand c (nc + 1) (sub32 s c.treeBit) ⟨b, dig c n k⟩ p x.node x.hash) m1 := by
        have hsz : sizeT (nc + 1) = nc + 1 := Nat.mod_eq_of_lt (by omega)
        rw [trieExpand, run1]
        simp only [run_bind, hidx, Option.bind_some, hs, slot_run hc _ hsm, hsz, run_ite]
      rw [unf]
      have dk := dig_lt hc n k
      have dx := dig_lt hc n x.hash
      have ksh := shift_succ hc n k
      have xsh := shift_succ hc n x.hash
      rw [hk'] at ksh
      rw [hp.pre] at xsh
      have bb : ∀ q, ¬ (q ∈ (TT.leaf L).blocks c.treeMax) := by simp [TT.blocks]
      by_cases hd : dig c n k = dig c n x.hash
      · -- the same digit: one more level
        rw [if_neg (by simpa using hd)]
        rw [← hd] at xsh
        have hn64 : c.treeBit * (n + 1) ≤ sizeBit := hp.small
        have ip : InsPre c m1 ⟨b, dig c n k⟩ n (pre * c.treeMax + dig c n k) (sub32 s c.treeBit) (.leaf L) x := by
          refine ⟨by rw [hh1]; exact hp.ok, by rw [hh1]; exact hp.data, by rw [hh1]; exact hp.index, hp.even,
            hp.fresh, hp.nodup, hp.bnodup, by simp [TT.blocks], by rw [sz1]; exact dk, xsh, ?_, by omega, ?_, ?_, ?_⟩
          · rintro n' rfl
            rw [hs]; exact sub32_eq hc hsm
          · have := hp.len; rw [hsup] at this; rw [su1]; simpa using this
          · have := hp.snodup; rw [hsup] at this; rw [su1]; exact (List.nodup_cons.1 this).2
          · intro d hd
            rw [su1] at hd
            have := hp.sfresh d (by simp [hsup, hd])
            have nd := hp.snodup; rw [hsup] at nd
            exact ⟨bb d, fun (hdb : d = b) => (List.nodup_cons.1 nd).1 (hdb ▸ hd), this.2.2⟩
        have rp1 : TRep c m1 (.leaf L) n (pre * c.treeMax + dig c n k) p :=
          ⟨by simp [hL], by rw [hh1]; exact er, lev, k, ksh, hk⟩
        obtain ⟨m2, t2, new, e2, R, hnode⟩ := ih m1 ⟨b, dig c n k⟩ _ _ (nc + 1) rp1 ip (by omega)
        have bnew : b ∉ new := by
          intro hb
          have nd := hp.snodup
          rw [hsup, ← su1, R.supply] at nd
          exact (List.nodup_cons.1 nd).1 (by simp [hb])
        have lnew : l.base ∉ new := by
          intro hb
          exact (hp.sfresh l.base (by rw [hsup, ← su1, R.supply]; simp [hb])).2.1 rfl
        have frN : ∀ q, q = x.node ∨ (∃ e ∈ (TT.leaf L).elems c.treeMax, e.hash = x.hash ∧ e.node = q) →
          q = x.node ∨ (∃ e ∈ (TT.leaf L).elems c.treeMax, e.hash = x.hash ∧ e.node = q) := fun q h => h
        have R2 : InsRes c m m2 l (n + 1) pre (.leaf L) (.node b (upd (fun _ => .nil) (dig c n k) t2)) x (b :: new) := by
          have child : ∀ i, i < c.treeMax → TRep c m2 (upd (fun _ => TT.nil) (dig c n k) t2 i) n
              (pre * c.treeMax + i) (m2.cell b i) := by
            intro i hi
            by_cases hik : i = dig c n k
            · subst hik; rw [upd_same]; exact R.rep
            · rw [upd_ne hik]
              show m2.cell b i = 0
              rw [R.fr.cell b i (by simp [TT.blocks, bnew]) (by simp [hik]), z1 i hi]
          refine ⟨?_, ?_, ?_, ?_, R.freed.trans fd1, ?_, by simp, fun _ => trivial, ?_⟩
          · refine ⟨?_, hbf.2.2, ?_, Or.inl ⟨dig c n k, dk, by rw [upd_same]; exact hnode⟩, n, rfl, child⟩
            · rw [R.fr.cell l.base l.idx (by simp [TT.blocks, lnew]) (by simp only; exact fun h => hbf.2.1 h.1.symm), c1]
            · rw [R.fr.size b (by simp [TT.blocks, bnew]), sz1]
          · intro y
            rw [filter_node hc b (TRep.dig hc child) y]
            by_cases hy : dig c n y = dig c n k
            · rw [hy, upd_same]; exact R.elems y
            · rw [upd_ne hy, elems_nil, eq_comm, List.filter_nil, List.filter_eq_nil_iff]
              intro f hf
              simp only [decide_eq_true_eq]
              rintro rfl
              rcases List.mem_append.1 hf with hf | hf
              · exact hy (by rw [hk f hf])
              · simp at hf; subst hf; exact hy hd.symm
          · obtain ⟨A, B, eb⟩ := blocks_upd (M := c.treeMax) dk b (fun _ => TT.nil)
            have e0 := eb TT.nil
            rw [blocks_empty (by intro j hj; rw [upd_apply]; split <;> rfl)] at e0
            simp [TT.blocks] at e0
            rw [eb t2, e0.1, e0.2]
            have := R.blocks
            rw [blocks_leaf] at this ⊢
            simpa using this
          · rw [hsup, ← su1, R.supply]; simp
          · refine ((fr1 _).mono (fun q h => h) ?_).trans ((R.fr.mono (fun q h => h) ?_).inner ?_)
            · rintro q rfl; simp
            · intro q h
              rcases h with h | h
              · exact absurd h (bb q)
              · simp [h]
            · simp
          · have := R.len; simp; omega
        refine ⟨m2, _, b :: new, ?_, R2, trivial⟩
        rw [e2]
        congr 2
        simp; omega
      · -- different digits
        rw [if_pos hd]
        have nb : ∀ q : Nat, q ∈ r → q ≠ b := by
          intro q hq h
          have nd := hp.snodup; rw [hsup] at nd
          exact (List.nodup_cons.1 nd).1 (h ▸ hq)
        let m2 : TMem := { m1 with cell := upd m1.cell b (upd (m1.cell b) (dig c n k) p) }
        have run2 : cellSet ⟨b, dig c n k⟩ p m1 = some ((), m2) :=
          cellSet_run p (by show dig c n k < m1.csize b; rw [sz1]; exact dk)
        have fr2 : ∀ N, TFr m1 m2 N (· = b) l := fun N =>
          (tfr_cell (m := m1) (N := N) (B := (· = b)) ⟨b, dig c n k⟩ p).inner rfl
        obtain ⟨m3, run3, rx, su3, fd3, fr3⟩ := ins_first (c := c) (m := m2) (l := ⟨b, dig c n x.hash⟩) (n := n)
          (pre := pre * c.treeMax + dig c n x.hash) (x := x)
          (by show dig c n x.hash < m1.csize b; rw [sz1]; exact dx)
          (by show m1.heap.ok _; rw [hh1]; exact hp.ok) (by show m1.heap.data _ = _; rw [hh1]; exact hp.data)
          (by show m1.heap.index _ = _; rw [hh1]; exact hp.index) hp.even xsh (nc + 1)
        have hxL : ∀ f ∈ L, f.node ≠ x.node := by
          intro f hf h
          exact hp.fresh (by rw [elems_leaf, ← h]; exact List.mem_map_of_mem hf)
        have er3 : ERep m3.heap p L := by
          refine (show ERep m2.heap p L by show ERep m1.heap p L; rw [hh1]; exact er).same fun f hf => ?_
          exact fr3.node f.node (hxL f hf)
        have child : ∀ i, i < c.treeMax → TRep c m3
            (upd (upd (fun _ => TT.nil) (dig c n k) (.leaf L)) (dig c n x.hash) (.leaf [x]) i) n
            (pre * c.treeMax + i) (m3.cell b i) := by
          intro i hi
          by_cases hix : i = dig c n x.hash
          · subst hix; rw [upd_same]; exact rx
          · rw [upd_ne hix, fr3.cell b i (fun h => h) (by simp [hix])]
            by_cases hik : i = dig c n k
            · subst hik
              rw [upd_same]
              show TRep c m3 (.leaf L) n _ (upd m1.cell b _ b (dig c n k))
              rw [upd_same, upd_same]
              exact ⟨by simp [hL], er3, lev, k, ksh, hk⟩
            · rw [upd_ne hik]
              show upd m1.cell b _ b i = 0
              rw [upd_same, upd_ne hik, z1 i hi]
        refine ⟨m3, .node b _, [b], ?_, ⟨⟨?_, hbf.2.2, ?_, ?_, n, rfl, child⟩, ?_, ?_, ?_, fd3.trans fd1, ?_, by simp,
          fun _ => trivial, by simp⟩, trivial⟩
        · simp only [run_bind, run2, Option.bind_some]
          exact run3
        · rw [fr3.cell l.base l.idx (fun h => h) (by simp only; exact fun h => hbf.2.1 h.1.symm)]
          show upd m1.cell b _ l.base l.idx = _
          rw [upd_ne (fun h => hbf.2.1 h.symm), c1]
        · rw [fr3.size b (fun h => h)]; exact sz1
        · rcases Nat.lt_or_gt_of_ne hd with h | h
          · exact Or.inr ⟨_, _, h, dx, by rw [upd_ne hd, upd_same]; simp, by rw [upd_same]; simp⟩
          · exact Or.inr ⟨_, _, h, dk, by rw [upd_same]; simp, by rw [upd_ne hd, upd_same]; simp⟩
        · intro y
          rw [filter_node hc b (TRep.dig hc child) y, elems_leaf, List.filter_append]
          by_cases hyx : dig c n y = dig c n x.hash
          · rw [hyx, upd_same, elems_leaf]
            have : L.filter (fun e => e.hash = y) = [] := by
              rw [List.filter_eq_nil_iff]
              intro f hf
              simp only [decide_eq_true_eq]
              rintro rfl
              exact hd (by rw [← hyx, hk f hf])
            rw [this, List.nil_append]
          · have hx0 : [x].filter (fun e => e.hash = y) = [] := by
              rw [List.filter_eq_nil_iff]
              intro f hf
              simp only [List.mem_singleton] at hf
              simp only [decide_eq_true_eq]
              rintro rfl
              exact hyx (by rw [hf])
            rw [upd_ne hyx, hx0, List.append_nil]
            by_cases hyk : dig c n y = dig c n k
            · rw [hyk, upd_same, elems_leaf]
            · rw [upd_ne hyk, elems_nil, List.filter_nil, eq_comm, List.filter_eq_nil_iff]
              intro f hf
              simp only [decide_eq_true_eq]
              rintro rfl
              exact hyk (by rw [hk f hf])
        · rw [blocks_empty, blocks_leaf]
          · simp
          · intro j hj; rw [upd_apply]; split
            · rfl
            · rw [upd_apply]; split <;> rfl
        · rw [hsup, su3]; simp; exact su1.symm
        · have g1 : TFr m m1 (fun q => q = x.node ∨ ∃ e ∈ (TT.leaf L).elems c.treeMax, e.hash = x.hash ∧ e.node = q)
              (fun d => d ∈ (TT.leaf L).blocks c.treeMax ∨ d ∈ [b]) l := (fr1 _).mono (fun q h => h) (by simp)
          have g2 : TFr m1 m2 (fun q => q = x.node ∨ ∃ e ∈ (TT.leaf L).elems c.treeMax, e.hash = x.hash ∧ e.node = q)
              (fun d => d ∈ (TT.leaf L).blocks c.treeMax ∨ d ∈ [b]) l := (fr2 _).mono (fun q h => h) (by simp)
          have g3 : TFr m2 m3 (fun q => q = x.node ∨ ∃ e ∈ (TT.leaf L).elems c.treeMax, e.hash = x.hash ∧ e.node = q)
              (fun d => d ∈ (TT.leaf L).blocks c.treeMax ∨ d ∈ [b]) l :=
            (fr3.mono (fun q h => Or.inl h) (fun q h => h.elim)).inner (by simp)
          exact (g1.trans g2).trans g3

omit [Arch] in
theorem mem_child_elems {M i : Nat} (hi : i < M) {b : Ptr} {ch : Nat → TT} {e : Elem}
    (h : e ∈ (ch i).elems M) : e ∈ (TT.node b ch).elems M :=
  List.mem_flatMap.2 ⟨i, List.mem_range.2 hi, h⟩

omit [Arch] in
theorem mem_child_blocks {M i : Nat} (hi : i < M) {b : Ptr} {ch : Nat → TT} {d : Ptr}
    (h : d ∈ (ch i).blocks M) : d ∈ (TT.node b ch).blocks M :=
  List.mem_cons_of_mem _ (List.mem_flatMap.2 ⟨i, List.mem_range.2 hi, h⟩)

omit [Arch] in
theorem map_flatMap_node (M : Nat) (b : Ptr) (ch : Nat → TT) :
    ((TT.node b ch).elems M).map Elem.node =
      (List.range M).flatMap fun i => ((ch i).elems M).map Elem.node := by
  rw [TT.elems, List.map_flatMap]

omit [Arch] in
theorem child_nodup {M i : Nat} (hi : i < M) {b : Ptr} {ch : Nat → TT}
    (h : (((TT.node b ch).elems M).map Elem.node).Nodup) : (((ch i).elems M).map Elem.node).Nodup := by
  rw [map_flatMap_node] at h; exact flatMap_nodup h hi

omit [Arch] in
theorem child_disj {M i j : Nat} (hi : i < M) (hj : j < M) (hij : i ≠ j) {b : Ptr} {ch : Nat → TT}
    (h : (((TT.node b ch).elems M).map Elem.node).Nodup) {q : Ptr}
    (hq : q ∈ ((ch i).elems M).map Elem.node) : q ∉ ((ch j).elems M).map Elem.node := by
  rw [map_flatMap_node] at h; exact flatMap_disj h hi hj hij hq

omit [Arch] in
theorem child_bnodup {M i : Nat} (hi : i < M) {b : Ptr} {ch : Nat → TT}
    (h : ((TT.node b ch).blocks M).Nodup) : ((ch i).blocks M).Nodup := by
  rw [TT.blocks, List.nodup_cons] at h; exact flatMap_nodup h.2 hi

omit [Arch] in
theorem child_bdisj {M i j : Nat} (hi : i < M) (hj : j < M) (hij : i ≠ j) {b : Ptr} {ch : Nat → TT}
    (h : ((TT.node b ch).blocks M).Nodup) {q : Ptr}
    (hq : q ∈ (ch i).blocks M) : q ∉ (ch j).blocks M := by
  rw [TT.blocks, List.nodup_cons] at h; exact flatMap_disj h.2 hi hj hij hq

omit [Arch] in
theorem child_root {M i : Nat} (hi : i < M) {b : Ptr} {ch : Nat → TT}
    (h : ((TT.node b ch).blocks M).Nodup) : b ∉ (ch i).blocks M := by
  rw [TT.blocks, List.nodup_cons] at h
  exact fun hb => h.1 (List.mem_flatMap.2 ⟨i, List.mem_range.2 hi, hb⟩)

omit [Arch] in
/-- The children not concerned by a change in the child `i`. -/
theorem siblings {m m' : TMem} {b : Ptr} {ch : Nat → TT} {n pre i : Nat} {N B : Ptr → Prop}
    (hi : i < c.treeMax)
    (h : ∀ j, j < c.treeMax → TRep c m (ch j) n (pre * c.treeMax + j) (m.cell b j))
    (hn : (((TT.node b ch).elems c.treeMax).map Elem.node).Nodup)
    (hb : ((TT.node b ch).blocks c.treeMax).Nodup)
    (fr : TFr m m' N B ⟨b, i⟩) (hN : ∀ q, N q → q ∈ ((ch i).elems c.treeMax).map Elem.node ∨
      q ∉ ((TT.node b ch).elems c.treeMax).map Elem.node)
    (hB : ∀ d, B d → d ∈ (ch i).blocks c.treeMax ∨ d ∉ (TT.node b ch).blocks c.treeMax)
    {t : TT} (ht : TRep c m' t n (pre * c.treeMax + i) (m'.cell b i)) :
    ∀ j, j < c.treeMax → TRep c m' (upd ch i t j) n (pre * c.treeMax + j) (m'.cell b j) := by
  intro j hj
  by_cases hji : j = i
  · subst hji; rw [upd_same]; exact ht
  · have nB : ∀ d, (d = b ∨ d ∈ (ch j).blocks c.treeMax) → ¬ B d := by
      intro d hd hBd
      rcases hB d hBd with h1 | h1
      · rcases hd with rfl | hd
        · exact child_root hi hb h1
        · exact child_bdisj hi hj (fun h => hji h.symm) hb h1 hd
      · rcases hd with rfl | hd
        · exact h1 (by simp [TT.blocks])
        · exact h1 (mem_child_blocks hj hd)
    rw [upd_ne hji, fr.cell b j (nB b (Or.inl rfl)) (by simp [hji])]
    refine (h j hj).congr (fun e he => fr.node _ fun hq => ?_) fun d hd => ?_
    · rcases hN _ hq with h1 | h1
      · exact child_disj hi hj (fun h => hji h.symm) hn h1 (List.mem_map_of_mem he)
      · exact h1 (List.mem_map_of_mem (mem_child_elems hj he))
    · have hdb := nB d (Or.inr hd)
      have hne : d ≠ b := fun h => child_root hj hb (h ▸ hd)
      exact ⟨fr.size d hdb, fun a _ => fr.cell d a hdb (by simp [hne])⟩

theorem insert_run (hc : CfgOk c) {x : Elem} : ∀ (t : TT) (n : Nat) (m : TMem) (l : Loc) (pre s nc : Nat),
    TRep c m t n pre (m.cell l.base l.idx) → InsPre c m l n pre s t x → nc + n < 2 ^ sizeBit →
    ∃ m' t' new, trieBucketInsert c nc s l x.node x.hash m = some (nc + new.length, m') ∧
      InsRes c m m' l n pre t t' x new := by
  intro t
  induction t with
  | nil =>
    intro n m l pre s nc hr hp hnc
    have h0 : m.cell l.base l.idx = 0 := hr
    obtain ⟨m', e, r, su, fd, fr⟩ := ins_first (c := c) hp.loc hp.ok hp.data hp.index hp.even hp.pre nc
    refine ⟨m', .leaf [x], [], ?_, r, fun k => rfl, by simp [TT.blocks], by simpa using su.symm, fd, ?_, by simp,
      fun h => h.elim, by simp⟩
    · rw [trieBucketInsert]
      simp only [run_bind, cellGet_run hp.loc, Option.bind_some, h0, if_true, run_ite]
      exact e
    · exact fr.mono (fun q h => Or.inl h) (fun q h => h.elim)
  | leaf L =>
    intro n m l pre s nc hr hp hnc
    obtain ⟨p0, pev, pok, e, M, hL, pe⟩ := hr.leaf_ptr
    obtain ⟨_, er, lev, k, hk, hh⟩ := id hr
    have hidx : onN (getIndex (m.cell l.base l.idx)) m = some (k, m) := by
      rw [onN_run (getIndex_run pok)]
      have : m.heap.index (m.cell l.base l.idx) = k := by rw [pe, er.index e (by simp [hL])]; exact hh e (by simp [hL])
      rw [this]
    have unf : trieBucketInsert c nc s l x.node x.hash m =
        (if k = x.hash then do
            onN (listInsertTailNotEmpty (m.cell l.base l.idx) x.node)
            return nc
          else trieExpand c nc s l (m.cell l.base l.idx) x.node x.hash) m := by
      rw [trieBucketInsert]
      simp only [run_bind, cellGet_run hp.loc, Option.bind_some, p0, if_false, run_ite, not_isTree pev, hidx]
    rw [unf]
    by_cases hkx : k = x.hash
    · rw [if_pos hkx]
      have hxL : x.node ∉ L.map Elem.node := hp.fresh
      obtain ⟨h', e1, il, hd', fr⟩ := listInsertTailNotEmpty_spec er.list (by simp [hL]) hp.ok hxL
      refine ⟨{ m with heap := h' }, .leaf (L ++ [x]), [], ?_, ⟨by simp, ⟨by simpa using il, ?_, ?_⟩, ?_, k, hk, ?_⟩,
        fun _ => rfl, by simp [TT.blocks], rfl, rfl, ?_, by simp, fun h => h.elim, by simp⟩
      · simp only [run_bind, onN_run e1, Option.bind_some]; rfl
      · intro f hf
        show h'.data _ = _
        rw [hd']
        rcases List.mem_append.1 hf with hf | hf
        · exact er.data f hf
        · simp at hf; subst hf; exact hp.data
      · intro f hf
        show h'.index _ = _
        rw [fr.index]
        rcases List.mem_append.1 hf with hf | hf
        · exact er.index f hf
        · simp at hf; subst hf; exact hp.index
      · intro f hf
        rcases List.mem_append.1 hf with hf | hf
        · exact lev f hf
        · simp at hf; subst hf; exact hp.even
      · intro f hf
        rcases List.mem_append.1 hf with hf | hf
        · exact hh f hf
        · simp at hf; subst hf; exact hkx.symm
      · refine (same_of_frame fr hd' l _).mono ?_ (fun q h => h)
        rintro q (h | h)
        · exact Or.inl h
        · obtain ⟨f, hf, rfl⟩ := List.mem_map.1 h
          exact Or.inr ⟨f, hf, by rw [hh f hf, hkx], rfl⟩
    · rw [if_neg hkx]
      obtain ⟨m', t', new, e1, R, _⟩ := expand_run hc hh hkx n m l pre s nc hr hp hnc
      exact ⟨m', t', new, e1, R⟩
  | node b ch ih =>
    intro n m l pre s nc hr hp hnc
    obtain ⟨h1, h2, h3, h4, n', rfl, h⟩ := hr
    have hs : s = c.treeBit * n' := hp.shift n' rfl
    have hsm : c.treeBit * n' < sizeBit := by
      have := hp.small; have := hc.bit_pos; rw [Nat.mul_add] at *; omega
    have dx := dig_lt hc n' x.hash
    have xsh := shift_succ hc n' x.hash
    rw [hp.pre] at xsh
    have unf : trieBucketInsert c nc s l x.node x.hash m =
        trieBucketInsert c nc (sub32 s c.treeBit) ⟨b, dig c n' x.hash⟩ x.node x.hash m := by
      rw [trieBucketInsert]
      simp only [run_bind, cellGet_run hp.loc, Option.bind_some, h1, if_false, run_ite, isTree_succ h2, if_true,
        hs, slot_run hc _ hsm, trieGetTree, Nat.add_sub_cancel, Nat.add_one_ne_zero]
    rw [unf]
    have ip : InsPre c m ⟨b, dig c n' x.hash⟩ n' (pre * c.treeMax + dig c n' x.hash) (sub32 s c.treeBit)
        (ch (dig c n' x.hash)) x := by
      have hsml := hp.small
      refine ⟨hp.ok, hp.data, hp.index, hp.even, fun hx => hp.fresh ?_, child_nodup dx hp.nodup,
        child_bnodup dx hp.bnodup, child_root dx hp.bnodup, by simp only; rw [h3]; exact dx, xsh, ?_, by omega,
        by have := hp.len; omega, hp.snodup, fun d hd => ?_⟩
      · obtain ⟨f, hf, e⟩ := List.mem_map.1 hx
        exact e ▸ List.mem_map_of_mem (mem_child_elems dx hf)
      · rintro n rfl
        rw [hs]; exact sub32_eq hc hsm
      · have := hp.sfresh d hd
        exact ⟨fun hx => this.1 (mem_child_blocks dx hx), fun (hx : d = b) => this.1 (by simp [TT.blocks, hx]), this.2.2⟩
    obtain ⟨m', t', new, e1, R⟩ := ih _ n' m ⟨b, dig c n' x.hash⟩ _ _ nc (h _ dx) ip (by omega)
    have newf : ∀ d, d ∈ new → d ∉ (TT.node b ch).blocks c.treeMax ∧ d ≠ l.base := by
      intro d hd
      have := hp.sfresh d (by rw [R.supply]; simp [hd])
      exact ⟨this.1, this.2.1⟩
    have child := siblings (m' := m') dx h hp.nodup hp.bnodup R.fr
      (by
        rintro q (rfl | ⟨f, hf, _, rfl⟩)
        · exact Or.inr hp.fresh
        · exact Or.inl (List.mem_map_of_mem hf))
      (by
        rintro d (hd | hd)
        · exact Or.inl hd
        · exact Or.inr (newf d hd).1) R.rep
    have bB : ¬ (b ∈ (ch (dig c n' x.hash)).blocks c.treeMax ∨ b ∈ new) := by
      rintro (hd | hd)
      · exact child_root dx hp.bnodup hd
      · exact (newf b hd).1 (by simp [TT.blocks])
    have lB : ¬ (l.base ∈ (ch (dig c n' x.hash)).blocks c.treeMax ∨ l.base ∈ new) := by
      rintro (hd | hd)
      · exact hp.base (mem_child_blocks dx hd)
      · exact (newf _ hd).2 rfl
    have lb : l.base ≠ b := fun h => hp.base (by simp [TT.blocks, h])
    refine ⟨m', .node b (upd ch (dig c n' x.hash) t'), new, e1, ⟨?_, h2, ?_, h4.upd R.ne R.grow, n', rfl, child⟩, ?_, ?_,
      R.supply, R.freed, ?_, by simp, fun _ => trivial, by have := R.len; omega⟩
    · rw [R.fr.cell l.base l.idx lB (fun h => lb h.1), h1]
    · rw [R.fr.size b bB, h3]
    · intro y
      rw [filter_node hc b (TRep.dig hc child) y, List.filter_append, filter_node hc b (TRep.dig hc h) y]
      by_cases hy : dig c n' y = dig c n' x.hash
      · rw [hy, upd_same, R.elems, List.filter_append]
      · rw [upd_ne hy]
        have : [x].filter (fun e => e.hash = y) = [] := by
          rw [List.filter_eq_nil_iff]
          intro f hf
          simp only [List.mem_singleton] at hf
          simp only [decide_eq_true_eq]
          rintro rfl
          exact hy (by rw [hf])
        rw [this, List.append_nil]
    · obtain ⟨A, B, eb⟩ := blocks_upd (M := c.treeMax) dx b ch
      have e0 := eb (ch (dig c n' x.hash))
      rw [upd_self] at e0
      rw [e0, eb t', List.cons_append]
      refine List.Perm.cons _ ?_
      refine ((R.blocks.append_left A).append_right B).trans ?_
      simp only [List.append_assoc]
      exact (List.perm_append_comm.append_left _).append_left _
    · refine (R.fr.mono ?_ ?_).inner ?_
      · rintro q (hq | ⟨f, hf, hh, rfl⟩)
        · exact Or.inl hq
        · exact Or.inr ⟨f, mem_child_elems dx hf, hh, rfl⟩
      · rintro d (hd | hd)
        · exact Or.inl (mem_child_blocks dx hd)
        · exact Or.inr hd
      · exact Or.inl (by simp [TT.blocks])

end TrieSpec
end Tommy
