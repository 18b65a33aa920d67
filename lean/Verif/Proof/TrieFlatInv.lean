import Verif.Proof.TrieFlatSim
/-! The invariant of the allocators and of the tries in the same memory. -/
set_option linter.unusedSimpArgs false
set_option linter.unusedVariables false
namespace Tommy

variable [Arch]
namespace TrieSpec
open HashSpec (Elem SameNode)

variable {c : TrieCfg} {m m' : TMem} {es : List Elem} {bl : List Ptr} {t : Trie}

/-- Only the nodes and the objects of the trie matter. -/
theorem TrieOk.same (hc : CfgOk c) (h : TrieOk c m t es bl) (hN : ∀ e ∈ es, SameNode m.heap m'.heap e.node)
    (hB : ∀ b, (b = t.base ∨ b ∈ bl) → m'.csize b = m.csize b ∧ ∀ i, i < m.csize b → m'.cell b i = m.cell b i) :
    TrieOk c m' t es bl := by
  obtain ⟨ch, T⟩ := h.top
  refine ⟨⟨ch, { T with size := ?_, kids := fun i hi => ?_ }⟩, h.count, h.ncount, h.bpos⟩
  · rw [(hB _ (Or.inl rfl)).1, T.size]
  · rw [(hB _ (Or.inl rfl)).2 i (by rw [T.size]; exact hi)]
    have key : ∀ {x : TT} {n pre : Nat} {p : Ptr}, TRep c m x n pre p →
        (∀ e ∈ x.elems c.treeMax, SameNode m.heap m'.heap e.node) →
        (∀ b ∈ x.blocks c.treeMax, m'.csize b = m.csize b ∧ ∀ i, i < m.csize b → m'.cell b i = m.cell b i) →
        TRep c m' x n pre p := by
      intro x
      induction x with
      | nil => intro n pre p h _ _; exact h
      | leaf L =>
        intro n pre p h h1 _
        exact h.congr h1 (fun b hb => by simp [TT.blocks] at hb)
      | node b ch ih =>
        intro n pre p h h1 h2
        obtain ⟨e1, e2, e3, e4, n', rfl, h⟩ := h
        have hb := h2 b (by simp [TT.blocks])
        refine ⟨e1, e2, hb.1.trans e3, e4, n', rfl, fun i hi => ?_⟩
        rw [hb.2 i (by rw [e3]; exact hi)]
        refine ih i (h i hi) (fun e he => h1 e (List.mem_flatMap.2 ⟨i, List.mem_range.2 hi, he⟩)) fun b' hb' => h2 b' ?_
        exact List.mem_cons_of_mem _ (List.mem_flatMap.2 ⟨i, List.mem_range.2 hi, hb'⟩)
    exact key (T.kids i hi) (fun e he => hN e (T.mem hc hi he)) fun b hb => hB b (Or.inr (T.bmem hi hb))

omit [Arch] in
theorem TRep.bsize : ∀ {x : TT} {n pre : Nat} {p : Ptr}, TRep c m x n pre p → ∀ b ∈ x.blocks c.treeMax, m.csize b = c.treeMax := by
  intro x
  induction x with
  | nil => intro n pre p _ b hb; simp [TT.blocks] at hb
  | leaf L => intro n pre p _ b hb; simp [TT.blocks] at hb
  | node b ch ih =>
    intro n pre p h b' hb
    obtain ⟨_, _, e3, _, n', rfl, h⟩ := h
    rcases List.mem_cons.1 hb with rfl | hb
    · exact e3
    · obtain ⟨i, hi, hb⟩ := List.mem_flatMap.1 hb
      exact ih i (h i (List.mem_range.1 hi)) b' hb

theorem TrieOk.bsize (h : TrieOk c m t es bl) {b : Ptr} (hb : b ∈ bl) : m.csize b = c.treeMax := by
  obtain ⟨ch, T⟩ := h.top
  obtain ⟨i, hi, hb⟩ := List.mem_flatMap.1 (T.blocks.mem_iff.2 hb)
  exact (T.kids i (List.mem_range.1 hi)).bsize b hb

omit [Arch] in
theorem CfgOk.bucket_pos (c : TrieCfg) : 0 < c.bucketMax := by
  unfold TrieCfg.bucketMax; rw [Nat.one_shiftLeft]; exact Nat.two_pow_pos _

end TrieSpec

namespace FlatSpec
open HashSpec (Elem SameNode)
open TrieSpec (CfgOk TrieOk levels first)
open AllocSpec (AInv PoolInv acc_of rdP_congr wrP_out rdP_wrP rdP_wrP_out segSize segBlocks)

/-- The objects of a trie. -/
def TrieAb.Obj (T : TrieAb) (b : Nat) : Prop := b = T.base ∨ b ∈ T.owned

/-- The node is stored. -/
def TrieAb.Has (T : TrieAb) (p : Nat) : Prop := ∃ e ∈ T.es, e.node = p

open Classical in
/-- The bytes of the objects after the cells. -/
noncomputable def extOf (a : Ab) (b : Nat) : Nat := if ∃ v T, a.val v = some T ∧ T.base = b then 3 * ptrSize else 0

structure CTm (c : TrieCfg) (s : St) (a : Ab) (tm : TMem) : Prop where
  mrel : MRel a.al (extOf a) none s.mem tm
  obj : ∀ b, tm.csize b ≠ 0 ↔ ∃ v T, a.val v = some T ∧ T.Obj b
  node : ∀ p, tm.heap.valid p = true ↔ ∃ v T, a.val v = some T ∧ T.Has p
  var : ∀ v T, a.val v = some T → (s.var v).1.base = T.base ∧ (s.var v).2 = T.id
  trie : ∀ v T, a.val v = some T → TrieOk c tm (s.var v).1 T.es T.owned
  pool : ∀ v T, a.val v = some T → ∃ P, a.al.pool T.id = some P ∧ P.bs = c.blockSize ∧ ∀ b ∈ T.owned, b ∈ P.used
  osep : ∀ v w T U, v ≠ w → a.val v = some T → a.val w = some U → ∀ b, T.Obj b → ¬ U.Obj b
  nsep : ∀ v w T U, v ≠ w → a.val v = some T → a.val w = some U → ∀ p, T.Has p → ¬ U.Has p

def CInv (slack : Nat) (u : AllocSpec.Use) (c : TrieCfg) (s : St) (a : Ab) : Prop :=
  AllocSpec.Inv slack u ⟨s.mem, s.al⟩ a.al ∧ ∃ tm, CTm c s a tm

variable {slack : Nat} {u : AllocSpec.Use} {c : TrieCfg} {s : St} {a : Ab} {tm : TMem}

theorem extOf_base {v : Nat} {T : TrieAb} (h : a.val v = some T) : extOf a T.base = 3 * ptrSize := by
  unfold extOf; exact if_pos ⟨v, T, h, rfl⟩

theorem CTm.not_base (h : CTm c s a tm) {v w : Nat} {T U : TrieAb} (hv : a.val v = some T) (hw : a.val w = some U) {b : Nat}
    (hb : b ∈ T.owned) : U.base ≠ b := by
  intro e
  by_cases hvw : v = w
  · subst hvw
    rw [hv] at hw; cases hw
    obtain ⟨ch, t⟩ := (h.trie v T hv).top
    exact t.base (by rw [(h.var v T hv).1, e]; exact hb)
  · exact h.osep v w T U hvw hv hw b (Or.inr hb) (Or.inl e.symm)

theorem CTm.ext_owned (h : CTm c s a tm) {v : Nat} {T : TrieAb} (hv : a.val v = some T) {b : Nat}
    (hb : b ∈ T.owned) : extOf a b = 0 := by
  unfold extOf
  refine if_neg ?_
  rintro ⟨w, U, hw, e⟩
  exact h.not_base hv hw hb e

theorem CTm.ext_obj (h : CTm c s a tm) {b : Nat} (hb : extOf a b ≠ 0) : tm.csize b ≠ 0 := by
  unfold extOf at hb
  split at hb
  · next hx =>
    obtain ⟨v, T, hv, e⟩ := hx
    exact (h.obj b).2 ⟨v, T, hv, Or.inl e.symm⟩
  · exact absurd rfl hb

theorem CTm.size_base (h : CTm c s a tm) {v : Nat} {T : TrieAb} (hv : a.val v = some T) : tm.csize T.base = c.bucketMax := by
  obtain ⟨ch, t⟩ := (h.trie v T hv).top
  rw [← (h.var v T hv).1]; exact t.size

/-- The bytes of the objects are busy. -/
theorem CTm.busy_obj (h : CTm c s a tm) {b x : Nat} (hb : tm.csize b ≠ 0) (h1 : b ≤ x) (h2 : x < b + (ptrSize * tm.csize b + extOf a b)) :
    a.Busy c x := by
  obtain ⟨v, T, hv, rfl | hb'⟩ := (h.obj b).1 hb
  · rw [h.size_base hv, extOf_base hv] at h2
    exact ⟨v, T, hv, Or.inl ⟨h1, by unfold structSize; omega⟩⟩
  · rw [(h.trie v T hv).bsize hb', h.ext_owned hv hb'] at h2
    exact ⟨v, T, hv, Or.inr (Or.inl ⟨b, hb', h1, by omega⟩)⟩

theorem CTm.busy_node (h : CTm c s a tm) {p x : Nat} (hp : tm.heap.valid p = true) (h1 : p ≤ x) (h2 : x < p + nodeSize) :
    a.Busy c x := by
  obtain ⟨v, T, hv, e, he, rfl⟩ := (h.node p).1 hp
  exact ⟨v, T, hv, Or.inr (Or.inr ⟨e, he, h1, h2⟩)⟩

theorem CTm.clear_obj (h : CTm c s a tm) {q n : Nat} (hq : a.Clear c q n) (hn : 0 < n) {b : Nat} (hb : tm.csize b ≠ 0) :
    b + (ptrSize * tm.csize b + extOf a b) ≤ q ∨ q + n ≤ b := by
  by_contra hx
  exact hq (max b q) (by omega) (by omega) (h.busy_obj hb (by omega) (by arch))

theorem CTm.clear_node (h : CTm c s a tm) {q n : Nat} (hq : a.Clear c q n) (hn : 0 < n) {p : Nat} (hp : tm.heap.valid p = true) :
    p + nodeSize ≤ q ∨ q + n ≤ p := by
  by_contra hx
  exact hq (max p q) (by omega) (by omega) (h.busy_node hp (by omega) (by arch))

/-! ### Adding and dropping objects and nodes -/

variable {ab : AllocSpec.Ab} {ext : Nat → Nat} {un : Option (Nat × Nat)} {mem : AMem}

theorem MRel.restrict (h : MRel ab ext none mem tm) {tm' : TMem} {ext' : Nat → Nat}
    (hc : ∀ b : Nat, tm'.csize b ≠ 0 → tm'.csize b = tm.csize b ∧ ext' b = ext b) (hce : tm'.cell = tm.cell)
    (hv : ∀ p : Nat, tm'.heap.valid p = true → tm.heap.valid p = true)
    (hh : tm'.heap.next = tm.heap.next ∧ tm'.heap.prev = tm.heap.prev ∧ tm'.heap.data = tm.heap.data ∧ tm'.heap.index = tm.heap.index) :
    MRel ab ext' none mem tm' where
  byte := h.byte
  obj b hb := by
    have := hc b hb
    rw [this.1, this.2]; exact h.obj b (this.1 ▸ hb)
  osep b b' hb hb' hne := by
    have h1 := hc b hb
    have h2 := hc b' hb'
    rw [h1.1, h1.2, h2.1, h2.2]; exact h.osep b b' (h1.1 ▸ hb) (h2.1 ▸ hb') hne
  node p hp := h.node p (hv p hp)
  nsep p q hp hq hne := h.nsep p q (hv p hp) (hv q hq) hne
  onsep b p hb hp := by
    have h1 := hc b hb
    rw [h1.1, h1.2]; exact h.onsep b p (h1.1 ▸ hb) (hv p hp)
  cell b i hi hun := by
    have h1 := hc b (by omega)
    rw [hce]; exact h.cell b i (by rw [← h1.1]; exact hi) hun
  next p hp := by rw [hh.1]; exact h.next p (hv p hp)
  prev p hp := by rw [hh.2.1]; exact h.prev p (hv p hp)
  data p hp := by rw [hh.2.2.1]; exact h.data p (hv p hp)
  index p hp := by rw [hh.2.2.2]; exact h.index p (hv p hp)

/-- The node at `p` as it is in the bytes. -/
def addNode (mem : AMem) (tm : TMem) (p : Nat) : TMem := { tm with heap :=
  { valid := upd tm.heap.valid p true
    next := upd tm.heap.next p (rdP mem.byte (p + offNext))
    prev := upd tm.heap.prev p (rdP mem.byte (p + offPrev))
    data := upd tm.heap.data p (rdP mem.byte (p + offData))
    index := upd tm.heap.index p (rdP mem.byte (p + offIndex)) } }

theorem MRel.addNode (h : MRel ab ext un mem tm) {p : Nat} (hin : Inside ab p nodeSize)
    (ho : ∀ b : Nat, tm.csize b ≠ 0 → b + (ptrSize * tm.csize b + ext b) ≤ p ∨ p + nodeSize ≤ b)
    (hn : ∀ q : Nat, tm.heap.valid q = true → q + nodeSize ≤ p ∨ p + nodeSize ≤ q) : MRel ab ext un mem (addNode mem tm p) := by
  have hv : ∀ q : Nat, (FlatSpec.addNode mem tm p).heap.valid q = true → q = p ∨ (q ≠ p ∧ tm.heap.valid q = true) := fun q hq => by
    by_cases e : q = p
    · exact Or.inl e
    · simp only [FlatSpec.addNode, upd_ne e] at hq; exact Or.inr ⟨e, hq⟩
  refine { h with node := ?_, nsep := ?_, onsep := ?_, next := ?_, prev := ?_, data := ?_, index := ?_ }
  · intro q hq
    rcases hv q hq with rfl | ⟨_, hq⟩
    · exact hin
    · exact h.node q hq
  · intro q r hq hr hne
    rcases hv q hq with rfl | ⟨e1, hq⟩
    · rcases hv r hr with rfl | ⟨e2, hr⟩
      · exact absurd rfl hne
      · have := hn r hr; omega
    · rcases hv r hr with e2 | ⟨e2, hr⟩
      · have := hn q hq; omega
      · exact h.nsep q r hq hr hne
  · intro b q hb hq
    rcases hv q hq with rfl | ⟨_, hq⟩
    · exact ho b hb
    · exact h.onsep b q hb hq
  · intro q hq
    rcases hv q hq with rfl | ⟨e, hq⟩
    · simp [FlatSpec.addNode]
    · simp only [FlatSpec.addNode, upd_ne e]; exact h.next q hq
  · intro q hq
    rcases hv q hq with rfl | ⟨e, hq⟩
    · simp [FlatSpec.addNode]
    · simp only [FlatSpec.addNode, upd_ne e]; exact h.prev q hq
  · intro q hq
    rcases hv q hq with rfl | ⟨e, hq⟩
    · simp [FlatSpec.addNode]
    · simp only [FlatSpec.addNode, upd_ne e]; exact h.data q hq
  · intro q hq
    rcases hv q hq with rfl | ⟨e, hq⟩
    · simp [FlatSpec.addNode]
    · simp only [FlatSpec.addNode, upd_ne e]; exact h.index q hq

/-- The object of `n` cells at `p` as it is in the bytes. -/
def addObj (mem : AMem) (tm : TMem) (p n : Nat) : TMem := { tm with
  csize := upd tm.csize p n
  cell := upd tm.cell p fun i => rdP mem.byte (p + ptrSize * i) }

theorem MRel.addObj (h : MRel ab ext none mem tm) {p n : Nat} (hn : 0 < n) {ext' : Nat → Nat} (hin : Inside ab p (ptrSize * n + ext' p))
    (he : ∀ b : Nat, b ≠ p → tm.csize b ≠ 0 → ext' b = ext b)
    (ho : ∀ b : Nat, tm.csize b ≠ 0 → b + (ptrSize * tm.csize b + ext b) ≤ p ∨ p + (ptrSize * n + ext' p) ≤ b)
    (hnd : ∀ q : Nat, tm.heap.valid q = true → q + nodeSize ≤ p ∨ p + (ptrSize * n + ext' p) ≤ q) :
    MRel ab ext' none mem (addObj mem tm p n) := by
  have hv : ∀ b : Nat, (FlatSpec.addObj mem tm p n).csize b ≠ 0 → b = p ∨ (b ≠ p ∧ tm.csize b ≠ 0) := fun b hb => by
    by_cases e : b = p
    · exact Or.inl e
    · simp only [FlatSpec.addObj, upd_ne e] at hb; exact Or.inr ⟨e, hb⟩
  refine { h with obj := ?_, osep := ?_, onsep := ?_, cell := ?_ }
  · intro b hb
    rcases hv b hb with rfl | ⟨e, hb⟩
    · simp only [FlatSpec.addObj, upd_same]; exact hin
    · simp only [FlatSpec.addObj, upd_ne e, he b e hb]; exact h.obj b hb
  · intro b b' hb hb' hne
    rcases hv b hb with rfl | ⟨e, hb⟩
    · rcases hv b' hb' with rfl | ⟨e', hb'⟩
      · exact absurd rfl hne
      · have := ho b' hb'
        simp only [FlatSpec.addObj, upd_same, upd_ne e', he b' e' hb']; omega
    · rcases hv b' hb' with e' | ⟨e', hb'⟩
      · have := ho b hb
        rw [e']
        simp only [FlatSpec.addObj, upd_same, upd_ne e, he b e hb]; omega
      · simp only [FlatSpec.addObj, upd_ne e, upd_ne e', he b e hb, he b' e' hb']; exact h.osep b b' hb hb' hne
  · intro b q hb hq
    rcases hv b hb with rfl | ⟨e, hb⟩
    · have := hnd q hq
      simp only [FlatSpec.addObj, upd_same]; omega
    · simp only [FlatSpec.addObj, upd_ne e, he b e hb]; exact h.onsep b q hb hq
  · intro b i hi hun
    by_cases e : b = p
    · subst e; simp [FlatSpec.addObj]
    · simp only [FlatSpec.addObj, upd_ne e] at hi ⊢; exact h.cell b i hi hun

/-- The memory of the tries when the trie `v` changes. -/
theorem CTm.change (hc : CfgOk c) (h : CTm c s a tm) {v : Nat} {T' : TrieAb} {tm' : TMem} {t' : Trie} {mem' : AMem}
    {als' : Nat → Option Alloc} {al' : AllocSpec.Ab}
    (hT : TrieOk c tm' t' T'.es T'.owned) (ht : t'.base = T'.base)
    (hm : MRel al' (extOf ⟨al', upd a.val v (some T')⟩) none mem' tm')
    (hobj : ∀ b, tm'.csize b ≠ 0 ↔ T'.Obj b ∨ ∃ w U, w ≠ v ∧ a.val w = some U ∧ U.Obj b)
    (hnode : ∀ p, tm'.heap.valid p = true ↔ T'.Has p ∨ ∃ w U, w ≠ v ∧ a.val w = some U ∧ U.Has p)
    (hsame : ∀ w U, w ≠ v → a.val w = some U → (∀ e ∈ U.es, SameNode tm.heap tm'.heap e.node) ∧
      ∀ b, U.Obj b → tm'.csize b = tm.csize b ∧ ∀ i, i < tm.csize b → tm'.cell b i = tm.cell b i)
    (hp : ∃ P, al'.pool T'.id = some P ∧ P.bs = c.blockSize ∧ ∀ b ∈ T'.owned, b ∈ P.used)
    (hps : ∀ w U, w ≠ v → a.val w = some U → ∃ P, al'.pool U.id = some P ∧ P.bs = c.blockSize ∧ ∀ b ∈ U.owned, b ∈ P.used)
    (hsep : ∀ w U, w ≠ v → a.val w = some U → (∀ b, T'.Obj b → ¬ U.Obj b) ∧ ∀ p, T'.Has p → ¬ U.Has p) :
    CTm c ⟨mem', als', upd s.var v (t', T'.id)⟩ ⟨al', upd a.val v (some T')⟩ tm' := by
  have hval : ∀ w U, upd a.val v (some T') w = some U → (w = v ∧ U = T') ∨ (w ≠ v ∧ a.val w = some U) := fun w U hw => by
    by_cases e : w = v
    · subst e; rw [upd_same] at hw; cases hw; exact Or.inl ⟨rfl, rfl⟩
    · rw [upd_ne e] at hw; exact Or.inr ⟨e, hw⟩
  refine ⟨hm, fun b => ?_, fun p => ?_, fun w U hw => ?_, fun w U hw => ?_, fun w U hw => ?_, fun w x U V hne hw hx => ?_,
    fun w x U V hne hw hx => ?_⟩
  · rw [hobj]
    constructor
    · rintro (h | ⟨w, U, hne, hw, h⟩)
      · exact ⟨v, T', upd_same .., h⟩
      · exact ⟨w, U, by simp only [upd_ne hne, hw], h⟩
    · rintro ⟨w, U, hw, h⟩
      rcases hval w U hw with ⟨rfl, rfl⟩ | ⟨h1, h2⟩
      · exact Or.inl h
      · exact Or.inr ⟨w, U, h1, h2, h⟩
  · rw [hnode]
    constructor
    · rintro (h | ⟨w, U, hne, hw, h⟩)
      · exact ⟨v, T', upd_same .., h⟩
      · exact ⟨w, U, by simp only [upd_ne hne, hw], h⟩
    · rintro ⟨w, U, hw, h⟩
      rcases hval w U hw with ⟨rfl, rfl⟩ | ⟨h1, h2⟩
      · exact Or.inl h
      · exact Or.inr ⟨w, U, h1, h2, h⟩
  · rcases hval w U hw with ⟨rfl, rfl⟩ | ⟨h1, h2⟩
    · simp only [upd_same]; exact ⟨ht, trivial⟩
    · simp only [upd_ne h1]; exact h.var w U h2
  · rcases hval w U hw with ⟨rfl, rfl⟩ | ⟨h1, h2⟩
    · simp only [upd_same]; exact hT
    · simp only [upd_ne h1]
      refine (h.trie w U h2).same hc (hsame w U h1 h2).1 fun b hb => (hsame w U h1 h2).2 b ?_
      rw [(h.var w U h2).1] at hb; exact hb
  · rcases hval w U hw with ⟨rfl, rfl⟩ | ⟨h1, h2⟩
    · exact hp
    · exact hps w U h1 h2
  · rcases hval w U hw with ⟨rfl, rfl⟩ | ⟨h1, h2⟩
    · rcases hval x V hx with ⟨rfl, rfl⟩ | ⟨h3, h4⟩
      · exact absurd rfl hne
      · exact (hsep x V h3 h4).1
    · rcases hval x V hx with ⟨rfl, rfl⟩ | ⟨h3, h4⟩
      · exact fun b hb hb' => (hsep w U h1 h2).1 b hb' hb
      · exact h.osep w x U V hne h2 h4
  · rcases hval w U hw with ⟨rfl, rfl⟩ | ⟨h1, h2⟩
    · rcases hval x V hx with ⟨rfl, rfl⟩ | ⟨h3, h4⟩
      · exact absurd rfl hne
      · exact (hsep x V h3 h4).2
    · rcases hval x V hx with ⟨rfl, rfl⟩ | ⟨h3, h4⟩
      · exact fun b hb hb' => (hsep w U h1 h2).2 b hb' hb
      · exact h.nsep w x U V hne h2 h4

/-- A trie is not used anymore. -/
theorem CTm.forget (hc : CfgOk c) (h : CTm c s a tm) (v : Nat) : ∃ tm', CTm c s (a.forget v) tm' := by
  classical
  let keepB : Nat → Prop := fun b => ∃ w T, w ≠ v ∧ a.val w = some T ∧ T.Obj b
  let keepN : Nat → Prop := fun p => ∃ w T, w ≠ v ∧ a.val w = some T ∧ T.Has p
  have hval : ∀ w U, (a.forget v).val w = some U ↔ w ≠ v ∧ a.val w = some U := fun w U => by
    simp only [Ab.forget]
    by_cases e : w = v
    · subst e; simp
    · simp [upd_ne e, e]
  let tm' : TMem := { tm with
    csize := fun b => if keepB b then tm.csize b else 0
    heap := { tm.heap with valid := fun p => decide (keepN p) } }
  have hcs : ∀ b, keepB b → tm'.csize b = tm.csize b := fun b hb => if_pos hb
  have hcs0 : ∀ b, tm'.csize b ≠ 0 → keepB b ∧ tm.csize b ≠ 0 := fun b hb => by
    by_cases hk : keepB b
    · rw [hcs b hk] at hb; exact ⟨hk, hb⟩
    · exact absurd (if_neg hk) hb
  refine ⟨tm', ?_, fun b => ?_, fun p => ?_, fun w U hw => ?_, fun w U hw => ?_, fun w U hw => ?_, fun w x U V hne hw hx => ?_,
    fun w x U V hne hw hx => ?_⟩
  · refine h.mrel.restrict (fun b hb => ⟨hcs b (hcs0 b hb).1, ?_⟩) rfl (fun p hp => ?_) ⟨rfl, rfl, rfl, rfl⟩
    · obtain ⟨w, T, hne, hw, hb' | hb'⟩ := (hcs0 b hb).1
      · subst hb'
        rw [extOf_base hw, extOf_base ((hval w T).2 ⟨hne, hw⟩)]
      · rw [h.ext_owned hw hb']
        unfold extOf
        refine if_neg ?_
        rintro ⟨x, U, hx, e⟩
        exact h.not_base hw ((hval x U).1 hx).2 hb' e
    · obtain ⟨w, T, hne, hw, hp⟩ : keepN p := by simpa [tm'] using hp
      exact (h.node p).2 ⟨w, T, hw, hp⟩
  · constructor
    · intro hb
      obtain ⟨⟨w, T, hne, hw, hb⟩, _⟩ := hcs0 b hb
      exact ⟨w, T, (hval w T).2 ⟨hne, hw⟩, hb⟩
    · rintro ⟨w, T, hw, hb⟩
      obtain ⟨hne, hw⟩ := (hval w T).1 hw
      rw [hcs b ⟨w, T, hne, hw, hb⟩]
      exact (h.obj b).2 ⟨w, T, hw, hb⟩
  · simp only [tm', decide_eq_true_eq, keepN, hval, and_assoc]
  · exact h.var w U ((hval w U).1 hw).2
  · obtain ⟨hne, hw⟩ := (hval w U).1 hw
    refine (h.trie w U hw).same hc (fun e he => ⟨fun ho => ⟨ho.1, ?_⟩, rfl, rfl, rfl, rfl⟩) fun b hb => ⟨hcs b ⟨w, U, hne, hw, ?_⟩, fun _ _ => rfl⟩
    · simp only [tm', decide_eq_true_eq]
      exact ⟨w, U, hne, hw, e, he, rfl⟩
    · rw [(h.var w U hw).1] at hb; exact hb
  · exact h.pool w U ((hval w U).1 hw).2
  · exact h.osep w x U V hne ((hval w U).1 hw).2 ((hval x V).1 hx).2
  · exact h.nsep w x U V hne ((hval w U).1 hw).2 ((hval x V).1 hx).2

end FlatSpec
end Tommy
