import Verif.Proof.TrieCore
/-! Search and removal in a trie. -/
set_option linter.unusedSimpArgs false
set_option linter.unusedVariables false
namespace Tommy

variable [Arch]
namespace TrieSpec
open HashSpec (Elem ERep SameNode)

variable {c : TrieCfg}

theorem bucket_run (hc : CfgOk c) {m : TMem} (key : Nat) : ∀ (t : TT) (n pre s : Nat) (p : Ptr),
    TRep c m t n pre p → (∀ n', n = n' + 1 → s = c.treeBit * n') → c.treeBit * n ≤ sizeBit →
    ∃ q, trieBucketLoop c p s key m = some (q, m) ∧
      ERep m.heap q ((t.elems c.treeMax).filter fun e => e.hash = key) := by
  intro t
  induction t with
  | nil =>
    intro n pre s p hr _ _
    have : p = 0 := hr
    subst this
    exact ⟨0, by rw [trieBucketLoop]; simp, by simpa [TT.elems] using ERep.nil _⟩
  | leaf L =>
    intro n pre s p hr _ _
    obtain ⟨p0, pev, pok, e, M, hL, pe⟩ := hr.leaf_ptr
    obtain ⟨_, er, lev, k, hk, hh⟩ := id hr
    have hidx : onN (getIndex p) m = some (k, m) := by
      rw [onN_run (getIndex_run pok)]
      have : m.heap.index p = k := by rw [pe, er.index e (by simp [hL])]; exact hh e (by simp [hL])
      rw [this]
    have unf : trieBucketLoop c p s key m = some (if k = key then p else 0, m) := by
      rw [trieBucketLoop]
      simp only [run_bind, Option.bind_some, p0, if_false, run_ite, not_isTree pev, hidx]
      by_cases h : k = key <;> simp [h]
    refine ⟨_, unf, ?_⟩
    rw [elems_leaf]
    by_cases h : k = key
    · rw [if_pos h]
      have : L.filter (fun e => e.hash = key) = L := by
        rw [List.filter_eq_self]; intro f hf; simp [hh f hf, h]
      rw [this]; exact er
    · rw [if_neg h]
      have : L.filter (fun e => e.hash = key) = [] := by
        rw [List.filter_eq_nil_iff]; intro f hf; simp [hh f hf, h]
      rw [this]; exact ERep.nil _
  | node b ch ih =>
    intro n pre s p hr hsh hsmall
    obtain ⟨h1, h2, h3, h4, n', rfl, h⟩ := hr
    have hs : s = c.treeBit * n' := hsh n' rfl
    have hsm : c.treeBit * n' < sizeBit := by
      have := hc.bit_pos; rw [Nat.mul_add] at *; omega
    have dx := dig_lt hc n' key
    have unf : trieBucketLoop c p s key m = trieBucketLoop c (m.cell b (dig c n' key)) (sub32 s c.treeBit) key m := by
      rw [trieBucketLoop]
      simp only [run_bind, Option.bind_some, h1, if_false, run_ite, isTree_succ h2, if_true,
        hs, slot_run hc _ hsm, trieGetTree, Nat.add_sub_cancel, Nat.add_one_ne_zero]
      rw [cellGet_run (by simp only; rw [h3]; exact dx)]
      rfl
    rw [unf, filter_node hc b (TRep.dig hc h) key]
    refine ih _ n' _ _ _ (h _ dx) ?_ (by have := hc.bit_pos; rw [Nat.mul_add] at *; omega)
    rintro n rfl
    rw [hs]; exact sub32_eq hc hsm

/-! ### Removal -/

/-- The element `e` was removed from the trie `t` at the cell `l`, and the blocks `F` were freed. -/
structure RemRes (c : TrieCfg) (m m' : TMem) (l : Loc) (n pre : Nat) (t t' : TT) (e : Elem)
    (F : List Ptr) : Prop where
  rep : TRep c m' t' n pre (m'.cell l.base l.idx)
  elems : ∀ k, (t'.elems c.treeMax).filter (fun e => e.hash = k) =
    ((t.elems c.treeMax).filter (fun f => f.node ≠ e.node)).filter (fun e => e.hash = k)
  blocks : (t.blocks c.treeMax).Perm (t'.blocks c.treeMax ++ F)
  supply : m'.supply = m.supply
  freed : m'.freed = m.freed ++ F
  fr : TFr m m' (fun q => ∃ f ∈ t.elems c.treeMax, f.hash = e.hash ∧ f.node = q)
    (fun b => b ∈ t.blocks c.treeMax) l

/-- What is needed to remove the key `key` from the trie `t` in the cell `l`. -/
structure RemPre (c : TrieCfg) (m : TMem) (l : Loc) (n pre s : Nat) (t : TT) (key : Nat) (back : List Loc) :
    Prop where
  nodup : ((t.elems c.treeMax).map Elem.node).Nodup
  bnodup : (t.blocks c.treeMax).Nodup
  base : l.base ∉ t.blocks c.treeMax
  loc : l.idx < m.csize l.base
  shift : ∀ n', n = n' + 1 → s = c.treeBit * n'
  small : c.treeBit * n ≤ sizeBit
  back : back.length + n ≤ c.levelMax + 1

/-- `b` is a block with the children `ch`. -/
def Kids (c : TrieCfg) (m : TMem) (b : Ptr) (ch : Nat → TT) (n pre : Nat) : Prop :=
  ∀ i, i < c.treeMax → TRep c m (ch i) n (pre * c.treeMax + i) (m.cell b i)

/-- The state of the scan of a block after `i` cells. -/
def Scanned (ch : Nat → TT) (i count last : Nat) : Prop :=
  (count = 0 ∧ ∀ j, j < i → ch j = .nil) ∨
  (count = 1 ∧ last < i ∧ (∃ L, ch last = .leaf L) ∧ ∀ j, j < i → j ≠ last → ch j = .nil)

omit [Arch] in
theorem scan_run {m : TMem} {b : Ptr} {ch : Nat → TT} {n pre : Nat} (hsz : m.csize b = c.treeMax)
    (h : Kids c m b ch n pre) : ∀ k i count last, i + k = c.treeMax → Scanned ch i count last →
    (trieScan b i count last k m = some (none, m) ∧ Fat c.treeMax ch) ∨
    ∃ cnt la, trieScan b i count last k m = some (some (cnt, la), m) ∧ Scanned ch c.treeMax cnt la := by
  intro k
  induction k with
  | zero =>
    intro i count last hik hS
    obtain rfl : i = c.treeMax := by omega
    exact Or.inr ⟨count, last, rfl, hS⟩
  | succ k ih =>
    intro i count last hik hS
    have hi : i < c.treeMax := by omega
    have hr := h i hi
    have hget : cellGet ⟨b, i⟩ m = some (m.cell b i, m) := cellGet_run (by simp only; rw [hsz]; exact hi)
    simp only [trieScan, run_bind, hget, Option.bind_some, run_ite]
    cases ht : ch i with
    | nil =>
      rw [ht] at hr
      have h0 : m.cell b i = 0 := hr
      rw [if_neg (by simp [h0])]
      refine ih (i + 1) count last (by omega) ?_
      rcases hS with ⟨a, hn⟩ | ⟨a, hl, hL, hn⟩
      · refine Or.inl ⟨a, fun j hj => ?_⟩
        by_cases hji : j = i
        · rw [hji, ht]
        · exact hn j (by omega)
      · refine Or.inr ⟨a, by omega, hL, fun j hj hjl => ?_⟩
        by_cases hji : j = i
        · rw [hji, ht]
        · exact hn j (by omega) hjl
    | leaf L =>
      rw [ht] at hr
      obtain ⟨p0, pev, _⟩ := hr.leaf_ptr
      rw [if_pos p0, if_neg (not_isTree pev)]
      rcases hS with ⟨a, hn⟩ | ⟨a, hl, ⟨L', hL⟩, hn⟩
      · rw [if_neg (by omega)]
        refine ih (i + 1) (count + 1) i (by omega) (Or.inr ⟨by omega, by omega, ⟨L, ht⟩, fun j hj hjl => hn j (by omega)⟩)
      · rw [if_pos (by omega)]
        exact Or.inl ⟨rfl, Or.inr ⟨last, i, hl, hi, by simp [hL], by simp [ht]⟩⟩
    | node d ch' =>
      rw [ht] at hr
      have h1 : m.cell b i = d + 1 := hr.1
      have h2 : d % 2 = 0 := hr.2.1
      rw [h1, if_pos (by simp), if_pos (isTree_succ h2)]
      exact Or.inl ⟨rfl, Or.inl ⟨i, hi, by rw [ht]; trivial⟩⟩

omit [Arch] in
theorem Scanned.fat {M : Nat} {ch : Nat → TT} {count last : Nat} (h : Scanned ch M count last) : ¬ Fat M ch := by
  rcases h with ⟨_, hn⟩ | ⟨_, hl, ⟨L, hL⟩, hn⟩
  · rintro (⟨i, hi, h⟩ | ⟨i, j, hij, hj, h, _⟩)
    · rw [hn i hi] at h; exact h
    · exact h (hn i (by omega))
  · rintro (⟨i, hi, h⟩ | ⟨i, j, hij, hj, h, h'⟩)
    · by_cases hil : i = last
      · rw [hil, hL] at h; exact h
      · rw [hn i hi hil] at h; exact h
    · have a : i = last := by
        by_contra hx; exact h (hn i (by omega) hx)
      have b : j = last := by
        by_contra hx; exact h' (hn j hj hx)
      omega

omit [Arch] in
/-- After a removal in the child `i` there is something else in the block. -/
theorem Scanned.one {M : Nat} {ch : Nat → TT} {t : TT} {i count last : Nat} (hi : i < M) (hf : Fat M ch)
    (ht : (ch i).isNode → t ≠ .nil) (h : Scanned (upd ch i t) M count last) :
    count = 1 ∧ last < M ∧ (∃ L, upd ch i t last = .leaf L) ∧ ∀ j, j < M → j ≠ last → upd ch i t j = .nil := by
  rcases h with ⟨_, hn⟩ | h
  · exfalso
    have out : ∀ j, j < M → j ≠ i → ch j = .nil := fun j hj hji => by
      have := hn j hj; rwa [upd_ne hji] at this
    have tn : t = .nil := by have := hn i hi; rwa [upd_same] at this
    rcases hf with ⟨j, hj, h⟩ | ⟨j, k, hjk, hk, h, h'⟩
    · by_cases hji : j = i
      · subst hji; exact ht h tn
      · rw [out j hj hji] at h; exact h
    · by_cases hji : j = i
      · exact h' (out k hk (by omega))
      · exact h (out j (by omega) hji)
  · exact h

/-- The node chosen for the removal is `e`. -/
def Picks (c : TrieCfg) (t : TT) (rm key : Nat) (e : Elem) : Prop :=
  e ∈ t.elems c.treeMax ∧ e.hash = key ∧ (rm = e.node ∨
    rm = 0 ∧ ((t.elems c.treeMax).filter fun f => f.hash = key).head? = some e)

/-- How the removal in a cell continues: it ends, or the block above is considered. -/
def Goes (c : TrieCfg) (nc : Nat) (back : List Loc) (x : Ptr) (t t' : TT) (m' : TMem)
    (r : Option ((Nat × Ptr) × TMem)) : Prop :=
  (r = some ((nc, x), m') ∧ t' ≠ .nil ∧ (t.isNode → t'.isNode)) ∨
  (r = (do let k ← trieReduce c nc back; return (k, x)) m' ∧ ¬ t'.isNode ∧ (t.isNode → t' ≠ .nil))

theorem remove_run (hc : CfgOk c) {rm key : Nat} {e : Elem} :
    ∀ (t : TT) (n : Nat) (m : TMem) (l : Loc) (pre s nc : Nat) (back : List Loc),
    TRep c m t n pre (m.cell l.base l.idx) → RemPre c m l n pre s t key back → Picks c t rm key e →
    (t.blocks c.treeMax).length ≤ nc →
    ∃ m' t' F, RemRes c m m' l n pre t t' e F ∧
      Goes c (nc - F.length) back e.node t t' m' (trieBucketRemoveExisting c nc s l rm key back m) := by
  intro t
  induction t with
  | nil => intro n m l pre s nc back hr hp hk; exact absurd hk.1 (by simp [TT.elems])
  | leaf L =>
    intro n m l pre s nc back hr hp hk hnc
    obtain ⟨p0, pev, pok, e0, M, hL, pe⟩ := hr.leaf_ptr
    obtain ⟨_, er, lev, k, hk1, hh⟩ := id hr
    obtain ⟨heL, hek, hpick⟩ := hk
    rw [elems_leaf] at heL hpick
    have kk : k = key := (hh e heL).symm.trans hek
    subst kk
    have fL : L.filter (fun f => f.hash = k) = L := by
      rw [List.filter_eq_self]; intro f hf; simp [hh f hf]
    have eok := er.ok heL
    have pick : triePick (m.cell l.base l.idx) rm k m = some (e.node, m) := by
      rcases hpick with rfl | ⟨rfl, hf⟩
      · simp [triePick, eok.1]
      · have : e = e0 := by
          rw [fL, hL] at hf; simpa using hf.symm
        subst this
        have hix : m.heap.index (m.cell l.base l.idx) = k := by
          rw [pe, er.index e heL]; exact hek
        simp only [triePick, if_true, run_ite, run_bind, onN_run (getIndex_run pok), Option.bind_some, hix]
        simp [pe]
    obtain ⟨as, bs, hab⟩ := List.append_of_mem heL
    have il : IsList m.heap (m.cell l.base l.idx) (as.map Elem.node ++ e.node :: bs.map Elem.node) := by
      have := er.list; rw [hab] at this; simpa using this
    obtain ⟨l', h', e1, il', hd', fr⟩ := listRemoveExisting_spec il
    let m2 : TMem := { m with heap := h', cell := upd m.cell l.base (upd (m.cell l.base) l.idx l') }
    have c2 : m2.cell l.base l.idx = l' := by
      show upd m.cell l.base _ l.base l.idx = l'
      rw [upd_same, upd_same]
    have unf : trieBucketRemoveExisting c nc s l rm k back m =
        (if l' ≠ 0 then pure (nc, e.node) else do let a ← trieReduce c nc back; return (a, e.node)) m2 := by
      rw [trieBucketRemoveExisting]
      simp only [run_bind, cellGet_run hp.loc, Option.bind_some, p0, if_false, run_ite, not_isTree pev, pick, eok.1,
        onN_run e1]
      rw [cellSet_run (m := { m with heap := h' }) l' hp.loc]
      simp only [Option.bind_some]
      rw [show ({ m with heap := h', cell := upd m.cell l.base (upd (m.cell l.base) l.idx l') } : TMem) = m2 from rfl,
        cellGet_run (m := m2) hp.loc, c2]
      rfl
    have nodupL : (L.map Elem.node).Nodup := hp.nodup
    have filt : L.filter (fun f => f.node ≠ e.node) = as ++ bs := by
      rw [hab] at nodupL ⊢
      simp only [List.map_append, List.map_cons, List.nodup_append, List.nodup_cons] at nodupL
      rw [List.filter_append, List.filter_cons]
      have h1 : as.filter (fun f => f.node ≠ e.node) = as := by
        rw [List.filter_eq_self]; intro f hf
        have := nodupL.2.2 f.node (List.mem_map_of_mem hf) e.node (by simp)
        simpa using this
      have h2 : bs.filter (fun f => f.node ≠ e.node) = bs := by
        rw [List.filter_eq_self]; intro f hf
        have : f.node ≠ e.node := fun h => nodupL.2.1.1 (h ▸ List.mem_map_of_mem hf)
        simpa using this
      rw [h1, h2]; simp
    have frm : TFr m m2 (fun q => ∃ f ∈ (TT.leaf L).elems c.treeMax, f.hash = e.hash ∧ f.node = q)
        (fun b => b ∈ (TT.leaf L).blocks c.treeMax) l := by
      refine ((same_of_frame fr hd' l _).mono ?_ (fun q h => h)).trans
        (tfr_cell (m := { m with heap := h' }) l l')
      intro q hq
      rw [show as.map Elem.node ++ e.node :: bs.map Elem.node = L.map Elem.node by rw [hab]; simp] at hq
      obtain ⟨f, hf, rfl⟩ := List.mem_map.1 hq
      exact ⟨f, hf, by rw [hh f hf, hek], rfl⟩
    have sub : ∀ f ∈ as ++ bs, f ∈ L := by
      intro f hf; rw [hab]; simp at hf ⊢; tauto
    by_cases hz : as ++ bs = []
    · have l0 : l' = 0 := by
        rw [il'.head]
        have : as.map Elem.node ++ bs.map Elem.node = [] := by rw [← List.map_append, hz]; rfl
        rw [this]; rfl
      refine ⟨m2, .nil, [], ⟨by rw [c2]; exact l0, ?_, by simp [TT.blocks], rfl, by simp [m2], frm⟩, Or.inr ⟨?_, fun h => h, fun h => h.elim⟩⟩
      · intro y; rw [elems_leaf, filt, hz]; rfl
      · rw [unf, if_neg (by simp [l0])]; rfl
    · have l0 : l' ≠ 0 := by
        intro h0
        apply hz
        have : as.map Elem.node ++ bs.map Elem.node = [] := (il'.eq_zero_iff).1 h0
        rw [← List.map_append] at this
        exact List.map_eq_nil_iff.1 this
      refine ⟨m2, .leaf (as ++ bs), [], ⟨?_, ?_, by simp [TT.blocks], rfl, by simp [m2], frm⟩, Or.inl ⟨?_, by simp, fun h => h.elim⟩⟩
      · rw [c2]
        refine ⟨hz, ⟨by simpa using il', fun f hf => ?_, fun f hf => ?_⟩, fun f hf => lev f (sub f hf), k, hk1,
          fun f hf => hh f (sub f hf)⟩
        · show h'.data _ = _
          rw [hd']; exact er.data f (sub f hf)
        · show h'.index _ = _
          rw [fr.index]; exact er.index f (sub f hf)
      · intro y; rw [elems_leaf, elems_leaf, filt]
      · rw [unf, if_pos l0]; rfl
  | node b ch ih =>
    intro n m l pre s nc back hr hp hk hnc
    obtain ⟨h1, h2, h3, h4, n', rfl, h⟩ := hr
    obtain ⟨heL, hek, hpick⟩ := hk
    have hs : s = c.treeBit * n' := hp.shift n' rfl
    have hsm : c.treeBit * n' < sizeBit := by
      have := hp.small; have := hc.bit_pos; rw [Nat.mul_add] at *; omega
    have dx := dig_lt hc n' key
    have hback := hp.back
    have unf : trieBucketRemoveExisting c nc s l rm key back m =
        trieBucketRemoveExisting c nc (sub32 s c.treeBit) ⟨b, dig c n' key⟩ rm key (l :: back) m := by
      rw [trieBucketRemoveExisting]
      simp only [run_bind, cellGet_run hp.loc, Option.bind_some, h1, if_false, run_ite, isTree_succ h2, if_true,
        hs, slot_run hc _ hsm, trieGetTree, Nat.add_sub_cancel, Nat.add_one_ne_zero,
        assertT_run (show back.length < c.levelMax + 1 by omega)]
    rw [unf]
    have fk := filter_node hc b (TRep.dig hc h) key
    have pk : Picks c (ch (dig c n' key)) rm key e := by
      refine ⟨?_, hek, ?_⟩
      · have : e ∈ ((TT.node b ch).elems c.treeMax).filter (fun f => f.hash = key) :=
          List.mem_filter.2 ⟨heL, by simp [hek]⟩
        rw [fk] at this
        exact (List.mem_filter.1 this).1
      · rw [fk] at hpick; exact hpick
    have ip : RemPre c m ⟨b, dig c n' key⟩ n' (pre * c.treeMax + dig c n' key) (sub32 s c.treeBit)
        (ch (dig c n' key)) key (l :: back) := by
      have hsml := hp.small
      refine ⟨child_nodup dx hp.nodup, child_bnodup dx hp.bnodup, child_root dx hp.bnodup,
        by simp only; rw [h3]; exact dx, ?_, by rw [Nat.mul_add] at hsml; omega, by simp; omega⟩
      rintro n rfl
      rw [hs]; exact sub32_eq hc hsm
    obtain ⟨A, B, eb⟩ := blocks_upd (M := c.treeMax) dx b ch
    have e0 := eb (ch (dig c n' key))
    rw [upd_self] at e0
    have hnc1 : ((ch (dig c n' key)).blocks c.treeMax).length + 1 ≤ nc := by
      rw [e0] at hnc; simp at hnc; omega
    obtain ⟨m1, t1, F, R, hgo⟩ := ih _ n' m ⟨b, dig c n' key⟩ _ _ nc (l :: back) (h _ dx) ip pk (Nat.le_of_succ_le hnc1)
    have hF : F.length + 1 ≤ nc := by
      have := R.blocks.length_eq; simp at this; omega
    have child := siblings (m' := m1) dx h hp.nodup hp.bnodup R.fr
      (by rintro q ⟨f, hf, _, rfl⟩; exact Or.inl (List.mem_map_of_mem hf))
      (by intro d hd; exact Or.inl hd) R.rep
    have bB : ¬ (b ∈ (ch (dig c n' key)).blocks c.treeMax) := child_root dx hp.bnodup
    have lB : ¬ (l.base ∈ (ch (dig c n' key)).blocks c.treeMax) := fun hd => hp.base (mem_child_blocks dx hd)
    have lb : l.base ≠ b := fun h => hp.base (by simp [TT.blocks, h])
    have cl : m1.cell l.base l.idx = b + 1 := by
      rw [R.fr.cell l.base l.idx lB (fun h => lb h.1), h1]
    have sz1 : m1.csize b = c.treeMax := by rw [R.fr.size b bB, h3]
    have szl : l.idx < m1.csize l.base := by rw [R.fr.size l.base lB]; exact hp.loc
    have filt : ∀ y, ((TT.node b (upd ch (dig c n' key) t1)).elems c.treeMax).filter (fun e => e.hash = y) =
        (((TT.node b ch).elems c.treeMax).filter (fun f => f.node ≠ e.node)).filter (fun e => e.hash = y) := by
      intro y
      have sw : ∀ X : List Elem, (X.filter (fun f => f.node ≠ e.node)).filter (fun e => e.hash = y) =
          (X.filter (fun e => e.hash = y)).filter (fun f => f.node ≠ e.node) := by
        intro X; rw [List.filter_filter, List.filter_filter]; congr 1; funext f; exact Bool.and_comm _ _
      rw [filter_node hc b (TRep.dig hc child) y, sw, filter_node hc b (TRep.dig hc h) y]
      by_cases hy : dig c n' y = dig c n' key
      · rw [hy, upd_same, R.elems, sw]
      · rw [upd_ne hy, eq_comm, List.filter_eq_self]
        intro f hf
        have hf := (List.mem_filter.1 hf).1
        have : f.node ≠ e.node := by
          intro hx
          exact child_disj (dig_lt hc n' y) dx hy hp.nodup (List.mem_map_of_mem hf)
            (hx ▸ List.mem_map_of_mem pk.1)
        simpa using this
    have perm1 : ((TT.node b ch).blocks c.treeMax).Perm
        ((TT.node b (upd ch (dig c n' key) t1)).blocks c.treeMax ++ F) := by
      rw [e0, eb t1, List.cons_append]
      refine List.Perm.cons _ ?_
      refine ((R.blocks.append_left A).append_right B).trans ?_
      simp only [List.append_assoc]
      exact (List.perm_append_comm.append_left _).append_left _
    have fr1 : TFr m m1 (fun q => ∃ f ∈ (TT.node b ch).elems c.treeMax, f.hash = e.hash ∧ f.node = q)
        (fun d => d ∈ (TT.node b ch).blocks c.treeMax) l := by
      refine (R.fr.mono ?_ ?_).inner ?_
      · rintro q ⟨f, hf, hh, rfl⟩; exact ⟨f, mem_child_elems dx hf, hh, rfl⟩
      · intro d hd; exact mem_child_blocks dx hd
      · simp [TT.blocks]
    have keep : Fat c.treeMax (upd ch (dig c n' key) t1) →
        RemRes c m m1 l (n' + 1) pre (.node b ch) (.node b (upd ch (dig c n' key) t1)) e F := fun hf =>
      ⟨⟨cl, h2, sz1, hf, n', rfl, child⟩, filt, perm1, R.supply, R.freed, fr1⟩
    rcases hgo with ⟨hrun, tn, tnode⟩ | ⟨hrun, tnn, tnil⟩
    · exact ⟨m1, _, F, keep (h4.upd tn tnode), Or.inl ⟨hrun, by simp, fun _ => trivial⟩⟩
    · have red : trieReduce c (nc - F.length) (l :: back) m1 =
          (trieScan b 0 0 0 c.treeMax m1).bind fun r => (match r.1 with
            | none => pure (nc - F.length)
            | some (count, last) => (do
              assertT (count = 1)
              let q ← cellGet ⟨b, last⟩
              cellSet l q
              blockFree b
              trieReduce c (decT (nc - F.length)) back : TM Nat)) r.2 := by
        simp only [trieReduce, run_bind, cellGet_run szl, Option.bind_some, cl, trieGetTree, Nat.add_sub_cancel]
        rfl
      rcases scan_run sz1 child c.treeMax 0 0 0 (by omega) (Or.inl ⟨rfl, by omega⟩) with
        ⟨hsc, hfat⟩ | ⟨cnt, la, hsc, hS⟩
      · refine ⟨m1, _, F, keep hfat, Or.inl ⟨?_, by simp, fun _ => trivial⟩⟩
        rw [hrun]
        simp only [run_bind, red, hsc, Option.bind_some, run_pure]
      · obtain ⟨rfl, hla, ⟨L, hL⟩, hoth⟩ := hS.one dx h4 tnil
        let m2 : TMem := { m1 with
          cell := upd m1.cell l.base (upd (m1.cell l.base) l.idx (m1.cell b la))
          csize := upd m1.csize b 0
          freed := m1.freed ++ [b] }
        have run2 : trieReduce c (nc - F.length) (l :: back) m1 = trieReduce c (nc - (F.length + 1)) back m2 := by
          have d64 : decT (nc - F.length) = nc - (F.length + 1) := by
            unfold decT; rw [if_neg (by omega)]; omega
          rw [red, hsc]
          simp only [Option.bind_some, run_bind, assertT_run]
          rw [cellGet_run (by simp only; rw [sz1]; exact hla)]
          simp only [Option.bind_some]
          rw [cellSet_run _ szl]
          simp only [Option.bind_some]
          rw [blockFree_run (by show m1.csize b ≠ 0; rw [sz1]; have := hc.max_pos; omega)]
          simp only [Option.bind_some, d64]
          rfl
        have rl := child la hla
        rw [hL] at rl
        have hrep2 : TRep c m2 (.leaf L) (n' + 1) pre (m2.cell l.base l.idx) := by
          have : m2.cell l.base l.idx = m1.cell b la := by
            show upd m1.cell l.base _ l.base l.idx = _
            rw [upd_same, upd_same]
          rw [this]
          obtain ⟨q1, q2, q3, k, q4, q5⟩ := rl
          exact ⟨q1, q2, q3, k, (shift_div hc hla q4).1, q5⟩
        have hel : ∀ j, j < c.treeMax → j ≠ la → (upd ch (dig c n' key) t1 j).elems c.treeMax = [] :=
          fun j hj hjl => by rw [hoth j hj hjl]; rfl
        refine ⟨m2, .leaf L, F ++ [b], ⟨hrep2, ?_, ?_, R.supply, ?_, ?_⟩, Or.inr ⟨?_, fun h => h, fun _ => by simp⟩⟩
        · intro y
          have := filter_flatMap_one (fun e : Elem => decide (e.hash = y))
            (fun j => (upd ch (dig c n' key) t1 j).elems c.treeMax) hla
            (fun j hj hjl => by show ((upd ch (dig c n' key) t1 j).elems c.treeMax).filter _ = []; rw [hel j hj hjl]; rfl)
          rw [hL] at this
          rw [← filt y]
          exact this.symm
        · refine perm1.trans ?_
          have : (TT.node b (upd ch (dig c n' key) t1)).blocks c.treeMax = [b] :=
            blocks_empty (fun j hj => by
              by_cases hjl : j = la
              · rw [hjl, hL]; rfl
              · rw [hoth j hj hjl]; rfl) b
          rw [this, blocks_leaf]
          simpa using (List.perm_append_comm (l₁ := [b]) (l₂ := F))
        · show m1.freed ++ [b] = _
          rw [R.freed, List.append_assoc]
        · refine fr1.trans ?_
          refine ⟨fun q _ => HashSpec.SameNode.refl _ q, rfl, fun _ => rfl, fun _ => rfl, fun d i hd hl => ?_, fun d hd => ?_⟩
          · exact (tfr_cell (N := fun _ => False) (B := fun _ => False) (m := m1) l (m1.cell b la)).cell d i (fun h => h) hl
          · exact upd_ne fun hdb => hd (by simp [TT.blocks, hdb])
        · rw [hrun]
          simp only [run_bind, run2, List.length_append, List.length_singleton]

/-- No element with the key. -/
theorem remove_none_run (hc : CfgOk c) {key : Nat} :
    ∀ (t : TT) (n : Nat) (m : TMem) (l : Loc) (pre s nc : Nat) (back : List Loc),
    TRep c m t n pre (m.cell l.base l.idx) → RemPre c m l n pre s t key back →
    (t.elems c.treeMax).filter (fun f => f.hash = key) = [] →
    trieBucketRemoveExisting c nc s l 0 key back m = some ((nc, 0), m) := by
  intro t
  induction t with
  | nil =>
    intro n m l pre s nc back hr hp _
    have h0 : m.cell l.base l.idx = 0 := hr
    rw [trieBucketRemoveExisting]
    simp only [run_bind, cellGet_run hp.loc, Option.bind_some, h0, if_true, run_ite, run_pure]
  | leaf L =>
    intro n m l pre s nc back hr hp hf
    obtain ⟨p0, pev, pok, e0, M, hL, pe⟩ := hr.leaf_ptr
    obtain ⟨_, er, lev, k, hk1, hh⟩ := id hr
    have hix : m.heap.index (m.cell l.base l.idx) = k := by
      rw [pe, er.index e0 (by simp [hL])]; exact hh e0 (by simp [hL])
    have hne : k ≠ key := by
      rw [elems_leaf, List.filter_eq_nil_iff] at hf
      have := hf e0 (by simp [hL])
      rw [hh e0 (by simp [hL])] at this
      simpa using this
    have pick : triePick (m.cell l.base l.idx) 0 key m = some (0, m) := by
      simp only [triePick, if_true, run_ite, run_bind, onN_run (getIndex_run pok), Option.bind_some, hix]
      simp [hne]
    rw [trieBucketRemoveExisting]
    simp only [run_bind, cellGet_run hp.loc, Option.bind_some, p0, if_false, run_ite, not_isTree pev, pick, if_true,
      run_pure]
  | node b ch ih =>
    intro n m l pre s nc back hr hp hf
    obtain ⟨h1, h2, h3, h4, n', rfl, h⟩ := hr
    have hs : s = c.treeBit * n' := hp.shift n' rfl
    have hsm : c.treeBit * n' < sizeBit := by
      have := hp.small; have := hc.bit_pos; rw [Nat.mul_add] at *; omega
    have dx := dig_lt hc n' key
    have hback := hp.back
    rw [trieBucketRemoveExisting]
    simp only [run_bind, cellGet_run hp.loc, Option.bind_some, h1, if_false, run_ite, isTree_succ h2, if_true,
      hs, slot_run hc _ hsm, trieGetTree, Nat.add_sub_cancel, Nat.add_one_ne_zero,
      assertT_run (show back.length < c.levelMax + 1 by omega)]
    rw [filter_node hc b (TRep.dig hc h) key] at hf
    refine ih _ n' m ⟨b, dig c n' key⟩ (pre * c.treeMax + dig c n' key) _ nc (l :: back) (h _ dx) ?_ hf
    have hsml := hp.small
    refine ⟨child_nodup dx hp.nodup, child_bnodup dx hp.bnodup, child_root dx hp.bnodup,
      by simp only; rw [h3]; exact dx, ?_, by rw [Nat.mul_add] at hsml; omega, by simp; omega⟩
    rintro n rfl
    exact sub32_eq hc hsm

end TrieSpec
end Tommy
