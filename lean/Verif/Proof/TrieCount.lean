import Verif.Spec.TrieCount
import Verif.Proof.Trie
import Mathlib.Algebra.BigOperators.Group.Finset.Sigma
/-! The number of blocks of a trie depends only on the set of the keys. -/
set_option linter.unusedSimpArgs false
set_option linter.unusedVariables false
namespace Tommy

variable [Arch]
namespace TrieSpec
open HashSpec (Elem)

variable {c : TrieCfg}

omit [Arch] in
theorem mem_crowded {K : Finset Nat} {s x : Nat} :
    x ∈ crowded K s ↔ ∃ k ∈ K, ∃ k' ∈ K, k' ≠ k ∧ k' >>> s = x ∧ k >>> s = x := by
  simp only [crowded, Finset.mem_image, Finset.mem_filter]
  constructor
  · rintro ⟨k, ⟨hk, k', hk', hne, he⟩, rfl⟩; exact ⟨k, hk, k', hk', hne, he, rfl⟩
  · rintro ⟨k, hk, k', hk', hne, he, he'⟩; exact ⟨k, ⟨hk, k', hk', hne, he.trans he'.symm⟩, he'⟩

omit [Arch] in
theorem mem_keySet {es : List Elem} {k : Nat} : k ∈ keySet es ↔ ∃ e ∈ es, e.hash = k := by
  simp [keySet]

omit [Arch] in
theorem keySet_perm {A B : List Elem} (h : A.Perm B) : keySet A = keySet B := by
  ext k; simp only [mem_keySet, h.mem_iff]

omit [Arch] in
/-- The crowded prefixes of the union of separated sets. -/
theorem crowded_union {M s : Nat} (f : Nat → List Elem)
    (h : ∀ i, i < M → ∀ j, j < M → ∀ x ∈ f i, ∀ y ∈ f j, x.hash >>> s = y.hash >>> s → i = j) :
    (crowded (keySet ((List.range M).flatMap f)) s).card = ∑ i ∈ Finset.range M, (crowded (keySet (f i)) s).card := by
  have e : crowded (keySet ((List.range M).flatMap f)) s =
      (Finset.range M).biUnion fun i => crowded (keySet (f i)) s := by
    ext x
    simp only [mem_crowded, Finset.mem_biUnion, Finset.mem_range, mem_keySet, List.mem_flatMap, List.mem_range]
    constructor
    · rintro ⟨_, ⟨a, ⟨i, hi, ha⟩, rfl⟩, _, ⟨b, ⟨j, hj, hb⟩, rfl⟩, hne, e1, e2⟩
      have := h i hi j hj a ha b hb (e2.trans e1.symm)
      subst this
      exact ⟨i, hi, _, ⟨a, ha, rfl⟩, _, ⟨b, hb, rfl⟩, hne, e1, e2⟩
    · rintro ⟨i, hi, _, ⟨a, ha, rfl⟩, _, ⟨b, hb, rfl⟩, hne, e1, e2⟩
      exact ⟨_, ⟨a, ⟨i, hi, ha⟩, rfl⟩, _, ⟨b, ⟨i, hi, hb⟩, rfl⟩, hne, e1, e2⟩
  rw [e, Finset.card_biUnion]
  intro i hi j hj hij
  have hi : i < M := by simpa using hi
  have hj : j < M := by simpa using hj
  rw [Function.onFun, Finset.disjoint_left]
  intro x hx hx'
  simp only [mem_crowded, mem_keySet] at hx hx'
  obtain ⟨_, ⟨a, ha, rfl⟩, _, _, _, _, e2⟩ := hx
  obtain ⟨_, ⟨b, hb, rfl⟩, _, _, _, _, e3⟩ := hx'
  exact hij (h i hi j hj a ha b hb (e2.trans e3.symm))

omit [Arch] in
theorem crowded_le_one {K : Finset Nat} {s x : Nat} (h : ∀ k ∈ K, k >>> s = x) :
    (crowded K s).card = if ∃ k ∈ K, ∃ k' ∈ K, k' ≠ k then 1 else 0 := by
  split
  · next hk =>
    obtain ⟨k, hk, k', hk', hne⟩ := hk
    have : crowded K s = {x} := by
      ext y
      rw [mem_crowded, Finset.mem_singleton]
      constructor
      · rintro ⟨k, hk, _, _, _, _, e⟩; exact e.symm.trans (h k hk)
      · rintro rfl; exact ⟨k, hk, k', hk', hne, h _ hk', h _ hk⟩
    rw [this, Finset.card_singleton]
  · next hk =>
    rw [Finset.card_eq_zero, Finset.eq_empty_iff_forall_notMem]
    intro y hy
    obtain ⟨k, h1, k', h2, hne, _⟩ := mem_crowded.1 hy
    exact hk ⟨k, h1, k', h2, hne⟩

omit [Arch] in
theorem crowded_one_key {K : Finset Nat} {k s : Nat} (h : ∀ x ∈ K, x = k) : crowded K s = ∅ := by
  rw [Finset.eq_empty_iff_forall_notMem]
  intro y hy
  obtain ⟨a, ha, b, hb, hne, _⟩ := mem_crowded.1 hy
  exact hne ((h b hb).trans (h a ha).symm)

omit [Arch] in
theorem shift_le {k k' s t : Nat} (h : k >>> s = k' >>> s) (hst : s ≤ t) : k >>> t = k' >>> t := by
  rw [← Nat.add_sub_of_le hst, Nat.shiftRight_add, Nat.shiftRight_add, h]

omit [Arch] in
theorem TRep.ne_nil {m : TMem} : ∀ {t : TT} {n pre : Nat} {p : Ptr}, TRep c m t n pre p → t ≠ .nil →
    t.elems c.treeMax ≠ [] := by
  intro t
  induction t with
  | nil => intro _ _ _ _ h; exact absurd rfl h
  | leaf L => intro n pre p h _; exact h.1
  | node b ch ih =>
    intro n pre p h _ he
    obtain ⟨_, _, _, fat, n', _, kids⟩ := h
    have he : ∀ i, i < c.treeMax → (ch i).elems c.treeMax = [] := by
      intro i hi
      have : (List.range c.treeMax).flatMap (fun i => (ch i).elems c.treeMax) = [] := he
      exact List.flatMap_eq_nil_iff.1 this i (List.mem_range.2 hi)
    rcases fat with ⟨i, hi, hn⟩ | ⟨i, j, hij, hj, hn, _⟩
    · exact ih i (kids i hi) (by intro e; rw [e] at hn; exact hn) (he i hi)
    · exact ih i (kids i (by omega)) hn (he i (by omega))

/-- A block exists only if there are two different keys. -/
theorem TRep.two_keys (hc : CfgOk c) {m : TMem} : ∀ {t : TT} {n pre : Nat} {p : Ptr}, TRep c m t n pre p → t.isNode →
    ∃ k ∈ keySet (t.elems c.treeMax), ∃ k' ∈ keySet (t.elems c.treeMax), k' ≠ k := by
  intro t
  induction t with
  | nil => intro _ _ _ _ h; exact h.elim
  | leaf L => intro _ _ _ _ h; exact h.elim
  | node b ch ih =>
    intro n pre p h _
    obtain ⟨_, _, _, fat, n', _, kids⟩ := h
    have sub : ∀ i, i < c.treeMax → ∀ e ∈ (ch i).elems c.treeMax, e ∈ (TT.node b ch).elems c.treeMax :=
      fun i hi e he => List.mem_flatMap.2 ⟨i, List.mem_range.2 hi, he⟩
    rcases fat with ⟨i, hi, hn⟩ | ⟨i, j, hij, hj, hn, hn'⟩
    · obtain ⟨k, hk, k', hk', hne⟩ := ih i (kids i hi) hn
      obtain ⟨e, he, rfl⟩ := mem_keySet.1 hk
      obtain ⟨e', he', rfl⟩ := mem_keySet.1 hk'
      exact ⟨_, mem_keySet.2 ⟨e, sub i hi e he, rfl⟩, _, mem_keySet.2 ⟨e', sub i hi e' he', rfl⟩, hne⟩
    · have hi : i < c.treeMax := by omega
      obtain ⟨e, he⟩ := List.exists_mem_of_ne_nil _ ((kids i hi).ne_nil hn)
      obtain ⟨e', he'⟩ := List.exists_mem_of_ne_nil _ ((kids j hj).ne_nil hn')
      refine ⟨_, mem_keySet.2 ⟨e, sub i hi e he, rfl⟩, _, mem_keySet.2 ⟨e', sub j hj e' he', rfl⟩, ?_⟩
      intro heq
      have h1 := TRep.dig hc kids i hi e he
      have h2 := TRep.dig hc kids j hj e' he'
      rw [heq] at h2
      omega

omit [Arch] in
theorem length_flatMap_range {β : Type} (M : Nat) (f : Nat → List β) :
    ((List.range M).flatMap f).length = ∑ i ∈ Finset.range M, (f i).length := by
  induction M with
  | zero => simp
  | succ n ih => rw [List.range_succ, List.flatMap_append, List.length_append, ih, Finset.sum_range_succ]; simp

theorem TRep.count (hc : CfgOk c) {m : TMem} : ∀ {t : TT} {n pre : Nat} {p : Ptr}, TRep c m t n pre p →
    (t.blocks c.treeMax).length =
      ∑ j ∈ Finset.range n, (crowded (keySet (t.elems c.treeMax)) (c.treeBit * (j + 1))).card := by
  intro t
  induction t with
  | nil =>
    intro n pre p _
    rw [Finset.sum_eq_zero]
    · rfl
    · intro j _
      rw [crowded_one_key (k := 0) (by intro x hx; simp [keySet, TT.elems] at hx)]; rfl
  | leaf L =>
    intro n pre p h
    obtain ⟨_, _, _, k, _, hk⟩ := h
    rw [Finset.sum_eq_zero]
    · rfl
    · intro j _
      rw [crowded_one_key (k := k) (by
        intro x hx
        obtain ⟨e, he, rfl⟩ := mem_keySet.1 hx
        exact hk e he)]; rfl
  | node b ch ih =>
    intro n pre p h
    have h0 := h
    obtain ⟨_, _, _, fat, n', rfl, kids⟩ := h
    have top := TRep.two_keys hc h0 trivial
    have hp := h0.pre hc
    rw [Finset.sum_range_succ, crowded_le_one (x := pre) (by
      intro k hk
      obtain ⟨e, he, rfl⟩ := mem_keySet.1 hk
      exact hp e he), if_pos top]
    show ((List.range c.treeMax).flatMap fun i => (ch i).blocks c.treeMax).length + 1 = _
    rw [length_flatMap_range]
    congr 1
    rw [Finset.sum_congr rfl fun i hi => ih i (kids i (Finset.mem_range.1 hi)), Finset.sum_comm]
    refine Finset.sum_congr rfl fun j hj => ?_
    have hj := Finset.mem_range.1 hj
    refine (crowded_union (fun i => (ch i).elems c.treeMax) ?_).symm
    intro i hi i' hi' x hx y hy hxy
    have h1 := (kids i hi).pre hc x hx
    have h2 := (kids i' hi').pre hc y hy
    have := shift_le hxy (t := c.treeBit * n') (Nat.mul_le_mul_left _ (by omega))
    omega

/-- The blocks of a whole trie. -/
theorem TopOk.count (hc : CfgOk c) {m : TMem} {base : Ptr} {ch : Nat → TT} {es : List Elem} {bl : List Ptr}
    (T : TopOk c m base ch es bl) : bl.length = blocksFor c (keySet es) := by
  have hl := hc.levels_pos
  rw [← T.blocks.length_eq, length_flatMap_range, ← keySet_perm (T.perm hc)]
  have e1 : ∀ i ∈ Finset.range c.bucketMax, ((ch i).blocks c.treeMax).length =
      (crowded (keySet ((ch i).elems c.treeMax)) c.bucketShift).card +
        ∑ j ∈ Finset.range (levels c - 1), (crowded (keySet ((ch i).elems c.treeMax)) (c.treeBit * (j + 1))).card := by
    intro i hi
    have hi := Finset.mem_range.1 hi
    rw [(T.kids i hi).count hc]
    conv_lhs => rw [← Nat.sub_add_cancel hl]
    rw [Finset.sum_range_succ, Nat.add_comm]
    congr 1
    rw [crowded_le_one (x := i / c.treeMax) (by
      intro k hk
      obtain ⟨e, he, rfl⟩ := mem_keySet.1 hk
      rw [Nat.sub_add_cancel hl]
      exact (T.kids i hi).pre hc e he), crowded_le_one (x := i) (by
      intro k hk
      obtain ⟨e, he, rfl⟩ := mem_keySet.1 hk
      exact T.top i hi e he)]
  rw [Finset.sum_congr rfl e1, Finset.sum_add_distrib, Finset.sum_comm]
  have sep : ∀ s, s ≤ c.bucketShift → ∀ i, i < c.bucketMax → ∀ j, j < c.bucketMax → ∀ x ∈ (ch i).elems c.treeMax,
      ∀ y ∈ (ch j).elems c.treeMax, x.hash >>> s = y.hash >>> s → i = j := by
    intro s hs i hi j hj x hx y hy hxy
    rw [← T.top i hi x hx, ← T.top j hj y hy]
    exact shift_le hxy hs
  unfold blocksFor
  rw [crowded_union _ (sep _ (Nat.le_refl _))]
  congr 1
  refine Finset.sum_congr rfl fun j hj => ?_
  have hj := Finset.mem_range.1 hj
  refine (crowded_union _ (sep _ ?_)).symm
  rw [hc.shift_eq]
  exact Nat.mul_le_mul_left _ (by omega)

theorem blocksFor_eq_zero {K : Finset Nat} (hc : CfgOk c)
    (h : ∀ k ∈ K, ∀ k' ∈ K, k >>> c.bucketShift = k' >>> c.bucketShift → k = k') : blocksFor c K = 0 := by
  have z : ∀ s, s ≤ c.bucketShift → (crowded K s).card = 0 := by
    intro s hs
    rw [Finset.card_eq_zero, Finset.eq_empty_iff_forall_notMem]
    intro y hy
    obtain ⟨k, h1, k', h2, hne, e1, e2⟩ := mem_crowded.1 hy
    exact hne (h k' h2 k h1 (shift_le (e1.trans e2.symm) hs))
  unfold blocksFor
  rw [z _ (Nat.le_refl _), Nat.zero_add]
  refine Finset.sum_eq_zero fun j hj => ?_
  have hj := Finset.mem_range.1 hj
  refine z _ ?_
  rw [hc.shift_eq]
  exact Nat.mul_le_mul_left _ (by omega)

end TrieSpec
end Tommy
