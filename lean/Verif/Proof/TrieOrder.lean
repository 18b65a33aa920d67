import Verif.Spec.TrieOrder
import Verif.Proof.Trie
import Verif.Proof.TrieInp
/-! Proofs for C65. -/
set_option linter.unusedSimpArgs false
namespace Tommy

variable [Arch]
namespace TrieSpec
open HashSpec (Elem walkLoop)

variable {c : TrieCfg}

omit [Arch] in
theorem walkCells_spec {α : Type} {f : Ptr → TM (List α)} {m : TMem} {base : Ptr} {g : Nat → List α} : ∀ (k i : Nat),
    (∀ j, i ≤ j → j < i + k → j < m.csize base ∧ f (m.cell base j) m = some (g j, m)) →
    walkCells f base i k m = some ((List.range' i k).flatMap g, m)
  | 0, i, _ => rfl
  | k + 1, i, h => by
    obtain ⟨h1, h2⟩ := h i (by omega) (by omega)
    have ih := walkCells_spec k (i + 1) (fun j a b => h j (by omega) (by omega))
    simp only [walkCells, run_bind, cellGet, h1, if_true, Option.bind_some, h2, ih, run_pure]
    rfl

omit [Arch] in
theorem walkCell_spec {m : TMem} : ∀ {t : TT} {n pre : Nat} {p : Ptr}, TRep c m t n pre p →
    walkCell c n p m = some (t.elems c.treeMax, m) := by
  intro t
  induction t with
  | nil =>
    intro n pre p h
    have h : p = 0 := h
    subst h
    cases n <;> simp [walkCell, TT.elems]
  | leaf L =>
    intro n pre p h
    obtain ⟨h0, h1, _⟩ := h.leaf_ptr
    have h2 : ¬ p % 2 = 1 := by
      intro e
      have : (1 : Nat) = 0 := e.symm.trans h1
      cases this
    have : onN (walkLoop p []) m = some (L, m) := by
      simp only [onN, zoom, h.2.1.walk]
    cases n <;> simp only [walkCell, h0, h2, if_false, TT.elems] <;> exact this
  | node b ch ih =>
    intro n pre p h
    obtain ⟨h1, h2, h3, _, n', rfl, h⟩ := h
    have e0 : p ≠ 0 := by rw [h1]; exact Nat.succ_ne_zero b
    have e1 : p % 2 = 1 := by rw [h1]; exact (isTree_iff _).1 (isTree_succ h2)
    have e2 : p - 1 = b := by rw [h1]; exact Nat.add_sub_cancel b 1
    simp only [walkCell, e0, e1, e2, if_false, if_true, TT.elems]
    rw [walkCells_spec (g := fun i => (ch i).elems c.treeMax), List.range_eq_range']
    intro j _ hj
    rw [Nat.zero_add] at hj
    exact ⟨by rw [h3]; exact hj, ih j (h j hj)⟩

omit [Arch] in
theorem walkTrie_spec {m : TMem} {t : Trie} {ch : Nat → TT} {es : List Elem} {bl : List Ptr}
    (h : TopOk c m t.base ch es bl) :
    walkTrie c t m = some ((List.range c.bucketMax).flatMap fun i => (ch i).elems c.treeMax, m) := by
  rw [walkTrie, walkCells_spec (g := fun i => (ch i).elems c.treeMax), List.range_eq_range']
  intro j _ hj
  rw [Nat.zero_add] at hj
  exact ⟨by rw [h.size]; exact hj, walkCell_spec (h.kids j hj)⟩

omit [Arch] in
theorem le_of_shift_lt {a b s : Nat} (h : a >>> s < b >>> s) : a ≤ b := by
  rcases Nat.lt_or_ge b a with hl | hl
  · have := Nat.shiftRight_le_shiftRight (k := s) (Nat.le_of_lt hl)
    omega
  · exact hl
where
  Nat.shiftRight_le_shiftRight {a b k : Nat} (h : a ≤ b) : a >>> k ≤ b >>> k := by
    rw [Nat.shiftRight_eq_div_pow, Nat.shiftRight_eq_div_pow]
    exact Nat.div_le_div_right h

omit [Arch] in
theorem pairwise_flatMap {M s : Nat} {g : Nat → List Elem} {d : Nat → Nat} (hd : ∀ i j, i < j → d i < d j)
    (h1 : ∀ i, i < M → (g i).Pairwise fun x y => x.hash ≤ y.hash) (h2 : ∀ i, i < M → ∀ e ∈ g i, e.hash >>> s = d i) :
    ((List.range M).flatMap g).Pairwise fun x y => x.hash ≤ y.hash := by
  rw [List.pairwise_flatMap]
  refine ⟨fun i hi => h1 i (List.mem_range.1 hi), ?_⟩
  refine List.Pairwise.imp_of_mem ?_ List.pairwise_lt_range
  intro i j hi hj hij x hx y hy
  refine le_of_shift_lt (s := s) ?_
  rw [h2 i (List.mem_range.1 hi) x hx, h2 j (List.mem_range.1 hj) y hy]
  exact hd i j hij

theorem TRep.order (hc : CfgOk c) {m : TMem} : ∀ {t : TT} {n pre : Nat} {p : Ptr}, TRep c m t n pre p →
    (t.elems c.treeMax).Pairwise fun x y => x.hash ≤ y.hash := by
  intro t
  induction t with
  | nil => intro n pre p _; exact List.Pairwise.nil
  | leaf L =>
    intro n pre p h
    obtain ⟨_, _, _, k, _, hk⟩ := h
    refine List.Pairwise.imp_of_mem (R := fun _ _ => True) ?_ (List.pairwise_of_forall (fun _ _ => trivial))
    intro x y hx hy _
    rw [hk x hx, hk y hy]
  | node b ch ih =>
    intro n pre p h
    obtain ⟨_, _, _, _, n', rfl, h⟩ := h
    exact pairwise_flatMap (s := c.treeBit * n') (d := fun i => pre * c.treeMax + i) (fun i j hij => by omega)
      (fun i hi => ih i (h i hi)) (fun i hi e he => (h i hi).pre hc e he)

theorem TopOk.inOrder (hc : CfgOk c) {m : TMem} {base : Ptr} {ch : Nat → TT} {es : List Elem} {bl : List Ptr}
    (h : TopOk c m base ch es bl) : InKeyOrder es ((List.range c.bucketMax).flatMap fun i => (ch i).elems c.treeMax) := by
  refine ⟨pairwise_flatMap (s := c.bucketShift) (d := id) (fun i j hij => hij) (fun i hi => (h.kids i hi).order hc)
    (fun i hi e he => h.top i hi e he), fun k => ?_⟩
  by_cases hk : k < 2 ^ c.bit
  · rw [← h.order k hk]
    refine filter_flatMap_one (fun e : Elem => decide (e.hash = k)) (fun i => (ch i).elems c.treeMax)
      ((hc.key_lt k).2 hk) fun j hj hne => ?_
    rw [List.filter_eq_nil_iff]
    intro e he hek
    simp only [decide_eq_true_eq] at hek
    exact hne (by rw [← h.top j hj e he, hek])
  · have hz : ∀ e ∈ es, ¬ (decide (e.hash = k)) = true := by
      intro e he hek
      simp only [decide_eq_true_eq] at hek
      exact hk (hek ▸ h.keys e he)
    rw [List.filter_eq_nil_iff.2 hz, List.filter_eq_nil_iff]
    intro e he
    exact hz e ((h.perm hc).mem_iff.1 he)

omit [Arch] in
theorem InKeyOrder.unique {es l l' : List Elem} (h : InKeyOrder es l) (h' : InKeyOrder es l') : l = l' := by
  have : ∀ (l l' : List Elem), l.Pairwise (fun x y => x.hash ≤ y.hash) → l'.Pairwise (fun x y => x.hash ≤ y.hash) →
      (∀ k, l.filter (fun e => e.hash = k) = l'.filter (fun e => e.hash = k)) → l = l' := by
    intro l
    induction l with
    | nil =>
      intro l' _ _ hf
      cases l' with
      | nil => rfl
      | cons y l' => have := hf y.hash; simp at this
    | cons x l ih =>
      intro l' hp hp' hf
      cases l' with
      | nil => have := hf x.hash; simp at this
      | cons y l' =>
        have hx : x ∈ (y :: l').filter (fun e => e.hash = x.hash) := by rw [← hf]; simp
        have hy : y ∈ (x :: l).filter (fun e => e.hash = y.hash) := by rw [hf]; simp
        have a1 : x.hash ≤ y.hash := by
          rcases List.mem_cons.1 (List.mem_filter.1 hy).1 with e | e
          · rw [e]
          · exact (List.pairwise_cons.1 hp).1 y e
        have a2 : y.hash ≤ x.hash := by
          rcases List.mem_cons.1 (List.mem_filter.1 hx).1 with e | e
          · rw [e]
          · exact (List.pairwise_cons.1 hp').1 x e
        have e1 : x.hash = y.hash := Nat.le_antisymm a1 a2
        have h0 := hf x.hash
        simp only [List.filter_cons, e1, decide_true, if_true, List.cons.injEq] at h0
        obtain ⟨rfl, h0⟩ := h0
        rw [ih l' (List.pairwise_cons.1 hp).2 (List.pairwise_cons.1 hp').2]
        intro k
        by_cases hk : x.hash = k
        · rw [← hk]; exact h0
        · have := hf k
          simpa [List.filter_cons, hk] using this
  exact this l l' h.1 h'.1 fun k => (h.2 k).trans (h'.2 k).symm

end TrieSpec

namespace InpSpec
open HashSpec (Elem walkLoop)
open TrieSpec (walkCells walkCells_spec)

variable {c : TrieCfg}

/-- The elements, and if their list has branches. -/
def IT.marked (M : Nat) : IT → List (Bool × Elem)
  | .nil => []
  | .node L ch =>
    L.map (fun e => (!((List.range M).flatMap fun i => (ch i).marked M).isEmpty, e)) ++
      (List.range M).flatMap fun i => (ch i).marked M

omit [Arch] in
theorem marked_elems (M : Nat) : ∀ t : IT, (t.marked M).map Prod.snd = t.elems M
  | .nil => rfl
  | .node L ch => by
    have : ∀ i, ((ch i).marked M).map Prod.snd = (ch i).elems M := fun i => marked_elems M (ch i)
    simp only [IT.marked, IT.elems, List.map_append, List.map_map, List.map_flatMap, this]
    congr 1
    exact List.map_id L

omit [Arch] in
theorem walkCell_spec {m : TMem} : ∀ {t : IT} {n pre : Nat} {p : Ptr}, IRep c m t n pre p →
    walkCell c n p m = some (t.marked c.treeMax, m) := by
  intro t
  induction t with
  | nil =>
    intro n pre p h
    have h : p = 0 := h
    subst h
    cases n <;> simp [walkCell, IT.marked]
  | node L ch ih =>
    intro n pre p h
    obtain ⟨ne, er, sz, _, h⟩ := h
    obtain ⟨e, he, hp⟩ : ∃ e ∈ L, p = e.node := by
      cases L with
      | nil => exact absurd rfl ne
      | cons e M => exact ⟨e, by simp, er.list.head⟩
    have h0 : p ≠ 0 := by rw [hp]; exact (er.ok he).1
    have hs : m.csize p = c.treeMax := by rw [hp]; exact sz e he
    have hw : onN (walkLoop p []) m = some (L, m) := by simp only [onN, zoom, er.walk]
    cases n with
    | zero =>
      have hr := walkCells_spec (f := fun q => if q = 0 then pure [] else fun _ => none) (m := m) (base := p)
        (g := fun i => (ch i).marked c.treeMax) c.treeMax 0 (by
          intro j _ hj
          rw [Nat.zero_add] at hj
          obtain ⟨h1, h2⟩ := h j hj
          rw [h1 rfl] at h2 ⊢
          have h2 : m.cell p j = 0 := h2
          refine ⟨by rw [hs]; exact hj, ?_⟩
          rw [h2]
          rfl)
      simp only [walkCell, h0, if_false, run_bind, hw, Option.bind_some, hr, run_pure, IT.marked, List.range_eq_range']
    | succ n =>
      have hr := walkCells_spec (f := walkCell c n) (m := m) (base := p)
        (g := fun i => (ch i).marked c.treeMax) c.treeMax 0 (by
          intro j _ hj
          rw [Nat.zero_add] at hj
          exact ⟨by rw [hs]; exact hj, ih j (h j hj).2⟩)
      simp only [walkCell, h0, if_false, run_bind, hw, Option.bind_some, hr, run_pure, IT.marked, List.range_eq_range']

omit [Arch] in
theorem walkTrie_spec {m : TMem} {t : InpTrie} {ch : Nat → IT} {es : List Elem} (h : TopOk c m t.base ch es) :
    walkTrie c t m = some ((List.range (inpBucketMax c)).flatMap fun i => (ch i).marked c.treeMax, m) := by
  rw [walkTrie, walkCells_spec (g := fun i => (ch i).marked c.treeMax), List.range_eq_range']
  intro j _ hj
  rw [Nat.zero_add] at hj
  exact ⟨by rw [h.size]; exact hj, walkCell_spec (h.kids j hj)⟩

omit [Arch] in
theorem leaves_append (l r : List (Bool × Elem)) : leaves (l ++ r) = leaves l ++ leaves r := by simp [leaves]

omit [Arch] in
theorem leaves_flatMap (M : Nat) (f : Nat → List (Bool × Elem)) :
    leaves ((List.range M).flatMap f) = (List.range M).flatMap fun i => leaves (f i) := by
  simp only [leaves, List.filter_flatMap, List.map_flatMap]

omit [Arch] in
theorem leaves_mem {l : List (Bool × Elem)} {e : Elem} (h : e ∈ leaves l) : e ∈ l.map Prod.snd := by
  simp only [leaves, List.mem_map, List.mem_filter] at h ⊢
  obtain ⟨x, ⟨hx, _⟩, rfl⟩ := h
  exact ⟨x, hx, rfl⟩

theorem IRep.order (hc : TrieSpec.CfgOk c) {m : TMem} : ∀ {t : IT} {n pre : Nat} {p : Ptr}, IRep c m t n pre p →
    (leaves (t.marked c.treeMax)).Pairwise fun x y => x.hash ≤ y.hash := by
  intro t
  induction t with
  | nil => intro n pre p _; exact List.Pairwise.nil
  | node L ch ih =>
    intro n pre p h
    obtain ⟨_, _, _, ⟨k, _, hk, _⟩, h⟩ := h
    rw [IT.marked, leaves_append]
    have hL : L.Pairwise fun x y => x.hash ≤ y.hash := by
      refine List.Pairwise.imp_of_mem (R := fun _ _ => True) ?_ (List.pairwise_of_forall (fun _ _ => trivial))
      intro x y hx hy _
      rw [hk x hx, hk y hy]
    by_cases he : ((List.range c.treeMax).flatMap fun i => (ch i).marked c.treeMax) = []
    · rw [he]
      simp only [leaves, List.filter_nil, List.map_nil, List.append_nil]
      have : ((L.map fun e => (!([] : List (Bool × Elem)).isEmpty, e)).filter fun x => !x.1).map Prod.snd = L := by
        simp [List.filter_map, Function.comp_def]
      rw [this]
      exact hL
    · have : leaves (L.map fun e => (!((List.range c.treeMax).flatMap fun i => (ch i).marked c.treeMax).isEmpty, e)) = [] := by
        have e1 : ((List.range c.treeMax).flatMap fun i => (ch i).marked c.treeMax).isEmpty = false := by
          rw [List.isEmpty_eq_false_iff]; exact he
        rw [e1]
        simp [leaves]
      rw [this, List.nil_append, leaves_flatMap]
      cases n with
      | zero =>
        exfalso
        apply he
        rw [List.flatMap_eq_nil_iff]
        intro i hi
        rw [(h i (List.mem_range.1 hi)).1 rfl]
        rfl
      | succ n =>
        exact TrieSpec.pairwise_flatMap (s := c.treeBit * n) (d := fun i => pre * c.treeMax + i) (fun i j hij => by omega)
          (fun i hi => ih i (h i hi).2) (fun i hi e he => (h i hi).2.pre hc e (by
            rw [← marked_elems]; exact leaves_mem he))

theorem TopOk.leafOrder (hc : CfgOk c) {m : TMem} {base : Ptr} {ch : Nat → IT} {es : List Elem}
    (h : TopOk c m base ch es) :
    (leaves ((List.range (inpBucketMax c)).flatMap fun i => (ch i).marked c.treeMax)).Pairwise fun x y => x.hash ≤ y.hash := by
  rw [leaves_flatMap]
  exact TrieSpec.pairwise_flatMap (s := inpBucketShift c) (d := id) (fun i j hij => hij) (fun i hi => (h.kids i hi).order hc.trie)
    (fun i hi e he => h.top i hi e (by rw [← marked_elems]; exact leaves_mem he))

theorem TopOk.sameKey (hc : CfgOk c) {m : TMem} {base : Ptr} {ch : Nat → IT} {es : List Elem} (h : TopOk c m base ch es) (k : Nat) :
    (((List.range (inpBucketMax c)).flatMap fun i => (ch i).marked c.treeMax).map Prod.snd).filter (fun e => e.hash = k) =
      es.filter (fun e => e.hash = k) := by
  simp only [List.map_flatMap, marked_elems]
  by_cases hk : k < 2 ^ c.bit
  · rw [← h.order k hk]
    refine filter_flatMap_one (fun e : Elem => decide (e.hash = k)) (fun i => (ch i).elems c.treeMax)
      ((hc.key_lt k).2 hk) fun j hj hne => ?_
    rw [List.filter_eq_nil_iff]
    intro e he hek
    simp only [decide_eq_true_eq] at hek
    exact hne (by rw [← h.top j hj e he, hek])
  · have hz : ∀ e ∈ es, ¬ (decide (e.hash = k)) = true := by
      intro e he hek
      simp only [decide_eq_true_eq] at hek
      exact hk (hek ▸ h.keys e he)
    rw [List.filter_eq_nil_iff.2 hz, List.filter_eq_nil_iff]
    intro e he
    exact hz e ((h.perm hc).mem_iff.1 he)

end InpSpec
end Tommy
