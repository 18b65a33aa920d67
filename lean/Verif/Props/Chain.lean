import Verif.Proof.Chain
/-
  C70: the functions of tommychain.h.
-/
set_option autoImplicit false
namespace Tommy

variable [Arch]
open ListSpec ChainSpec

omit [Arch] in
/-- **C70** concat: the second chain after the first. -/
theorem C70_concat (h : Heap) (c1 c2 : Chain) (xs ys : List Ptr) (h1 : ChainOf h c1 xs) (h2 : ChainOf h c2 ys)
    (nd : (xs ++ ys).Nodup) : ∃ h', chainConcat c1.tail c2.head h = some ((), h') ∧ ChainOf h' ⟨c1.head, c2.tail⟩ (xs ++ ys) ∧
      OnlyLinks h h' [c1.tail, c2.head] := by
  rw [chainOf_iff] at h1 h2
  obtain ⟨p, n, s1⟩ := h1.seg
  obtain ⟨q, m, s2⟩ := h2.seg
  obtain ⟨h', e, s', hd, fr⟩ := chainConcat_spec s1 s2 h1.ne h2.ne h1.ok h2.ok nd
  rw [← h1.tail, ← h2.head] at e fr
  refine ⟨h', e, chainOf_iff.2 ⟨by simp [h1.ne], ?_, ?_, ?_, nd, _, _, s'⟩, only_of hd (fr.mono (by simp))⟩
  · simp only [h1.head]
    obtain ⟨b', u, rfl⟩ := List.exists_cons_of_ne_nil h1.ne
    rfl
  · simp only [h2.tail]
    obtain ⟨t, a', rfl⟩ := exists_concat h2.ne
    rw [← List.append_assoc]; simp
  · intro x hx
    rcases List.mem_append.1 hx with hx | hx
    · exact (fr.ok x).2 (h1.ok x hx)
    · exact (fr.ok x).2 (h2.ok x hx)

omit [Arch] in
/-- **C70** splice: a chain between two consecutive nodes of another one. -/
theorem C70_splice (h : Heap) (c1 c2 : Chain) (xs ys zs : List Ptr) (a b : Ptr) (h1 : ChainOf h c1 (xs ++ a :: b :: zs)) (h2 : ChainOf h c2 ys)
    (nd : ((xs ++ a :: b :: zs) ++ ys).Nodup) : ∃ h', chainSplice a b c2.head c2.tail h = some ((), h') ∧
      ChainOf h' c1 (xs ++ a :: (ys ++ b :: zs)) ∧ OnlyLinks h h' [a, b, c2.head, c2.tail] := by
  rw [chainOf_iff] at h1 h2
  obtain ⟨p, n, s1⟩ := h1.seg
  obtain ⟨q, m, s2⟩ := h2.seg
  have oa := h1.ok a (by simp)
  have ob := h1.ok b (by simp)
  have mh : c2.head ∈ ys := by
    obtain ⟨y, u, rfl⟩ := List.exists_cons_of_ne_nil h2.ne
    simp [h2.head]
  have mt : c2.tail ∈ ys := by
    obtain ⟨u, y, rfl⟩ := exists_concat h2.ne
    simp [h2.tail]
  have oh := h2.ok _ mh
  have ot := h2.ok _ mt
  have dj : ∀ x ∈ xs ++ a :: b :: zs, ∀ y ∈ ys, x ≠ y := fun x hx y hy => (List.nodup_append.1 nd).2.2 x hx y hy
  have pm : (xs ++ a :: b :: zs ++ ys).Perm (xs ++ a :: (ys ++ b :: zs)) := by
    rw [List.append_assoc]
    refine List.Perm.append_left _ ?_
    simp only [List.cons_append]
    refine List.Perm.cons _ ?_
    exact (List.perm_append_comm (l₁ := b :: zs) (l₂ := ys))
  have nd' := pm.nodup nd
  have ab : a ≠ b := by
    have := (List.nodup_append.1 h1.nodup).2.1
    simp at this; exact fun e => this.1.1 e
  refine ⟨{ h with prev := upd (upd h.prev b c2.tail) c2.head a, next := upd (upd h.next a c2.head) c2.tail b }, ?_, ?_, ?_⟩
  · simp [chainSplice, setPrev_run, setNext_run, oa, ob, oh, ot]
  · have hbh : b ≠ c2.head := dj b (by simp) _ mh
    have hat : a ≠ c2.tail := dj a (by simp) _ mt
    refine chainOf_iff.2 ⟨by simp, ?_, ?_, ?_, nd', p, n, ?_⟩
    · rw [h1.head]; cases xs <;> simp
    · rw [h1.tail]
      obtain ⟨u, y, e⟩ := exists_concat (show b :: zs ≠ [] by simp)
      rw [show xs ++ a :: (ys ++ b :: zs) = (xs ++ a :: (ys ++ u)) ++ [y] by rw [e]; simp,
        show xs ++ a :: b :: zs = (xs ++ a :: u) ++ [y] by rw [e]; simp,
        List.getLastD_eq_getLast?, List.getLastD_eq_getLast?, List.getLast?_concat, List.getLast?_concat]
    · intro x hx
      rcases List.mem_append.1 (pm.mem_iff.2 hx) with hx | hx
      · exact h1.ok x hx
      · exact h2.ok x hx
    · have nab : ∀ x ∈ xs, x ≠ a ∧ x ≠ b := fun x hx =>
        ⟨fun e => (List.nodup_append.1 h1.nodup).2.2 x hx a (by simp) e, fun e => (List.nodup_append.1 h1.nodup).2.2 x hx b (by simp) e⟩
      have nzs : ∀ x ∈ zs, x ≠ a ∧ x ≠ b := by
        have := (List.nodup_append.1 h1.nodup).2.1
        simp only [List.nodup_cons, List.mem_cons, not_or] at this
        exact fun x hx => ⟨fun e => this.1.2 (e ▸ hx), fun e => this.2.1 (e ▸ hx)⟩
      have nys : ∀ x ∈ ys, x ≠ a ∧ x ≠ b := fun x hx => ⟨fun e => dj a (by simp) x hx e.symm, fun e => dj b (by simp) x hx e.symm⟩
      have nh : ∀ x ∈ xs ++ a :: b :: zs, x ≠ c2.head ∧ x ≠ c2.tail := fun x hx => ⟨dj x hx _ mh, dj x hx _ mt⟩
      have e1 : xs ++ a :: b :: zs = (xs ++ [a]) ++ b :: zs := by simp
      have e2 : xs ++ a :: (ys ++ b :: zs) = (xs ++ [a]) ++ (ys ++ b :: zs) := by simp
      rw [e1, seg_append] at s1
      rw [e2, seg_append (xs := xs ++ [a]), seg_append (xs := ys)]
      simp only [getLastD_append, List.headD_cons] at s1
      refine ⟨?_, ?_, ?_⟩
      · refine seg_change_next (h := h) ?_ ?_ ?_ s1.1
        · intro x hx
          have := nh x (by simp [hx])
          simp [upd_apply, (nab x hx).1, this.2]
        · intro x hx
          have h3 := nh x (by simp at hx ⊢; tauto)
          have h4 : x ≠ b := by
            rcases List.mem_append.1 hx with hx | hx
            · exact (nab x hx).2
            · simp at hx; rw [hx]; exact ab
          simp [upd_apply, h3.1, h4]
        · obtain ⟨y, u, e⟩ := List.exists_cons_of_ne_nil h2.ne
          have hh := h2.head
          rw [e] at hh ⊢
          simp only [List.headD_cons] at hh
          simp [upd_apply, hat, hh]
      · obtain ⟨y, u, e⟩ := List.exists_cons_of_ne_nil h2.ne
        have hh := h2.head
        have htl := h2.tail
        have nd2 := h2.nodup
        obtain ⟨w, z, ez⟩ := exists_concat h2.ne
        have s3 : Seg { h with prev := upd (upd h.prev b c2.tail) c2.head a } a ys m := by
          subst e
          simp only [List.headD_cons] at hh
          refine seg_change_prev (h := h) (fun _ _ => rfl) ?_ (by simp [hh]) s2
          intro x hx
          have : x ≠ c2.head := by rw [hh]; rintro rfl; exact (List.nodup_cons.1 nd2).1 hx
          simp [upd_apply, this, (nys x (by simp [hx])).2]
        rw [ez] at s3 htl nd2 ⊢
        simp only [getLastD_append, List.getLastD_cons, List.getLastD_nil] at htl ⊢
        have htl : c2.tail = z := by simpa using htl
        refine seg_change_next (h := { h with prev := upd (upd h.prev b c2.tail) c2.head a }) ?_ (fun _ _ => rfl) (by simp [htl]) (by simpa using s3)
        intro x hx
        have : x ≠ c2.tail := by
          rw [htl]; rintro rfl
          exact (List.nodup_append.1 nd2).2.2 x hx x (by simp) rfl
        have h5 : x ≠ a := (nys x (by rw [ez]; simp [hx])).1
        simp [upd_apply, this, h5]
      · refine seg_change_prev (h := h) ?_ ?_ ?_ s1.2
        · intro x hx
          have h3 := nh x (by simp at hx ⊢; tauto)
          have h4 : x ≠ a := by
            rcases List.mem_cons.1 hx with hx | hx
            · rw [hx]; exact ab.symm
            · exact (nzs x hx).1
          simp [upd_apply, h3.2, h4]
        · intro x hx
          have h3 := nh x (by simp [hx])
          simp [upd_apply, h3.1, (nzs x hx).2]
        · have htl := h2.tail
          obtain ⟨w, z, ez⟩ := exists_concat h2.ne
          rw [ez] at htl ⊢
          have htl : c2.tail = z := by simpa using htl
          simp [upd_apply, hbh, htl]
  · refine ⟨rfl, rfl, rfl, fun x hx => ?_, fun x hx => ?_⟩
    · simp only [List.mem_cons, not_or] at hx
      simp [upd_apply, hx]
    · simp only [List.mem_cons, not_or] at hx
      simp [upd_apply, hx]

omit [Arch] in
/-- **C70** merge: with any function as comparator the result is the interleaving that takes from the second chain only
    what is less than the current node of the first. -/
theorem C70_merge (cmp : Nat → Nat → Int) (h : Heap) (c1 c2 : Chain) (xs ys : List Ptr) (h1 : ChainOf h c1 xs) (h2 : ChainOf h c2 ys)
    (nd : (xs ++ ys).Nodup) : ∃ c h', chainMerge cmp c1 c2 h = some (c, h') ∧
      ChainOf h' c (List.merge xs ys (fun x y => cmp (h.data x) (h.data y) ≤ 0)) ∧ OnlyLinks h h' (xs ++ ys) := by
  rw [chainOf_iff] at h1 h2
  obtain ⟨c, h', e, ic, hd, fr⟩ := chainMerge_spec cmp h1 h2 nd
  exact ⟨c, h', e, chainOf_iff.2 ic, only_of hd fr⟩

omit [Arch] in
/-- **C70** merge_degenerated is functionally equivalent at merge (tommychain.h:117), for two ordered chains. -/
theorem C70_merge_degenerated (cmp : Nat → Nat → Int) (hcmp : TotalPreorder cmp) (h : Heap) (c1 c2 : Chain) (xs ys : List Ptr)
    (h1 : ChainOf h c1 xs) (h2 : ChainOf h c2 ys) (nd : (xs ++ ys).Nodup) (ox : Ordered cmp h.data xs) (oy : Ordered cmp h.data ys) :
    ∃ zs c h' c' h'', chainMerge cmp c1 c2 h = some (c, h') ∧ chainMergeDegenerated cmp c1 c2 h = some (c', h'') ∧
      ChainOf h' c zs ∧ ChainOf h'' c' zs ∧ c' = c ∧ OnlyLinks h h'' (xs ++ ys) ∧ SortOf cmp h.data (xs ++ ys) zs := by
  rw [chainOf_iff] at h1 h2
  obtain ⟨c, h', e, ic, hd, fr⟩ := chainMerge_spec cmp h1 h2 nd
  obtain ⟨c', h'', e', ic', hd', fr'⟩ := chainMergeDegenerated_spec cmp h1 h2 nd
  have ss := stableSort_merge hcmp h.data xs xs ys ys ⟨.rfl, ox, fun _ => rfl⟩ ⟨.rfl, oy, fun _ => rfl⟩
  have hc : c' = c := by
    rw [mergeD_eq hcmp ox oy] at ic'
    cases c; cases c'
    have a1 := ic.head; have a2 := ic'.head; have a3 := ic.tail; have a4 := ic'.tail
    simp only at a1 a2 a3 a4
    rw [a1, a2, a3, a4]
  rw [mergeD_eq hcmp ox oy] at ic' ss
  exact ⟨_, c, h', c', h'', e, e', chainOf_iff.2 ic, chainOf_iff.2 ic', hc, only_of hd' fr', ss.1, ss.2.1, ss.2.2⟩

/-- **C70** mergesort: the sort of a chain, stable; with any function as comparator it returns a chain of the same nodes. -/
theorem C70_mergesort (cmp : Nat → Nat → Int) (h : Heap) (c : Chain) (xs : List Ptr) (hc : ChainOf h c xs) (ha : ∀ x ∈ xs, x < 2 ^ sizeBit) :
    ∃ c' h' ys, chainMergesort cmp c h = some (c', h') ∧ ChainOf h' c' ys ∧ ys.Perm xs ∧
      (TotalPreorder cmp → SortOf cmp h.data xs ys) ∧ OnlyLinks h h' xs := by
  rw [chainOf_iff] at hc
  obtain ⟨c', h', ys, e, ic, hR, pm, hd, fr⟩ := chainMergesort_spec cmp
    (R := fun xs ys => TotalPreorder cmp → StableSort cmp h.data xs ys)
    (fun x _ => ⟨by simp, by simp, by simp⟩)
    (fun xs ys xs' ys' h1 h2 t => stableSort_merge t _ _ _ _ _ (h1 t) (h2 t)) hc
    (nodup_length_lt (by arch) hc.nodup fun x hx => ⟨(hc.ok x hx).1, ha x hx⟩)
  exact ⟨c', h', ys, e, chainOf_iff.2 ic, pm, fun t => ⟨(hR t).1, (hR t).2.1, (hR t).2.2⟩, only_of hd fr⟩

/-! ### Non vacuity -/

/-- Two chains in one memory: 1, 3, 5 (with payloads 10, 30, 50) and 2, 4 (20, 40); the undefined fields have wild values. -/
def exChainHeap : Heap where
  valid p := decide (1 ≤ p ∧ p ≤ 5)
  next p := if p = 5 ∨ p = 4 then 999 else p + 2
  prev p := if p = 1 ∨ p = 2 then 777 else p - 2
  data p := 10 * p
  index _ := 0

omit [Arch] in
theorem exChain1 : ChainOf exChainHeap ⟨1, 5⟩ [1, 3, 5] := by
  refine ⟨rfl, rfl, by simp [exChainHeap], by simp, ?_⟩
  intro i hi
  have : i = 0 ∨ i = 1 := by simp at hi; omega
  rcases this with rfl | rfl <;> simp [exChainHeap]

omit [Arch] in
theorem exChain2 : ChainOf exChainHeap ⟨2, 4⟩ [2, 4] := by
  refine ⟨rfl, rfl, by simp [exChainHeap], by simp, ?_⟩
  intro i hi
  have : i = 0 := by simp at hi; omega
  subst this; simp [exChainHeap]

/-- C70: the two chains are ordered and the merge interleaves them. -/
example : TotalPreorder (fun a b => (a : Int) - b) ∧ Ordered (fun a b => (a : Int) - b) exChainHeap.data [1, 3, 5] ∧
    Ordered (fun a b => (a : Int) - b) exChainHeap.data [2, 4] ∧
    ∃ c h', chainMerge (fun a b => (a : Int) - b) ⟨1, 5⟩ ⟨2, 4⟩ exChainHeap = some (c, h') ∧ ChainOf h' c [1, 2, 3, 4, 5] := by
  refine ⟨⟨fun a b => by omega, fun a b c => by omega⟩, by simp [Ordered, exChainHeap], by simp [Ordered, exChainHeap], ?_⟩
  obtain ⟨c, h', e, ic, _⟩ := C70_merge (fun a b => (a : Int) - b) exChainHeap _ _ _ _ exChain1 exChain2 (by simp)
  refine ⟨c, h', e, ?_⟩
  simpa [exChainHeap, List.merge] using ic

omit [Arch] in
theorem exChainRev : TotalPreorder (fun a b => (b : Int) - a) := ⟨fun a b => by omega, fun a b c => by omega⟩

omit [Arch] in
/-- **C70** The order is needed: on chains not ordered the two functions are not the same. -/
theorem C70_unordered : ∃ h c1 c2 cmp c h' c' h'', ChainOf h c1 [1, 3, 5] ∧ ChainOf h c2 [2, 4] ∧ TotalPreorder cmp ∧
    chainMerge cmp c1 c2 h = some (c, h') ∧ ChainOf h' c [2, 4, 1, 3, 5] ∧
    chainMergeDegenerated cmp c1 c2 h = some (c', h'') ∧ ChainOf h'' c' [1, 3, 5, 2, 4] := by
  obtain ⟨c, h', e, ic, _⟩ := C70_merge (fun a b => (b : Int) - a) exChainHeap _ _ _ _ exChain1 exChain2 (by simp)
  obtain ⟨c', h'', e', ic', _⟩ := chainMergeDegenerated_spec (fun a b => (b : Int) - a) (chainOf_iff.1 exChain1) (chainOf_iff.1 exChain2) (by simp)
  exact ⟨exChainHeap, _, _, fun a b => (b : Int) - a, c, h', c', h'', exChain1, exChain2, exChainRev, e,
    by simpa [exChainHeap, List.merge] using ic, e', by simpa [exChainHeap, mergeD] using chainOf_iff.2 ic'⟩

/-- C70: the chain sorted backward. -/
example : ∃ c' h' ys, chainMergesort (fun a b => (b : Int) - a) ⟨1, 5⟩ exChainHeap = some (c', h') ∧ ChainOf h' c' ys ∧
    SortOf (fun a b => (b : Int) - a) exChainHeap.data [1, 3, 5] ys := by
  obtain ⟨c', h', ys, e, ic, _, so, _⟩ := C70_mergesort (fun a b => (b : Int) - a) exChainHeap ⟨1, 5⟩ [1, 3, 5] exChain1
    (by simp only [List.forall_mem_cons, List.not_mem_nil, false_imp_iff, implies_true, and_true]
        change (1 : Nat) < 2 ^ sizeBit ∧ (3 : Nat) < 2 ^ sizeBit ∧ (5 : Nat) < 2 ^ sizeBit
        refine ⟨?_, ?_, ?_⟩ <;> arch)
  exact ⟨c', h', ys, e, ic, so exChainRev⟩

end Tommy
