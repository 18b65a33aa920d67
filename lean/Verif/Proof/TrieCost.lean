import Verif.Spec.TrieCost
import Verif.Proof.Trie
import Verif.Proof.TrieInp
import Verif.Proof.TrieFlatAlloc
/-! The accesses to the memory of the functions of the tries. -/
set_option linter.unusedVariables false
namespace Tommy

variable [Arch]
namespace TrieCost
open TrieSpec (levels)

variable {α β : Type}

/-- `x` does what `y` does, and adds to the counter a number `d` of at most `n`, plus `w` for each block got from the allocator. -/
def Cost (w : Nat) (m : TMem) (y : TM α) (x : TC α) (n : Nat) : Prop :=
  ∀ r m', y m = some (r, m') → ∃ d, (∀ k, x (m, k) = some (r, (m', k + d))) ∧
    d + w * m'.supply.length ≤ w * m.supply.length + n

variable {w : Nat} {m : TMem}

omit [Arch] in
theorem Cost.mono {y : TM α} {x : TC α} {n n' : Nat} (h : Cost w m y x n) (hn : n ≤ n') : Cost w m y x n' := by
  intro r m' e
  obtain ⟨k', e', h'⟩ := h r m' e
  exact ⟨k', e', by omega⟩

omit [Arch] in
theorem Cost.pure (a : α) (n : Nat) : Cost w m (pure a) (pure a) n := by
  intro r m' e
  simp only [run_pure, Option.some.injEq, Prod.mk.injEq] at e
  obtain ⟨rfl, rfl⟩ := e
  exact ⟨0, fun k => rfl, by omega⟩

omit [Arch] in
theorem Cost.bind {y : TM α} {x : TC α} {f : α → TM β} {g : α → TC β} {n1 n2 n : Nat} (h1 : Cost w m y x n1)
    (h2 : ∀ a m1, y m = some (a, m1) → Cost w m1 (f a) (g a) n2) (hn : n1 + n2 ≤ n) :
    Cost w m (y >>= f) (x >>= g) n := by
  intro r m' e
  rw [run_bind] at e
  obtain ⟨⟨a, m1⟩, e1, e2⟩ := Option.bind_eq_some_iff.1 e
  obtain ⟨k1, e3, b1⟩ := h1 a m1 e1
  obtain ⟨k2, e4, b2⟩ := h2 a m1 e1 r m' e2
  exact ⟨k1 + k2, fun k => by rw [run_bind, e3, ← Nat.add_assoc]; exact e4 _, by omega⟩

omit [Arch] in
theorem Cost.ite {p : Prop} [Decidable p] {y1 y2 : TM α} {x1 x2 : TC α} {n : Nat} (h1 : p → Cost w m y1 x1 n)
    (h2 : ¬ p → Cost w m y2 x2 n) : Cost w m (if p then y1 else y2) (if p then x1 else x2) n := by
  split
  · next h => exact h1 h
  · next h => exact h2 h

/-- The supply of blocks is not used. -/
def Keeps (y : TM α) : Prop := ∀ m r m', y m = some (r, m') → m'.supply = m.supply

omit [Arch] in
theorem Keeps.pure (a : α) : Keeps (pure a) := by
  intro m r m' e
  simp only [run_pure, Option.some.injEq, Prod.mk.injEq] at e
  rw [← e.2]

omit [Arch] in
theorem Keeps.bind {y : TM α} {f : α → TM β} (h1 : Keeps y) (h2 : ∀ a, Keeps (f a)) : Keeps (y >>= f) := by
  intro m r m' e
  rw [run_bind] at e
  obtain ⟨⟨a, m1⟩, e1, e2⟩ := Option.bind_eq_some_iff.1 e
  exact (h2 a _ _ _ e2).trans (h1 _ _ _ e1)

omit [Arch] in
theorem Keeps.ite {p : Prop} [Decidable p] {y1 y2 : TM α} (h1 : Keeps y1) (h2 : Keeps y2) : Keeps (if p then y1 else y2) := by
  split
  · exact h1
  · exact h2

omit [Arch] in
theorem Keeps.cellGet (l : Loc) : Keeps (cellGet l) := by
  intro m r m' e
  unfold Tommy.cellGet at e
  split at e
  · cases e; rfl
  · cases e

omit [Arch] in
theorem Keeps.cellSet (l : Loc) (p : Ptr) : Keeps (cellSet l p) := by
  intro m r m' e
  unfold Tommy.cellSet at e
  split at e
  · cases e; rfl
  · cases e

omit [Arch] in
theorem Keeps.onN (x : HM α) : Keeps (onN x) := by
  intro m r m' e
  unfold Tommy.onN zoom at e
  split at e
  · cases e
  · cases e; rfl

omit [Arch] in
theorem Keeps.blockFree (b : Ptr) : Keeps (blockFree b) := by
  intro m r m' e
  unfold Tommy.blockFree at e
  split at e
  · cases e
  · cases e; rfl

omit [Arch] in
theorem Keeps.assertT (p : Prop) [Decidable p] : Keeps (assertT p) := by
  intro m r m' e
  unfold Tommy.assertT at e
  split at e
  · cases e; rfl
  · cases e

theorem Keeps.shrKey (a s : Nat) : Keeps (shrKey a s) := by
  intro m r m' e
  unfold Tommy.shrKey at e
  split at e
  · cases e; rfl
  · cases e

theorem Keeps.slot (c : TrieCfg) (a s : Nat) : Keeps (trieSlot c a s) :=
  (Keeps.shrKey _ _).bind fun _ => Keeps.pure _

omit [Arch] in
theorem Keeps.clear (b : Ptr) : ∀ k i, Keeps (clearCells b i k) := by
  intro k
  induction k with
  | zero => exact fun _ => Keeps.pure ()
  | succ k ih => exact fun i => (Keeps.cellSet _ _).bind fun _ => ih _

omit [Arch] in
theorem Keeps.pick (node remove : Ptr) (key : Nat) : Keeps (triePick node remove key) := by
  unfold triePick
  exact .ite (.bind (.onN _) fun _ => .ite (.pure _) (.pure _)) (.pure _)

omit [Arch] in
theorem Cost.tick {y : TM α} (h : Keeps y) (n : Nat) : Cost w m y (Tommy.tick n y) n := by
  intro r m' e
  exact ⟨n, fun k => by unfold Tommy.tick; rw [e]; rfl, by rw [h _ _ _ e]; omega⟩

omit [Arch] in
/-- A call of the allocator. -/
theorem Cost.alloc {M n : Nat} {f : Ptr → TM β} {g : Ptr → TC β}
    (h : ∀ b m1, Cost w m1 (f b) (g b) (n + w)) : Cost w m (blockAlloc M >>= f) (Tommy.tick 0 (blockAlloc M) >>= g) n := by
  intro r m' e
  rw [run_bind] at e
  obtain ⟨⟨b, m1⟩, e1, e2⟩ := Option.bind_eq_some_iff.1 e
  have e0 := e1
  unfold blockAlloc at e1
  split at e1
  · cases e1
  · next b' l hs =>
    cases e1
    obtain ⟨k', e3, hk⟩ := h _ _ r m' e2
    refine ⟨k', fun k => ?_, ?_⟩
    · rw [run_bind]
      unfold Tommy.tick
      simp only [e0, Option.map_some, Option.bind_some, Nat.add_zero]
      exact e3 k
    · rw [hs]
      simp only [List.length_cons, Nat.mul_add, Nat.mul_one] at hk ⊢
      omega

/-! ### tommytrie -/

variable (c : TrieCfg)

theorem cost_expand (node insert : Ptr) (key : Nat) : ∀ (nc shift : Nat) (l : Loc) (m : TMem),
    Cost (c.treeMax + 2) m (trieExpand c nc shift l node insert key) (trieExpandC c nc shift l node insert key) 4 := by
  refine trieExpand.fixpoint_induct c node insert key (fun f => ∀ nc shift l m, Cost (c.treeMax + 2) m (f nc shift l)
    (trieExpandC c nc shift l node insert key) 4) ?_ ?_
  · exact adm_fun fun (nc : Nat) => adm_fun fun (shift : Nat) => adm_fun fun (l : Loc) => FlatSpec.ST.adm fun (m : TMem) (r : Nat) (m' : TMem) => ∃ d, (∀ k, trieExpandC c nc shift l node insert key (m, k) =
      some (r, (m', k + d))) ∧ d + (c.treeMax + 2) * m'.supply.length ≤ (c.treeMax + 2) * m.supply.length + 4
  · intro f ih nc shift l m
    rw [trieExpandC]
    refine Cost.alloc fun b m1 => ?_
    refine Cost.bind (.tick (.cellSet _ _) 1) (n2 := c.treeMax + 5) (fun _ _ _ => ?_) (by omega)
    refine Cost.bind (.tick (.clear _ _ _) c.treeMax) (n2 := 5) (fun _ _ _ => ?_) (by omega)
    refine Cost.bind (.tick (.onN _) 1) (n2 := 4) (fun _ _ _ => ?_) (by omega)
    refine Cost.bind (.tick (.slot _ _ _) 0) (n2 := 4) (fun _ _ _ => ?_) (by omega)
    refine Cost.bind (.tick (.slot _ _ _) 0) (n2 := 4) (fun _ _ _ => ?_) (by omega)
    refine Cost.ite (fun _ => ?_) (fun _ => ih _ _ _ _)
    refine Cost.bind (.tick (.cellSet _ _) 1) (n2 := 3) (fun _ _ _ => ?_) (by omega)
    refine Cost.bind (.tick (.onN _) 2) (n2 := 1) (fun _ _ _ => ?_) (by omega)
    exact Cost.bind (.tick (.cellSet _ _) 1) (n2 := 0) (fun _ _ _ => .pure _ _) (by omega)

/-- The blocks from the tagged pointer `p` are in at most `n` levels. -/
def Deep (m : TMem) : Nat → Ptr → Prop
  | 0, p => ¬ trieIsTree p
  | n + 1, p => trieIsTree p → ∀ i, i < c.treeMax → Deep m n (m.cell (trieGetTree p) i)

variable {c}

omit [Arch] in
theorem Deep.congr {m m' : TMem} (h : m'.cell = m.cell) : ∀ {n : Nat} {p : Ptr}, Deep c m n p → Deep c m' n p := by
  intro n
  induction n with
  | zero => exact id
  | succ n ih =>
    intro p hp ht i hi
    rw [h]
    exact ih (hp ht i hi)

omit [Arch] in
theorem Deep.of_rep {m : TMem} : ∀ {t : TrieSpec.TT} {n pre : Nat} {p : Ptr}, TrieSpec.TRep c m t n pre p → Deep c m n p := by
  intro t
  induction t with
  | nil =>
    intro n pre p h
    have h : p = 0 := h
    subst h
    cases n with
    | zero => exact TrieSpec.not_isTree rfl
    | succ n => exact fun ht => absurd ht (TrieSpec.not_isTree rfl)
  | leaf L =>
    intro n pre p h
    have := TrieSpec.not_isTree h.leaf_ptr.2.1
    cases n with
    | zero => exact this
    | succ n => exact fun ht => absurd ht this
  | node b ch ih =>
    intro n pre p h
    obtain ⟨rfl, _, _, _, n', rfl, h⟩ := h
    intro _ i hi
    exact ih i (h i hi)

omit [Arch] in
theorem cellGet_eq {m m' : TMem} {l : Loc} {p : Ptr} (e : cellGet l m = some (p, m')) : p = m.cell l.base l.idx ∧ m' = m := by
  unfold cellGet at e
  split at e
  · cases e; exact ⟨rfl, rfl⟩
  · cases e

omit [Arch] in
theorem onN_eq {x : HM α} {m m' : TMem} {a : α} (e : onN x m = some (a, m')) : m'.cell = m.cell ∧ m'.supply = m.supply := by
  unfold onN zoom at e
  split at e
  · cases e
  · cases e; exact ⟨rfl, rfl⟩

theorem slot_eq (hc : TrieSpec.CfgOk c) {a s i : Nat} {m m' : TMem} (e : trieSlot c a s m = some (i, m')) :
    i < c.treeMax ∧ m' = m := by
  unfold trieSlot shrKey at e
  simp only [run_bind] at e
  split at e
  · simp only [Option.bind_some, run_pure] at e
    cases e
    refine ⟨?_, rfl⟩
    have := hc.max_pos
    refine Nat.lt_of_le_of_lt Nat.and_le_right ?_
    unfold TrieCfg.treeMask
    omega
  · cases e

theorem shrKey_eq {a s i : Nat} {m m' : TMem} (e : shrKey a s m = some (i, m')) : m' = m := by
  unfold shrKey at e
  split at e
  · cases e; rfl
  · cases e

omit [Arch] in
theorem assertT_eq {p : Prop} [Decidable p] {m m' : TMem} {u : Unit} (e : assertT p m = some (u, m')) : p ∧ m' = m := by
  unfold assertT at e
  split at e
  · next h => cases e; exact ⟨h, rfl⟩
  · cases e

theorem cost_bucketInsert (hc : TrieSpec.CfgOk c) (nc : Nat) (insert : Ptr) (key : Nat) : ∀ (n shift : Nat) (l : Loc) (m : TMem),
    Deep c m n (m.cell l.base l.idx) →
    Cost (c.treeMax + 2) m (trieBucketInsert c nc shift l insert key) (trieBucketInsertC c nc shift l insert key) (n + 8) := by
  intro n
  induction n with
  | zero =>
    intro shift l m hd
    rw [trieBucketInsert, trieBucketInsertC]
    refine Cost.bind (.tick (.cellGet _) 1) (n2 := 7) (fun p m1 e => ?_) (by omega)
    obtain ⟨rfl, rfl⟩ := cellGet_eq e
    refine Cost.ite (fun _ => ?_) (fun _ => ?_)
    · refine Cost.bind (.tick (.onN _) 2) (n2 := 1) (fun _ _ _ => ?_) (by omega)
      exact Cost.bind (.tick (.cellSet _ _) 1) (n2 := 0) (fun _ _ _ => .pure _ _) (by omega)
    · refine Cost.ite (fun ht => absurd ht hd) (fun _ => ?_)
      refine Cost.bind (.tick (.onN _) 1) (n2 := 6) (fun _ _ _ => ?_) (by omega)
      refine Cost.ite (fun _ => ?_) (fun _ => (cost_expand c _ _ _ _ _ _ _).mono (by omega))
      exact Cost.bind (.tick (.onN _) 6) (n2 := 0) (fun _ _ _ => .pure _ _) (by omega)
  | succ n ih =>
    intro shift l m hd
    rw [trieBucketInsert, trieBucketInsertC]
    refine Cost.bind (.tick (.cellGet _) 1) (n2 := n + 8) (fun p m1 e => ?_) (by omega)
    obtain ⟨rfl, rfl⟩ := cellGet_eq e
    refine Cost.ite (fun _ => ?_) (fun _ => ?_)
    · refine Cost.bind (.tick (.onN _) 2) (n2 := 1) (fun _ _ _ => ?_) (by omega)
      exact Cost.bind (.tick (.cellSet _ _) 1) (n2 := 0) (fun _ _ _ => .pure _ _) (by omega)
    · refine Cost.ite (fun ht => ?_) (fun _ => ?_)
      · refine Cost.bind (.tick (.slot _ _ _) 0) (n2 := n + 8) (fun i m2 e2 => ?_) (by omega)
        obtain ⟨hi, rfl⟩ := slot_eq hc e2
        exact ih _ _ _ (hd ht i hi)
      · refine Cost.bind (.tick (.onN _) 1) (n2 := 6) (fun _ _ _ => ?_) (by omega)
        refine Cost.ite (fun _ => ?_) (fun _ => (cost_expand c _ _ _ _ _ _ _).mono (by omega))
        exact Cost.bind (.tick (.onN _) 6) (n2 := 0) (fun _ _ _ => .pure _ _) (by omega)

theorem cost_insert (hc : TrieSpec.CfgOk c) (t : Trie) (node : Ptr) (data key : Nat) {n : Nat} {m : TMem}
    (hd : ∀ i, i < c.bucketMax → Deep c m n (m.cell t.base i)) :
    Cost (c.treeMax + 2) m (trieInsert c t node data key) (trieInsertC c t node data key) (n + 10) := by
  unfold trieInsert trieInsertC
  refine Cost.bind (.tick (.shrKey _ _) 0) (n2 := n + 10) (fun b m1 e1 => ?_) (by omega)
  obtain rfl := shrKey_eq e1
  refine Cost.bind (.tick (.assertT _) 0) (n2 := n + 10) (fun _ m2 e2 => ?_) (by omega)
  obtain ⟨hb, rfl⟩ := assertT_eq e2
  refine Cost.bind (.tick (.onN _) 1) (n2 := n + 9) (fun _ m3 e3 => ?_) (by omega)
  refine Cost.bind (.tick (.onN _) 1) (n2 := n + 8) (fun _ m4 e4 => ?_) (by omega)
  have h4 : m4.cell = m2.cell := (onN_eq e4).1.trans (onN_eq e3).1
  refine Cost.bind (cost_bucketInsert hc _ _ _ n _ _ _ ?_) (n2 := 0) (fun _ _ _ => .pure _ _) (by omega)
  rw [h4]
  exact (hd b hb).congr h4

omit [Arch] in
theorem cost_scan (tree : Ptr) : ∀ (k i count last : Nat) (m : TMem),
    Cost 0 m (trieScan tree i count last k) (trieScanC tree i count last k) k := by
  intro k
  induction k with
  | zero => exact fun _ _ _ _ => .pure _ _
  | succ k ih =>
    intro i count last m
    unfold trieScan trieScanC
    refine Cost.bind (.tick (.cellGet _) 1) (n2 := k) (fun p m1 e => ?_) (by omega)
    exact Cost.ite (fun _ => .ite (fun _ => .pure _ _) fun _ => .ite (fun _ => .pure _ _) fun _ => ih _ _ _ _) fun _ => ih _ _ _ _

theorem cost_reduce (c : TrieCfg) : ∀ (back : List Loc) (nc : Nat) (m : TMem),
    Cost 0 m (trieReduce c nc back) (trieReduceC c nc back) ((c.treeMax + 3) * back.length) := by
  intro back
  induction back with
  | nil => exact fun _ _ => .pure _ _
  | cons l back ih =>
    intro nc m
    unfold trieReduce trieReduceC
    have en : (c.treeMax + 3) * (l :: back).length = (c.treeMax + 3) * back.length + c.treeMax + 3 := by
      rw [List.length_cons, Nat.mul_add, Nat.mul_one]; omega
    rw [en]
    refine Cost.bind (.tick (.cellGet _) 1) (n2 := (c.treeMax + 3) * back.length + c.treeMax + 2) (fun p m1 e => ?_) (by omega)
    refine Cost.bind (cost_scan _ _ _ _ _ _) (n2 := (c.treeMax + 3) * back.length + 2) (fun r m2 e2 => ?_) (by omega)
    cases r with
    | none => exact .pure _ _
    | some r =>
      obtain ⟨count, last⟩ := r
      refine Cost.bind (.tick (.assertT _) 0) (n2 := (c.treeMax + 3) * back.length + 2) (fun _ _ _ => ?_) (by omega)
      refine Cost.bind (.tick (.cellGet _) 1) (n2 := (c.treeMax + 3) * back.length + 1) (fun _ _ _ => ?_) (by omega)
      refine Cost.bind (.tick (.cellSet _ _) 1) (n2 := (c.treeMax + 3) * back.length) (fun _ _ _ => ?_) (by omega)
      exact Cost.bind (.tick (.blockFree _) 0) (n2 := (c.treeMax + 3) * back.length) (fun _ _ _ => ih _ _) (by omega)

/-- The array `let_back` bounds the levels. -/
theorem cost_bucketRemove (c : TrieCfg) (nc : Nat) (remove : Ptr) (key : Nat) : ∀ (d shift : Nat) (l : Loc) (back : List Loc) (m : TMem),
    back.length + d = c.levelMax + 1 →
    Cost 0 m (trieBucketRemoveExisting c nc shift l remove key back) (trieBucketRemoveExistingC c nc shift l remove key back)
      ((c.treeMax + 3) * (back.length + d) + d + 12) := by
  have fin : ∀ (l : Loc) (ptr : Ptr) (back : List Loc) (m : TMem) (b : Nat), (c.treeMax + 3) * back.length + 11 ≤ b →
      Cost 0 m (do
        let remove ← triePick ptr remove key
        if remove = 0 then
          return (nc, 0)
        let x ← cellGet l
        let x ← onN (listRemoveExisting x remove)
        cellSet l x.1
        let now ← cellGet l
        if now ≠ 0 then
          return (nc, remove)
        let nc ← trieReduce c nc back
        return (nc, remove)) (do
        let remove ← Tommy.tick (if remove = 0 then 1 else 0) (triePick ptr remove key)
        if remove = 0 then
          return (nc, 0)
        let x ← Tommy.tick 1 (cellGet l)
        let x ← Tommy.tick 7 (onN (listRemoveExisting x remove))
        Tommy.tick 1 (cellSet l x.1)
        let now ← Tommy.tick 1 (cellGet l)
        if now ≠ 0 then
          return (nc, remove)
        let nc ← trieReduceC c nc back
        return (nc, remove)) b := by
    intro l ptr back m b hb
    refine Cost.bind ((Cost.tick (.pick _ _ _) _).mono (show _ ≤ 1 by split <;> omega)) (n2 := (c.treeMax + 3) * back.length + 10) (fun p m1 e => ?_) (by omega)
    refine Cost.ite (fun _ => .pure _ _) fun _ => ?_
    refine Cost.bind (.tick (.cellGet _) 1) (n2 := (c.treeMax + 3) * back.length + 9) (fun p m1 e => ?_) (by omega)
    refine Cost.bind (.tick (.onN _) 7) (n2 := (c.treeMax + 3) * back.length + 2) (fun p m1 e => ?_) (by omega)
    refine Cost.bind (.tick (.cellSet _ _) 1) (n2 := (c.treeMax + 3) * back.length + 1) (fun p m1 e => ?_) (by omega)
    refine Cost.bind (.tick (.cellGet _) 1) (n2 := (c.treeMax + 3) * back.length) (fun p m1 e => ?_) (by omega)
    refine Cost.ite (fun _ => .pure _ _) fun _ => ?_
    exact Cost.bind (cost_reduce c _ _ _) (n2 := 0) (fun _ _ _ => .pure _ _) (by omega)
  intro d
  induction d with
  | zero =>
    intro shift l back m hd
    rw [trieBucketRemoveExisting, trieBucketRemoveExistingC]
    refine Cost.bind (.tick (.cellGet _) 1) (n2 := (c.treeMax + 3) * back.length + 11) (fun p m1 e => ?_) (by simp only [Nat.add_zero]; omega)
    refine Cost.ite (fun _ => .pure _ _) fun _ => ?_
    refine Cost.ite (fun ht => ?_) (fun _ => fin _ _ _ _ _ (Nat.le_refl _))
    refine Cost.bind (.tick (.assertT _) 0) (n2 := 0) (fun _ m2 e2 => ?_) (by omega)
    exact absurd (assertT_eq e2).1 (by omega)
  | succ d ih =>
    intro shift l back m hd
    rw [trieBucketRemoveExisting, trieBucketRemoveExistingC]
    refine Cost.bind (.tick (.cellGet _) 1) (n2 := (c.treeMax + 3) * (back.length + (d + 1)) + d + 12) (fun p m1 e => ?_) (by omega)
    refine Cost.ite (fun _ => .pure _ _) fun _ => ?_
    refine Cost.ite (fun ht => ?_) (fun _ => fin _ _ _ _ _ ?_)
    · refine Cost.bind (.tick (.assertT _) 0) (n2 := (c.treeMax + 3) * (back.length + (d + 1)) + d + 12) (fun _ m2 e2 => ?_) (by omega)
      refine Cost.bind (.tick (.slot _ _ _) 0) (n2 := (c.treeMax + 3) * (back.length + (d + 1)) + d + 12) (fun i m3 e3 => ?_) (by omega)
      have := ih (sub32 shift c.treeBit) ⟨trieGetTree p, i⟩ (l :: back) m3 (by rw [List.length_cons]; omega)
      rw [List.length_cons] at this
      refine this.mono ?_
      rw [show back.length + 1 + d = back.length + (d + 1) from by omega]
    · have : (c.treeMax + 3) * back.length ≤ (c.treeMax + 3) * (back.length + (d + 1)) := Nat.mul_le_mul_left _ (by omega)
      omega

theorem cost_remove (c : TrieCfg) (t : Trie) (key : Nat) (m : TMem) :
    Cost 0 m (trieRemove c t key) (trieRemoveC c t key) ((c.treeMax + 4) * (c.levelMax + 1) + 13) := by
  have en : (c.treeMax + 4) * (c.levelMax + 1) = (c.treeMax + 3) * (c.levelMax + 1) + (c.levelMax + 1) := by
    rw [Nat.add_mul, Nat.add_mul c.treeMax 3]; omega
  unfold trieRemove trieRemoveC
  refine Cost.bind (.tick (.shrKey _ _) 0) (n2 := (c.treeMax + 4) * (c.levelMax + 1) + 13) (fun b m1 e1 => ?_) (by omega)
  refine Cost.bind (.tick (.assertT _) 0) (n2 := (c.treeMax + 4) * (c.levelMax + 1) + 13) (fun _ m2 e2 => ?_) (by omega)
  refine Cost.bind (cost_bucketRemove c _ _ _ (c.levelMax + 1) _ _ [] _ (by simp)) (n2 := 1) (fun _ _ _ => ?_)
    (by simp only [List.length_nil, Nat.zero_add]; omega)
  refine Cost.ite (fun _ => .pure _ _) fun _ => ?_
  exact Cost.bind (.tick (.onN _) 1) (n2 := 0) (fun _ _ _ => .pure _ _) (by omega)

theorem cost_removeExisting (c : TrieCfg) (t : Trie) (node : Ptr) (m : TMem) :
    Cost 0 m (trieRemoveExisting c t node) (trieRemoveExistingC c t node) ((c.treeMax + 4) * (c.levelMax + 1) + 14) := by
  have en : (c.treeMax + 4) * (c.levelMax + 1) = (c.treeMax + 3) * (c.levelMax + 1) + (c.levelMax + 1) := by
    rw [Nat.add_mul, Nat.add_mul c.treeMax 3]; omega
  unfold trieRemoveExisting trieRemoveExistingC
  refine Cost.bind (.tick (.onN _) 1) (n2 := (c.treeMax + 4) * (c.levelMax + 1) + 13) (fun b m1 e1 => ?_) (by omega)
  refine Cost.bind (.tick (.shrKey _ _) 0) (n2 := (c.treeMax + 4) * (c.levelMax + 1) + 13) (fun b m1 e1 => ?_) (by omega)
  refine Cost.bind (.tick (.assertT _) 0) (n2 := (c.treeMax + 4) * (c.levelMax + 1) + 13) (fun _ m2 e2 => ?_) (by omega)
  refine Cost.bind (cost_bucketRemove c _ _ _ (c.levelMax + 1) _ _ [] _ (by simp)) (n2 := 1) (fun _ _ _ => ?_)
    (by simp only [List.length_nil, Nat.zero_add]; omega)
  refine Cost.bind (.tick (.assertT _) 0) (n2 := 1) (fun _ m2 e2 => ?_) (by omega)
  exact Cost.bind (.tick (.onN _) 1) (n2 := 0) (fun _ _ _ => .pure _ _) (by omega)

theorem cost_bucketLoop (hc : TrieSpec.CfgOk c) (key : Nat) : ∀ (n : Nat) (p : Ptr) (shift : Nat) (m : TMem), Deep c m n p →
    Cost 0 m (trieBucketLoop c p shift key) (trieBucketLoopC c p shift key) (n + 1) := by
  intro n
  induction n with
  | zero =>
    intro p shift m hd
    rw [trieBucketLoop, trieBucketLoopC]
    refine Cost.ite (fun _ => .pure _ _) fun _ => Cost.ite (fun ht => absurd ht hd) fun _ => ?_
    exact Cost.bind (.tick (.onN _) 1) (n2 := 0) (fun _ _ _ => .ite (fun _ => .pure _ _) fun _ => .pure _ _) (by omega)
  | succ n ih =>
    intro p shift m hd
    rw [trieBucketLoop, trieBucketLoopC]
    refine Cost.ite (fun _ => .pure _ _) fun _ => Cost.ite (fun ht => ?_) fun _ => ?_
    · refine Cost.bind (.tick (.slot _ _ _) 0) (n2 := n + 2) (fun i m1 e1 => ?_) (by omega)
      obtain ⟨hi, rfl⟩ := slot_eq hc e1
      refine Cost.bind (.tick (.cellGet _) 1) (n2 := n + 1) (fun q m2 e2 => ?_) (by omega)
      obtain ⟨rfl, rfl⟩ := cellGet_eq e2
      exact ih _ _ _ (hd ht i hi)
    · exact Cost.bind (.tick (.onN _) 1) (n2 := 0) (fun _ _ _ => .ite (fun _ => .pure _ _) fun _ => .pure _ _) (by omega)

theorem cost_bucket (hc : TrieSpec.CfgOk c) (t : Trie) (key : Nat) {n : Nat} {m : TMem} (hd : ∀ i, i < c.bucketMax → Deep c m n (m.cell t.base i)) :
    Cost 0 m (trieBucket c t key) (trieBucketC c t key) (n + 2) := by
  unfold trieBucket trieBucketC
  refine Cost.bind (.tick (.shrKey _ _) 0) (n2 := n + 2) (fun b m1 e1 => ?_) (by omega)
  obtain rfl := shrKey_eq e1
  refine Cost.bind (.tick (.assertT _) 0) (n2 := n + 2) (fun _ m2 e2 => ?_) (by omega)
  obtain ⟨hb, rfl⟩ := assertT_eq e2
  refine Cost.bind (.tick (.cellGet _) 1) (n2 := n + 1) (fun q m3 e3 => ?_) (by omega)
  obtain ⟨rfl, rfl⟩ := cellGet_eq e3
  exact cost_bucketLoop hc _ _ _ _ _ (hd b hb)

theorem cost_search (hc : TrieSpec.CfgOk c) (t : Trie) (key : Nat) {n : Nat} {m : TMem} (hd : ∀ i, i < c.bucketMax → Deep c m n (m.cell t.base i)) :
    Cost 0 m (trieSearch c t key) (trieSearchC c t key) (n + 3) := by
  unfold trieSearch trieSearchC
  refine Cost.bind (cost_bucket hc t key hd) (n2 := 1) (fun q m1 e1 => ?_) (by omega)
  exact Cost.ite (fun _ => .pure _ _) fun _ => .tick (.onN _) 1

/-! ### tommytrieinp -/

open HashSpec (Elem)
open InpSpec (IT IRep elems_node mem_kids kidsElems)

variable (c) in
/-- The nodes from `p` are in at most `n` levels. -/
def IDeep (m : TMem) : Nat → Ptr → Prop
  | 0, p => p = 0
  | n + 1, p => p ≠ 0 → ∀ i, i < c.treeMax → IDeep m n (m.cell p i)

omit [Arch] in
theorem IDeep.zero {m : TMem} (n : Nat) : IDeep c m n 0 := by
  cases n with
  | zero => rfl
  | succ n => exact fun h => absurd rfl h

omit [Arch] in
theorem IDeep.of_rep {m m1 : TMem} : ∀ {t : IT} {n pre : Nat} {p : Ptr}, IRep c m t n pre p →
    (∀ e ∈ t.elems c.treeMax, ∀ i, m1.cell e.node i = m.cell e.node i) → IDeep c m1 (n + 1) p := by
  intro t
  induction t with
  | nil =>
    intro n pre p h _
    have h : p = 0 := h
    rw [h]; exact IDeep.zero _
  | node L ch ih =>
    intro n pre p h hs _ i hi
    obtain ⟨_, _, e0, M, hL, pe⟩ := h.head
    obtain ⟨_, _, _, _, kids⟩ := h
    have he0 : e0 ∈ (IT.node L ch).elems c.treeMax := by rw [elems_node, hL]; simp
    have ec : m1.cell p i = m.cell p i := by rw [pe]; exact hs e0 he0 i
    rw [ec]
    have hk := kids i hi
    cases n with
    | zero =>
      have h2 := hk.2
      rw [hk.1 rfl] at h2
      exact h2
    | succ n => exact ih i hk.2 fun e he => hs e (by rw [elems_node, List.mem_append]; exact Or.inr (mem_kids.2 ⟨i, hi, he⟩))

omit [Arch] in
theorem Keeps.inpLink (insert : Ptr) (r : Loc × Ptr) : Keeps (inpLink insert r) := by
  unfold Tommy.inpLink
  exact .ite (.bind (.onN _) fun _ => .cellSet _ _) (.onN _)

omit [Arch] in
theorem Keeps.inpListRemove (l : Loc) (node : Ptr) : Keeps (inpListRemove l node) := by
  unfold Tommy.inpListRemove
  refine .bind (.cellGet _) fun _ => .bind (.onN _) fun _ => ?_
  unfold inpUnlinkNext
  exact .ite (.bind (.onN _) fun _ => .cellSet _ _) (.bind (.onN _) fun _ => .bind (.onN _) fun _ => .onN _)

omit [Arch] in
theorem Keeps.copy (dst src : Ptr) : ∀ k i, Keeps (copyCells dst src i k) := by
  intro k
  induction k with
  | zero => exact fun _ => Keeps.pure ()
  | succ k ih => exact fun i => (Keeps.cellGet _).bind fun _ => (Keeps.cellSet _ _).bind fun _ => ih _

omit [Arch] in
theorem Keeps.inpReplace (c : TrieCfg) (l : Loc) (remove : Ptr) (r : Option Loc × Ptr) : Keeps (inpReplace c l remove r) := by
  obtain ⟨o, leaf⟩ := r
  cases o with
  | none => exact .pure _
  | some l2 => exact .bind (.cellSet _ _) fun _ => .bind (.copy _ _ _ _) fun _ => .bind (.cellSet _ _) fun _ => .pure _

theorem cost_inpDescend (hc : TrieSpec.CfgOk c) (key : Nat) : ∀ (n shift : Nat) (l : Loc) (m : TMem),
    IDeep c m n (m.cell l.base l.idx) →
    Cost 0 m (inpDescend c shift l key) (inpDescendC c shift l key) (2 * n + 1) := by
  intro n
  induction n with
  | zero =>
    intro shift l m hd
    rw [inpDescend, inpDescendC]
    refine Cost.bind (.tick (.cellGet _) 1) (n2 := 0) (fun p m1 e => ?_) (by omega)
    obtain ⟨rfl, rfl⟩ := cellGet_eq e
    exact Cost.ite (fun _ => .pure _ _) fun h => absurd hd h
  | succ n ih =>
    intro shift l m hd
    rw [inpDescend, inpDescendC]
    refine Cost.bind (.tick (.cellGet _) 1) (n2 := 2 * n + 2) (fun p m1 e => ?_) (by omega)
    obtain ⟨rfl, rfl⟩ := cellGet_eq e
    refine Cost.ite (fun _ => .pure _ _) fun h0 => ?_
    refine Cost.bind (.tick (.onN _) 1) (n2 := 2 * n + 1) (fun _ m2 e2 => ?_) (by omega)
    refine Cost.ite (fun _ => .pure _ _) fun _ => ?_
    refine Cost.bind (.tick (.slot _ _ _) 0) (n2 := 2 * n + 1) (fun i m3 e3 => ?_) (by omega)
    obtain ⟨hi, rfl⟩ := slot_eq hc e3
    refine ih _ _ _ ?_
    have h2 := (onN_eq e2).1
    have := hd h0 i hi
    rw [h2]
    clear ih hd
    revert this
    generalize m1.cell (m1.cell l.base l.idx) i = q
    intro hq
    have : ∀ n q, IDeep c m1 n q → IDeep c m3 n q := by
      intro n
      induction n with
      | zero => exact fun q h => h
      | succ n ih => intro q h h0 i hi; rw [h2]; exact ih _ (h h0 i hi)
    exact this n q hq

theorem cost_inpBucketLoop (hc : TrieSpec.CfgOk c) (key : Nat) : ∀ (n : Nat) (p : Ptr) (shift : Nat) (m : TMem), IDeep c m n p →
    Cost 0 m (inpBucketLoop c p shift key) (inpBucketLoopC c p shift key) (2 * n) := by
  intro n
  induction n with
  | zero =>
    intro p shift m hd
    rw [inpBucketLoop, inpBucketLoopC]
    exact Cost.ite (fun _ => .pure _ _) fun h => absurd hd h
  | succ n ih =>
    intro p shift m hd
    rw [inpBucketLoop, inpBucketLoopC]
    refine Cost.ite (fun _ => .pure _ _) fun h0 => ?_
    refine Cost.bind (.tick (.onN _) 1) (n2 := 2 * n + 1) (fun _ m2 e2 => ?_) (by omega)
    refine Cost.ite (fun _ => .pure _ _) fun _ => ?_
    refine Cost.bind (.tick (.slot _ _ _) 0) (n2 := 2 * n + 1) (fun i m3 e3 => ?_) (by omega)
    obtain ⟨hi, rfl⟩ := slot_eq hc e3
    refine Cost.bind (.tick (.cellGet _) 1) (n2 := 2 * n) (fun q m4 e4 => ?_) (by omega)
    obtain ⟨rfl, rfl⟩ := cellGet_eq e4
    refine ih _ _ _ ?_
    have h2 := (onN_eq e2).1
    have key : ∀ n q, IDeep c m n q → IDeep c m4 n q := by
      intro n
      induction n with
      | zero => exact fun q h => h
      | succ n ih => intro q h h0 i hi; rw [h2]; exact ih _ (h h0 i hi)
    have := key n _ (hd h0 i hi)
    rw [h2]
    exact this

theorem cost_inpBucket (hc : TrieSpec.CfgOk c) (t : InpTrie) (key : Nat) {n : Nat} {m : TMem}
    (hd : ∀ i, i < inpBucketMax c → IDeep c m n (m.cell t.base i)) :
    Cost 0 m (inpBucket c t key) (inpBucketC c t key) (2 * n + 1) := by
  unfold inpBucket inpBucketC
  refine Cost.bind (.tick (.shrKey _ _) 0) (n2 := 2 * n + 1) (fun b m1 e1 => ?_) (by omega)
  obtain rfl := shrKey_eq e1
  refine Cost.bind (.tick (.assertT _) 0) (n2 := 2 * n + 1) (fun _ m2 e2 => ?_) (by omega)
  obtain ⟨hb, rfl⟩ := assertT_eq e2
  refine Cost.bind (.tick (.cellGet _) 1) (n2 := 2 * n) (fun q m3 e3 => ?_) (by omega)
  obtain ⟨rfl, rfl⟩ := cellGet_eq e3
  exact cost_inpBucketLoop hc _ _ _ _ _ (hd b hb)

theorem cost_inpSearch (hc : TrieSpec.CfgOk c) (t : InpTrie) (key : Nat) {n : Nat} {m : TMem}
    (hd : ∀ i, i < inpBucketMax c → IDeep c m n (m.cell t.base i)) :
    Cost 0 m (inpSearch c t key) (inpSearchC c t key) (2 * n + 2) := by
  unfold inpSearch inpSearchC
  refine Cost.bind (cost_inpBucket hc t key hd) (n2 := 1) (fun q m1 e1 => ?_) (by omega)
  exact Cost.ite (fun _ => .pure _ _) fun _ => .tick (.onN _) 1

omit [Arch] in
theorem clear_eq {b : Ptr} : ∀ {k i : Nat} {m m' : TMem} {u : Unit}, clearCells b i k m = some (u, m') →
    ∀ d, d ≠ b → m'.cell d = m.cell d := by
  intro k
  induction k with
  | zero => intro i m m' u e d _; cases e; rfl
  | succ k ih =>
    intro i m m' u e d hd
    unfold clearCells at e
    rw [run_bind] at e
    obtain ⟨⟨_, m1⟩, e1, e2⟩ := Option.bind_eq_some_iff.1 e
    rw [ih e2 d hd]
    unfold cellSet at e1
    split at e1
    · cases e1
      show upd m.cell b _ d = _
      rw [upd_ne hd]
    · cases e1

theorem cost_inpInsert (hc : TrieSpec.CfgOk c) (t : InpTrie) (node : Ptr) (data key : Nat) {n : Nat} {m : TMem}
    (hd : ∀ m1 : TMem, (∀ d, d ≠ node → m1.cell d = m.cell d) → ∀ i, i < inpBucketMax c → IDeep c m1 n (m1.cell t.base i)) :
    Cost 0 m (inpInsert c t node data key) (inpInsertC c t node data key) (2 * n + c.treeMax + 9) := by
  unfold inpInsert inpInsertC inpBucketInsert inpBucketInsertC
  refine Cost.bind (.tick (.shrKey _ _) 0) (n2 := 2 * n + c.treeMax + 9) (fun b m1 e1 => ?_) (by omega)
  obtain rfl := shrKey_eq e1
  refine Cost.bind (.tick (.assertT _) 0) (n2 := 2 * n + c.treeMax + 9) (fun _ m2 e2 => ?_) (by omega)
  obtain ⟨hb, rfl⟩ := assertT_eq e2
  refine Cost.bind (.tick (.onN _) 1) (n2 := 2 * n + c.treeMax + 8) (fun _ m3 e3 => ?_) (by omega)
  refine Cost.bind (.tick (.onN _) 1) (n2 := 2 * n + c.treeMax + 7) (fun _ m4 e4 => ?_) (by omega)
  have h4 : m4.cell = m2.cell := (onN_eq e4).1.trans (onN_eq e3).1
  refine Cost.bind (.tick (.clear _ _ _) c.treeMax) (n2 := 2 * n + 7) (fun _ m5 e5 => ?_) (by omega)
  refine Cost.bind (n1 := 2 * n + 7) (n2 := 0) ?_ (fun _ _ _ => .pure _ _) (by omega)
  refine Cost.bind (cost_inpDescend hc _ n _ _ _ ?_) (n2 := 6) (fun r _ _ => .tick (.inpLink _ _) 6) (by omega)
  exact hd m5 (fun d hd => by rw [clear_eq e5 d hd, h4]) b hb

omit [Arch] in
theorem cost_inpLeaf : ∀ (n k : Nat) (lo : Option Loc) (p : Ptr) (m : TMem), (∀ i, i < c.treeMax → IDeep c m n (m.cell p i)) →
    k ≤ c.treeMax → Cost 0 m (inpLeaf c lo p k) (inpLeafC c lo p k) (k + n * (c.treeMax + 1)) := by
  intro n
  induction n with
  | zero =>
    intro k
    induction k with
    | zero =>
      intro lo p m _ _
      rw [inpLeaf, inpLeafC]
      exact Cost.ite (fun _ => .pure _ _) fun h => absurd rfl h
    | succ k ih =>
      intro lo p m hd hk
      rw [inpLeaf, inpLeafC]
      refine Cost.ite (fun _ => .pure _ _) fun _ => ?_
      refine Cost.bind (.tick (.cellGet _) 1) (n2 := k) (fun q m1 e => ?_) (by omega)
      obtain ⟨rfl, rfl⟩ := cellGet_eq e
      refine Cost.ite (fun h => absurd (hd k (by omega)) h) fun _ => ?_
      exact (ih lo p m1 hd (by omega)).mono (by omega)
  | succ n ihn =>
    intro k
    induction k with
    | zero =>
      intro lo p m _ _
      rw [inpLeaf, inpLeafC]
      exact Cost.ite (fun _ => .pure _ _) fun h => absurd rfl h
    | succ k ih =>
      intro lo p m hd hk
      rw [inpLeaf, inpLeafC]
      refine Cost.ite (fun _ => .pure _ _) fun _ => ?_
      refine Cost.bind (.tick (.cellGet _) 1) (n2 := k + (n + 1) * (c.treeMax + 1)) (fun q m1 e => ?_) (by omega)
      obtain ⟨rfl, rfl⟩ := cellGet_eq e
      refine Cost.ite (fun h => ?_) fun _ => ih lo p m1 hd (by omega)
      refine Cost.bind (.tick (.cellGet _) 1) (n2 := c.treeMax + n * (c.treeMax + 1)) (fun q m2 e2 => ?_)
        (by rw [Nat.succ_mul]; omega)
      obtain ⟨rfl, rfl⟩ := cellGet_eq e2
      exact ihn _ _ _ _ (hd k (by omega) h) (Nat.le_refl _)

omit [Arch] in
/-- After the removal from the list the cell is the same, or the removed node was the head. -/
theorem listRemove_eq {l : Loc} {node : Ptr} {m m1 : TMem} {u : Unit} (e : inpListRemove l node m = some (u, m1)) :
    m1.cell = m.cell ∨ (node = m.cell l.base l.idx ∧ ∀ d, d ≠ l.base → m1.cell d = m.cell d) := by
  unfold inpListRemove at e
  rw [run_bind] at e
  obtain ⟨⟨head, m2⟩, e1, e⟩ := Option.bind_eq_some_iff.1 e
  obtain ⟨rfl, rfl⟩ := cellGet_eq e1
  rw [run_bind] at e
  obtain ⟨⟨_, m3⟩, e2, e⟩ := Option.bind_eq_some_iff.1 e
  have h3 := (onN_eq e2).1
  simp only [inpUnlinkNext, run_ite] at e
  split at e
  · next h =>
    right
    refine ⟨h.symm, fun d hd => ?_⟩
    rw [run_bind] at e
    obtain ⟨⟨_, m4⟩, e3, e⟩ := Option.bind_eq_some_iff.1 e
    have h4 := (onN_eq e3).1
    unfold cellSet at e
    simp only at e
    split at e
    · cases e
      show upd m4.cell l.base _ d = _
      rw [upd_ne hd, h4, h3]
    · cases e
  · left
    rw [run_bind] at e
    obtain ⟨⟨_, m4⟩, e3, e⟩ := Option.bind_eq_some_iff.1 e
    rw [run_bind] at e
    obtain ⟨⟨_, m5⟩, e4, e⟩ := Option.bind_eq_some_iff.1 e
    rw [(onN_eq e).1, (onN_eq e4).1, (onN_eq e3).1, h3]

omit [Arch] in
theorem cost_inpUnlink (l : Loc) (remove : Ptr) {n pre : Nat} {t : IT} {m : TMem} (hr : IRep c m t n pre (m.cell l.base l.idx))
    (hb : l.base ∉ (t.elems c.treeMax).map Elem.node) (h0 : m.cell l.base l.idx ≠ 0) :
    Cost 0 m (inpUnlink c l (m.cell l.base l.idx) remove) (inpUnlinkC c l (m.cell l.base l.idx) remove)
      (n * (c.treeMax + 1) + 3 * c.treeMax + 10) := by
  unfold inpUnlink inpUnlinkC inpListRemoveC
  refine Cost.bind (.tick (.inpListRemove _ _) 7) (n2 := n * (c.treeMax + 1) + 3 * c.treeMax + 3) (fun u m1 e1 => ?_) (by omega)
  refine Cost.bind (.tick (.cellGet _) 1) (n2 := n * (c.treeMax + 1) + 3 * c.treeMax + 2) (fun now m2 e2 => ?_) (by omega)
  obtain ⟨rfl, rfl⟩ := cellGet_eq e2
  refine Cost.ite (fun _ => .pure _ _) fun hne => Cost.ite (fun _ => ?_) fun _ => ?_
  · exact Cost.bind (.tick (.copy _ _ _ _) (2 * c.treeMax)) (n2 := 0) (fun _ _ _ => .pure _ _) (by omega)
  · rcases listRemove_eq e1 with h | ⟨rfl, h⟩
    · exact absurd (by rw [h]) hne
    · have hs : ∀ e ∈ t.elems c.treeMax, ∀ i, m2.cell e.node i = m.cell e.node i := fun e he i => by
        rw [h]
        intro heq
        exact hb (heq ▸ List.mem_map_of_mem he)
      refine Cost.bind (cost_inpLeaf n c.treeMax none _ m2 ?_ (Nat.le_refl _)) (n2 := 2 * c.treeMax + 2)
        (fun r _ _ => .tick (.inpReplace _ _ _ _) _) (by omega)
      exact IDeep.of_rep hr hs h0

/-- Where the descent stops. -/
theorem descend_eq (hc : TrieSpec.CfgOk c) (key : Nat) : ∀ (t : IT) (n pre shift : Nat) (l : Loc) (m m1 : TMem) (r : Loc × Ptr),
    IRep c m t n pre (m.cell l.base l.idx) → ((t.elems c.treeMax).map Elem.node).Nodup →
    l.base ∉ (t.elems c.treeMax).map Elem.node → inpDescend c shift l key m = some (r, m1) →
    m1 = m ∧ r.2 = m.cell r.1.base r.1.idx ∧ ∃ t' n' pre', n' ≤ n ∧ IRep c m t' n' pre' r.2 ∧
      r.1.base ∉ (t'.elems c.treeMax).map Elem.node := by
  intro t
  induction t with
  | nil =>
    intro n pre shift l m m1 r hr nd hb e
    have h0 : m.cell l.base l.idx = 0 := hr
    rw [inpDescend, run_bind] at e
    obtain ⟨⟨p, m2⟩, e1, e⟩ := Option.bind_eq_some_iff.1 e
    obtain ⟨rfl, rfl⟩ := cellGet_eq e1
    rw [if_pos h0] at e
    cases e
    exact ⟨rfl, h0.symm, .nil, n, pre, Nat.le_refl _, rfl, by simp [IT.elems]⟩
  | node L ch ih =>
    intro n pre shift l m m1 r hr nd hb e
    rw [inpDescend, run_bind] at e
    obtain ⟨⟨p, m2⟩, e1, e⟩ := Option.bind_eq_some_iff.1 e
    obtain ⟨rfl, rfl⟩ := cellGet_eq e1
    obtain ⟨pok, _, e0, M, hL, pe⟩ := hr.head
    rw [if_neg pok.1, run_bind] at e
    obtain ⟨⟨k, m3⟩, e2, e⟩ := Option.bind_eq_some_iff.1 e
    rw [onN_run (getIndex_run pok)] at e2
    cases e2
    simp only [run_ite] at e
    split at e
    · cases e
      exact ⟨rfl, rfl, .node L ch, n, pre, Nat.le_refl _, hr, hb⟩
    · rw [run_bind] at e
      obtain ⟨⟨i, m4⟩, e3, e⟩ := Option.bind_eq_some_iff.1 e
      obtain ⟨hi, rfl⟩ := slot_eq hc e3
      have kids := hr.2.2.2.2 i hi
      rw [elems_node, List.map_append, List.nodup_append] at nd
      have sub : ∀ q ∈ ((ch i).elems c.treeMax).map Elem.node, q ∈ (kidsElems c.treeMax ch).map Elem.node := by
        intro q hq
        obtain ⟨e, he, rfl⟩ := List.mem_map.1 hq
        exact List.mem_map_of_mem (mem_kids.2 ⟨i, hi, he⟩)
      obtain ⟨a1, a2, t', n', pre', a3, a4, a5⟩ := ih i (n - 1) _ _ _ _ _ _ kids.2
        (flatMap_nodup (InpSpec.kids_nodup nd.2.1) hi)
        (by
          intro hx
          refine nd.2.2 e0.node ?_ _ (sub _ hx) pe.symm
          rw [hL]; simp) e
      exact ⟨a1, a2, t', n', pre', by omega, a4, a5⟩

theorem cost_inpBucketRemove (hc : TrieSpec.CfgOk c) (shift : Nat) (l : Loc) (remove : Ptr) (key : Nat) {n pre : Nat} {t : IT} {m : TMem}
    (hr : IRep c m t n pre (m.cell l.base l.idx)) (nd : ((t.elems c.treeMax).map Elem.node).Nodup)
    (hb : l.base ∉ (t.elems c.treeMax).map Elem.node) :
    Cost 0 m (inpBucketRemove c shift l remove key) (inpBucketRemoveC c shift l remove key)
      (n * (c.treeMax + 3) + 3 * c.treeMax + 13) := by
  have en : n * (c.treeMax + 3) = n * (c.treeMax + 1) + 2 * n := by
    rw [Nat.mul_add, Nat.mul_add]; omega
  unfold inpBucketRemove inpBucketRemoveC
  refine Cost.bind (cost_inpDescend hc key (n + 1) shift l m (IDeep.of_rep hr fun _ _ _ => rfl))
    (n2 := n * (c.treeMax + 1) + 3 * c.treeMax + 10) (fun r m1 e1 => ?_) (by omega)
  obtain ⟨rfl, a2, t', n', pre', hn, a4, a5⟩ := descend_eq hc key t n pre shift l m m1 r hr nd hb e1
  refine Cost.ite (fun _ => .pure _ _) fun h0 => ?_
  rw [a2] at a4 h0 ⊢
  refine (cost_inpUnlink r.1 _ a4 a5 h0).mono ?_
  have : n' * (c.treeMax + 1) ≤ n * (c.treeMax + 1) := Nat.mul_le_mul_right _ hn
  omega

theorem cost_inpRemove (hc : InpSpec.CfgOk c) (t : InpTrie) (key : Nat) {es : List Elem} {m : TMem} (ht : InpSpec.TrieOk c m t es) :
    Cost 0 m (inpRemove c t key) (inpRemoveC c t key) ((c.treeMax + 3) * InpSpec.path c + 2 * c.treeMax + 11) := by
  obtain ⟨ch, T⟩ := ht.top
  unfold inpRemove inpRemoveC
  refine Cost.bind (.tick (.shrKey _ _) 0) (n2 := (c.treeMax + 3) * InpSpec.path c + 2 * c.treeMax + 11) (fun b m1 e1 => ?_) (by omega)
  obtain rfl := shrKey_eq e1
  refine Cost.bind (.tick (.assertT _) 0) (n2 := (c.treeMax + 3) * InpSpec.path c + 2 * c.treeMax + 11) (fun _ m2 e2 => ?_) (by omega)
  obtain ⟨hb, rfl⟩ := assertT_eq e2
  have h3 := hc.three
  have hp : InpSpec.path c = InpSpec.depth c + 1 := by unfold InpSpec.path InpSpec.depth; omega
  refine Cost.bind (cost_inpBucketRemove hc.trie _ _ _ _ (T.kids b hb) (flatMap_nodup (T.all_nodup hc) hb)
    fun hx => T.base (T.nmem hc hb hx)) (n2 := 1) (fun r m3 e3 => ?_) (by
      rw [hp, Nat.mul_add (c.treeMax + 3), Nat.mul_comm (c.treeMax + 3)]; omega)
  refine Cost.ite (fun _ => .pure _ _) fun _ => ?_
  exact Cost.bind (.tick (.onN _) 1) (n2 := 0) (fun _ _ _ => .pure _ _) (by omega)

omit [Arch] in
theorem getIndex_eq {p : Ptr} {m m' : TMem} {k : Nat} (e : onN (getIndex p) m = some (k, m')) : m' = m := by
  by_cases h : m.heap.ok p
  · rw [onN_run (getIndex_run h)] at e
    cases e; rfl
  · simp [onN, zoom, getIndex, h] at e

theorem cost_inpRemoveExisting (hc : InpSpec.CfgOk c) (t : InpTrie) (node : Ptr) {es : List Elem} {m : TMem} (ht : InpSpec.TrieOk c m t es) :
    Cost 0 m (inpRemoveExisting c t node) (inpRemoveExistingC c t node) ((c.treeMax + 3) * InpSpec.path c + 2 * c.treeMax + 12) := by
  obtain ⟨ch, T⟩ := ht.top
  unfold inpRemoveExisting inpRemoveExistingC
  refine Cost.bind (.tick (.onN _) 1) (n2 := (c.treeMax + 3) * InpSpec.path c + 2 * c.treeMax + 11) (fun key m0 e0 => ?_) (by omega)
  obtain rfl : m0 = m := getIndex_eq e0
  refine Cost.bind (.tick (.shrKey _ _) 0) (n2 := (c.treeMax + 3) * InpSpec.path c + 2 * c.treeMax + 11) (fun b m1 e1 => ?_) (by omega)
  obtain rfl := shrKey_eq e1
  refine Cost.bind (.tick (.assertT _) 0) (n2 := (c.treeMax + 3) * InpSpec.path c + 2 * c.treeMax + 11) (fun _ m2 e2 => ?_) (by omega)
  obtain ⟨hb, rfl⟩ := assertT_eq e2
  have h3 := hc.three
  have hp : InpSpec.path c = InpSpec.depth c + 1 := by unfold InpSpec.path InpSpec.depth; omega
  refine Cost.bind (cost_inpBucketRemove hc.trie _ _ _ _ (T.kids b hb) (flatMap_nodup (T.all_nodup hc) hb)
    fun hx => T.base (T.nmem hc hb hx)) (n2 := 1) (fun r m3 e3 => ?_) (by
      rw [hp, Nat.mul_add (c.treeMax + 3), Nat.mul_comm (c.treeMax + 3)]; omega)
  refine Cost.bind (.tick (.assertT _) 0) (n2 := 1) (fun _ m4 e4 => ?_) (by omega)
  exact Cost.bind (.tick (.onN _) 1) (n2 := 0) (fun _ _ _ => .pure _ _) (by omega)

/-! ### The calls -/

theorem trie_step (hc : TrieSpec.CfgOk c) {s : TrieSpec.St} {a : TrieSpec.Ab} (hr : (TrieSpec.sys c).Reach s a) (op : TrieSpec.Op)
    (hl : TrieSpec.legal c a op) : ∃ r n, TrieSpec.step c op s = some r ∧ TrieSpec.stepC c op s = some (r, n) ∧
      n ≤ TrieSpec.bound c op := by
  have i := TrieSpec.reach_inv hc s a hr
  obtain ⟨out, s', e, al⟩ := TrieSpec.correct hc s a hr op hl
  have e : TrieSpec.step c op s = some (out, s') := e
  have al : TrieSpec.allowed c a op out := al
  have deep : ∀ v, (a.val v).isSome → ∀ supply i, i < c.bucketMax →
      Deep c (TrieSpec.start s supply) (levels c) ((TrieSpec.start s supply).cell (s.var v).base i) := by
    intro v hv supply j hj
    obtain ⟨es, hv⟩ := Option.isSome_iff_exists.1 hv
    obtain ⟨ch, T⟩ := (i.start hc supply hv).top
    exact Deep.of_rep (T.kids j hj)
  have main : ∀ {α : Type} {supply : List Ptr} {y : TM α} {x : TC α} {res : α → TrieSpec.Res} {var : α → Nat → Trie} {w n : Nat},
      TrieSpec.call supply s y res var = some (out, s') → Cost w (TrieSpec.start s supply) y x n →
      ∃ k, TrieSpec.callC supply s x res var = some ((out, s'), k) ∧ k + w * s'.mem.supply.length ≤ w * supply.length + n ∧
        out.got = supply.take (supply.length - s'.mem.supply.length) := by
    intro α supply y x res var w n ec hx
    obtain ⟨⟨r, m'⟩, e1, e2⟩ := Option.map_eq_some_iff.1 ec
    obtain ⟨k, e3, hk⟩ := hx r m' e1
    have e3 := e3 0
    rw [Nat.zero_add] at e3
    cases e2
    refine ⟨k, ?_, hk, rfl⟩
    unfold TrieSpec.callC
    have e3 : x ({ s.mem with supply := supply, freed := [] }, 0) = some (r, (m', k)) := e3
    rw [e3]; rfl
  refine ⟨(out, s'), ?_⟩
  cases op with
  | init v =>
    simp only [TrieSpec.step, TrieSpec.stepC, TrieSpec.bound] at e ⊢
    obtain ⟨k, ek, hk, _⟩ := main (w := 0) (n := c.bucketMax) (x := trieInitC c (s.var v)) e
      (Cost.bind (.tick (.clear _ _ _) _) (n2 := 0) (fun _ _ _ => .pure _ _) (by omega))
    exact ⟨k, e, ek, by simpa using hk⟩
  | insert v p d key supply =>
    simp only [TrieSpec.step, TrieSpec.stepC, TrieSpec.bound] at e ⊢
    obtain ⟨k, ek, hk, hg⟩ := main e (cost_insert hc (s.var v) p d key (deep v hl.1 supply))
    refine ⟨k, e, ek, ?_⟩
    obtain ⟨n, hn, ho⟩ := al
    rw [ho] at hg
    have hlen := congrArg List.length hg
    simp only [List.length_take] at hlen
    show k ≤ (c.treeMax + 3) * levels c + 10
    have hle : supply.length ≤ s'.mem.supply.length + levels c := by omega
    have h2 := Nat.mul_le_mul_left (c.treeMax + 2) hle
    rw [Nat.mul_add] at h2
    have h3 : (c.treeMax + 3) * levels c = (c.treeMax + 2) * levels c + levels c := by
      rw [show c.treeMax + 3 = (c.treeMax + 2) + 1 from rfl, Nat.add_mul, Nat.one_mul]
    omega
  | remove v key =>
    simp only [TrieSpec.step, TrieSpec.stepC, TrieSpec.bound] at e ⊢
    obtain ⟨k, ek, hk, _⟩ := main e (cost_remove c (s.var v) key _)
    rw [hc.level_max] at hk
    exact ⟨k, e, ek, by simpa using hk⟩
  | removeExisting v p =>
    simp only [TrieSpec.step, TrieSpec.stepC, TrieSpec.bound] at e ⊢
    obtain ⟨k, ek, hk, _⟩ := main e (cost_removeExisting c (s.var v) p _)
    rw [hc.level_max] at hk
    exact ⟨k, e, ek, by simpa using hk⟩
  | search v key =>
    simp only [TrieSpec.step, TrieSpec.stepC, TrieSpec.bound] at e ⊢
    obtain ⟨k, ek, hk, _⟩ := main e (cost_search hc (s.var v) key (deep v hl.1 []))
    exact ⟨k, e, ek, by simpa using hk⟩
  | bucket v key =>
    simp only [TrieSpec.step, TrieSpec.stepC, TrieSpec.bound] at e ⊢
    obtain ⟨k, ek, hk, _⟩ := main e (Cost.bind (cost_bucket hc (s.var v) key (deep v hl.1 [])) (n2 := 0)
      (fun _ _ _ => .tick (.onN _) 0) (Nat.le_refl _))
    exact ⟨k, e, ek, by simpa using hk⟩
  | _ => exact ⟨0, e, by simp only [TrieSpec.stepC, e, Option.map_some], Nat.zero_le _⟩

theorem inp_step (hc : InpSpec.CfgOk c) {s : InpSpec.St} {a : InpSpec.Ab} (hr : (InpSpec.sys c).Reach s a) (op : InpSpec.Op)
    (hl : InpSpec.legal c a op) : ∃ r n, InpSpec.step c op s = some r ∧ InpSpec.stepC c op s = some (r, n) ∧
      n ≤ InpSpec.bound c op := by
  have i := InpSpec.reach_inv hc s a hr
  obtain ⟨out, s', e, al⟩ := InpSpec.correct hc s a hr op hl
  have e : InpSpec.step c op s = some (out, s') := e
  have h3 := hc.three
  have hp : InpSpec.depth c + 1 = InpSpec.path c := by unfold InpSpec.path InpSpec.depth; omega
  have deep : ∀ v, (a.val v).isSome → ∀ j, j < inpBucketMax c → IDeep c s.mem (InpSpec.path c) (s.mem.cell (s.var v).base j) := by
    intro v hv j hj
    obtain ⟨es, hv⟩ := Option.isSome_iff_exists.1 hv
    obtain ⟨ch, T⟩ := (i.trie v es hv).top
    rw [← hp]
    exact IDeep.of_rep (T.kids j hj) fun _ _ _ => rfl
  have main : ∀ {α : Type} {y : TM α} {x : TC α} {res : α → InpSpec.Out} {var : α → Nat → InpTrie} {n : Nat},
      InpSpec.call s y res var = some (out, s') → Cost 0 s.mem y x n →
      ∃ k, InpSpec.callC s x res var = some ((out, s'), k) ∧ k ≤ n := by
    intro α y x res var n ec hx
    obtain ⟨⟨r, m'⟩, e1, e2⟩ := Option.map_eq_some_iff.1 ec
    obtain ⟨k, e3, hk⟩ := hx r m' e1
    have e3 := e3 0
    rw [Nat.zero_add] at e3
    cases e2
    refine ⟨k, ?_, by simpa using hk⟩
    unfold InpSpec.callC
    rw [e3]; rfl
  refine ⟨(out, s'), ?_⟩
  cases op with
  | init v =>
    simp only [InpSpec.step, InpSpec.stepC, InpSpec.bound] at e ⊢
    obtain ⟨k, ek, hk⟩ := main (n := inpBucketMax c) (x := inpInitC c (s.var v)) e
      (Cost.bind (.tick (.clear _ _ _) _) (n2 := 0) (fun _ _ _ => .pure _ _) (by omega))
    exact ⟨k, e, ek, hk⟩
  | insert v p d key =>
    simp only [InpSpec.step, InpSpec.stepC, InpSpec.bound] at e ⊢
    obtain ⟨k, ek, hk⟩ := main e (cost_inpInsert hc.trie (s.var v) p d key (n := InpSpec.path c) (by
      intro m1 h1 j hj
      obtain ⟨hv, hpl, hst, _⟩ := hl
      obtain ⟨es, hv⟩ := Option.isSome_iff_exists.1 hv
      obtain ⟨ch, T⟩ := (i.trie v es hv).top
      have hb : (s.var v).base ≠ p := by
        intro h
        have := i.bbase v
        rw [h, (i.node p hpl).2] at this
        cases this
      rw [← hp, h1 _ hb]
      exact IDeep.of_rep (T.kids j hj) fun f hf j' => by
        rw [h1]
        intro h
        exact hst ⟨v, es, hv, h ▸ List.mem_map_of_mem (T.mem hc hj hf)⟩))
    exact ⟨k, e, ek, hk⟩
  | remove v key =>
    simp only [InpSpec.step, InpSpec.stepC, InpSpec.bound] at e ⊢
    obtain ⟨es, hv⟩ := Option.isSome_iff_exists.1 hl.1
    obtain ⟨k, ek, hk⟩ := main e (cost_inpRemove hc (s.var v) key (i.trie v es hv))
    exact ⟨k, e, ek, hk⟩
  | removeExisting v p =>
    simp only [InpSpec.step, InpSpec.stepC, InpSpec.bound] at e ⊢
    obtain ⟨es, hv, _⟩ := hl
    obtain ⟨k, ek, hk⟩ := main e (cost_inpRemoveExisting hc (s.var v) p (i.trie v es hv))
    exact ⟨k, e, ek, hk⟩
  | search v key =>
    simp only [InpSpec.step, InpSpec.stepC, InpSpec.bound] at e ⊢
    obtain ⟨k, ek, hk⟩ := main e (cost_inpSearch hc.trie (s.var v) key (deep v hl.1))
    exact ⟨k, e, ek, hk⟩
  | bucket v key =>
    simp only [InpSpec.step, InpSpec.stepC, InpSpec.bound] at e ⊢
    obtain ⟨k, ek, hk⟩ := main e (Cost.bind (cost_inpBucket hc.trie (s.var v) key (deep v hl.1)) (n2 := 0)
      (fun _ _ _ => .tick (.onN _) 0) (Nat.le_refl _))
    exact ⟨k, e, ek, hk⟩
  | _ => exact ⟨0, e, by simp only [InpSpec.stepC, e, Option.map_some], Nat.zero_le _⟩

/-! ### The bound of the search is reached -/

/-- With another element that differs only in the last digit the search goes down through all the levels. -/
theorem bucketLoop_exact (hc : TrieSpec.CfgOk c) {m : TMem} {k k' : Nat} (hk : k >>> c.treeBit = k' >>> c.treeBit) (hne : k' ≠ k) :
    ∀ (t : TrieSpec.TT) (n pre shift : Nat) (p : Ptr) (x : Nat), TrieSpec.TRep c m t n pre p →
    (∃ e ∈ t.elems c.treeMax, e.hash = k) → 1 ≤ n → (∃ e ∈ t.elems c.treeMax, e.hash = k') →
    shift = c.treeBit * (n - 1) → c.treeBit * n ≤ sizeBit →
    ∃ q, q ≠ 0 ∧ m.heap.ok q ∧ trieBucketLoopC c p shift k (m, x) = some (q, (m, x + n + 1)) := by
  have leaf : ∀ (L : List Elem) (n pre : Nat) (p : Ptr) (shift x : Nat), TrieSpec.TRep c m (.leaf L) n pre p →
      (∃ e ∈ L, e.hash = k) →
      ∃ q, q ≠ 0 ∧ m.heap.ok q ∧ trieBucketLoopC c p shift k (m, x) = some (q, (m, x + 1)) := by
    intro L n pre p shift x h ⟨e, he, hek⟩
    obtain ⟨p0, p2, pok, f, M, rfl, hp⟩ := h.leaf_ptr
    obtain ⟨_, er, _, kk, _, hh⟩ := h
    have hf : m.heap.index p = k := by rw [hp, er.index f (by simp), hh f (by simp), ← hh e he, hek]
    refine ⟨p, p0, pok, ?_⟩
    rw [trieBucketLoopC]
    simp only [run_ite, if_neg p0, if_neg (TrieSpec.not_isTree p2), run_bind, Tommy.tick, onN_run (getIndex_run pok), Option.map_some,
      Option.bind_some, hf, ne_eq, not_true_eq_false, if_false]
    rfl
  intro t
  induction t with
  | nil => intro n pre shift p x _ ⟨e, he, _⟩; simp [TrieSpec.TT.elems] at he
  | leaf L =>
    intro n pre shift p x h ⟨e, he, hek⟩ _ ⟨e', he', hek'⟩ _ _
    obtain ⟨_, _, _, kk, _, hh⟩ := h
    exact absurd ((hek'.symm.trans (hh e' he')).trans ((hh e he).symm.trans hek)) hne
  | node b ch ih =>
    intro n pre shift p x h ⟨e, he, hek⟩ hn ⟨e', he', hek'⟩ hs hsm
    obtain ⟨rfl, hb2, hsz, fat, n', rfl, kids⟩ := h
    obtain ⟨i, hi, he⟩ := List.mem_flatMap.1 he
    obtain ⟨j, hj, he'⟩ := List.mem_flatMap.1 he'
    have hi := List.mem_range.1 hi
    have hj := List.mem_range.1 hj
    have di : TrieSpec.dig c n' k = i := by rw [← hek]; exact TrieSpec.TRep.dig hc kids i hi e he
    have dj : TrieSpec.dig c n' k' = j := by rw [← hek']; exact TrieSpec.TRep.dig hc kids j hj e' he'
    subst hs
    have hlt : c.treeBit * n' < sizeBit := by
      have := hc.bit_pos
      rw [Nat.mul_add] at hsm; omega
    have one : ∀ (n2 : Nat), (∃ q, q ≠ 0 ∧ m.heap.ok q ∧
        trieBucketLoopC c (m.cell b i) (sub32 (c.treeBit * n') c.treeBit) k (m, x + 1) = some (q, (m, x + 1 + n2))) →
        ∃ q, q ≠ 0 ∧ m.heap.ok q ∧ trieBucketLoopC c (b + 1) (c.treeBit * (n' + 1 - 1)) k (m, x) = some (q, (m, x + 1 + n2)) := by
      intro n2 ⟨q, q0, qok, hq⟩
      refine ⟨q, q0, qok, ?_⟩
      rw [trieBucketLoopC]
      simp only [run_ite, if_neg (Nat.succ_ne_zero b), if_pos (TrieSpec.isTree_succ hb2), run_bind, Tommy.tick, Nat.add_sub_cancel,
        TrieSpec.slot_run hc k hlt, Option.map_some, Option.bind_some, di]
      have hg : trieGetTree (b + 1) = b := rfl
      rw [hg, cellGet_run (by show i < m.csize b; rw [hsz]; exact hi)]
      simp only [Option.map_some, Option.bind_some]
      exact hq
    cases n' with
    | zero =>
      have := one 1 (by
        have kid := kids i hi
        cases ht : ch i with
        | nil => rw [ht] at he; simp [TrieSpec.TT.elems] at he
        | leaf L => rw [ht] at kid he; exact leaf L _ _ _ _ _ kid ⟨e, he, hek⟩
        | node b2 ch2 =>
          rw [ht] at kid
          obtain ⟨_, _, _, _, n3, h3, _⟩ := kid
          cases h3)
      simpa using this
    | succ n' =>
      have hij : i = j := by
        rw [← di, ← dj]
        unfold TrieSpec.dig
        rw [Nat.mul_add, Nat.mul_one, Nat.add_comm, Nat.shiftRight_add, Nat.shiftRight_add, hk]
      subst hij
      have := one (n' + 1 + 1) (by
        rw [TrieSpec.sub32_eq hc hlt]
        exact ih i (n' + 1) _ _ _ _ (kids i hi) ⟨e, he, hek⟩ (by omega) ⟨e', he', hek'⟩ (by simp) (by
          exact Nat.le_of_lt hlt))
      rw [show x + (n' + 1 + 1) + 1 = x + 1 + (n' + 1 + 1) by omega]
      exact this

theorem search_exact (hc : TrieSpec.CfgOk c) {s : TrieSpec.St} {a : TrieSpec.Ab} (hr : (TrieSpec.sys c).Reach s a) {v : Nat}
    {es : List Elem} (hv : a.val v = some es) {e f : Elem} (he : e ∈ es) (hf : f ∈ es) (hne : f.hash ≠ e.hash)
    (hs : e.hash / c.treeMax = f.hash / c.treeMax) (h2 : 2 ≤ levels c) :
    ∃ r, TrieSpec.stepC c (.search v e.hash) s = some (r, levels c + 3) := by
  have i := TrieSpec.reach_inv hc s a hr
  obtain ⟨ch, T⟩ := (i.start hc [] hv).top
  have hs' : e.hash >>> c.treeBit = f.hash >>> c.treeBit := by
    rw [Nat.shiftRight_eq_div_pow, Nat.shiftRight_eq_div_pow, ← hc.max, hs]
  have hb := (hc.key_lt e.hash).2 (T.keys e he)
  have same : f.hash >>> c.bucketShift = e.hash >>> c.bucketShift := by
    have : c.bucketShift = c.treeBit + c.treeBit * (levels c - 2) := by
      rw [hc.shift_eq, show levels c - 1 = (levels c - 2) + 1 by omega, Nat.mul_add, Nat.mul_one, Nat.add_comm]
    rw [this, Nat.shiftRight_add, Nat.shiftRight_add, hs']
  have hf' := T.mem_iff hc hf
  rw [same] at hf'
  obtain ⟨q, q0, qok, hq⟩ := bucketLoop_exact hc hs' hne _ (levels c) _ c.bucketShift _ 1 (T.kids _ hb)
    ⟨e, T.mem_iff hc he, rfl⟩ (by omega) ⟨f, hf', rfl⟩ hc.shift_eq hc.small
  have run : trieSearchC c (s.var v) e.hash (TrieSpec.start s [], 0) =
      some ((TrieSpec.start s []).heap.data q, (TrieSpec.start s [], levels c + 3)) := by
    simp only [trieSearchC, trieBucketC, run_bind, Tommy.tick, shrKey_run _ hc.shift_lt, Option.map_some, Option.bind_some,
      assertT_run hb]
    rw [cellGet_run (by show _ < (TrieSpec.start s []).csize (s.var v).base; rw [T.size]; exact hb)]
    simp only [Option.map_some, Option.bind_some]
    rw [hq]
    simp only [Option.bind_some, run_ite, if_neg q0, Tommy.tick, onN_run (getData_run qok), Option.map_some]
    rw [show 1 + levels c + 1 + 1 = levels c + 3 by omega]
  unfold TrieSpec.stepC TrieSpec.callC
  have run' : trieSearchC c (s.var v) e.hash ({ s.mem with supply := [], freed := [] }, 0) = _ := run
  simp only [run', Option.map_some]
  exact ⟨_, rfl⟩

end TrieCost
end Tommy
