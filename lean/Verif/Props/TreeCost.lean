import Verif.Props.Tree
import Verif.Proof.TreeCostRun
/-!
  Properties C55 and C56: the cost of insert and remove of the tree (tommytree.h:29-35, tommytree.c).

  The cost is the number of calls of the comparison function plus the number of calls of `tommy_tree_balance`: anything
  else is at most a constant for each of them. `treeInsertC` and `treeRemoveC` are the functions with this counter. Each
  theorem says also that the run without the counter gives the same result.
-/
set_option autoImplicit false
namespace Tommy

variable [Arch]
open TreeSpec TreeP

/-- Both the models of the insert give the result `r` and the memory `h'`, with the cost `n`. -/
def InsertRun (tr : Tree) (p : Ptr) (d : Nat) (h : Heap) (r : Tree × Nat) (h' : Heap) (n : Nat) : Prop :=
  treeInsertC tr p d h = some ((r, n), h') ∧ treeInsert tr p d h = some (r, h')

/-- Both the models of the remove give the result `r` and the memory `h'`, with the cost `n`. -/
def RemoveRun (tr : Tree) (d : Nat) (h : Heap) (r : Tree × Nat) (h' : Heap) (n : Nat) : Prop :=
  treeRemoveC tr d h = some ((r, n), h') ∧ treeRemove tr d h = some (r, h')

/-- **C55** The cost of an insert in a tree of `n` elements is logarithmic: at most `12 (2 log2 (n + 1) + 1)`. -/
theorem C55_tree_insert_cost (s : TreeSpec.St) (a : TreeSpec.Ab) (hr : TreeSpec.sys.Reach s a) (v : Nat) (o : OSet)
    (ho : a.val v = some o) (p : Ptr) (d : Nat) (hl : a.live p = true) (hs : ¬ a.stored p) :
    ∃ r h' n, InsertRun (s.var v) p d s.heap r h' n ∧ n ≤ 12 * (2 * Nat.log2 (o.elems.length + 1) + 1) := by
  obtain ⟨r, n, h', e, hn⟩ := insertC_run (TreeSpec.reach_inv hr) ho (d := d) hl hs
  exact ⟨r, h', n, ⟨e, treeInsertC_erase _ _ _ _ _ _ e⟩, hn⟩

/-- **C56** The cost of a remove, also of an element not present, is at most of the order of the square of the
    logarithm. -/
theorem C56_tree_remove_cost (s : TreeSpec.St) (a : TreeSpec.Ab) (hr : TreeSpec.sys.Reach s a) (v : Nat) (o : OSet)
    (ho : a.val v = some o) (d : Nat) :
    ∃ r h' n, RemoveRun (s.var v) d s.heap r h' n ∧
      n ≤ (2 * Nat.log2 (o.elems.length + 1) + 1) * (32 * Nat.log2 (o.elems.length + 1) + 2) := by
  obtain ⟨r, n, h', e, hn, _⟩ := removeC_run (TreeSpec.reach_inv hr) ho d
  exact ⟨r, h', n, ⟨e, treeRemoveC_erase _ _ _ _ _ e⟩, hn⟩

/-- **C56** The square is really needed: in every tree that is not empty there is an element whose remove costs at
    least `((log2 (n + 1) - 3) ^ 2 - 1) / 4`. -/
theorem C56_tree_remove_lower (s : TreeSpec.St) (a : TreeSpec.Ab) (hr : TreeSpec.sys.Reach s a) (v : Nat) (o : OSet)
    (ho : a.val v = some o) (hne : o.elems ≠ []) :
    ∃ e ∈ o.elems, ∀ d, o.cmp d e.2 = 0 → ∃ r h' n, RemoveRun (s.var v) d s.heap r h' n ∧
      (Nat.log2 (o.elems.length + 1) - 3) ^ 2 ≤ 4 * n + 1 := by
  have i := TreeSpec.reach_inv hr
  obtain ⟨t, k⟩ := i.tree v o ho
  cases t with
  | nil =>
    have := k.length
    simp only [T.nodes, List.length_nil] at this
    exact absurd (List.length_eq_zero_iff.1 this.symm) hne
  | node q j l r =>
    obtain ⟨e, he, hq⟩ := List.mem_map.1 ((k.mem q).1 (by simp [T.nodes]))
    refine ⟨e, he, fun d hd => ?_⟩
    obtain ⟨r, n, h', run, _, hn⟩ := removeC_run i ho d
    exact ⟨r, h', n, ⟨run, treeRemoveC_erase _ _ _ _ _ run⟩, hn e he (by rw [hq]; exact k.rep.ptr.symm) hd⟩

/-! ### Non vacuity -/

/-- A memory with `n` nodes. -/
def bigHeap (n : Nat) : Heap where
  valid p := decide (p % 32 = 0 ∧ 0 < p ∧ p ≤ 32 * n)
  next p := p * 7
  prev p := p + 1
  data p := p
  index p := p
def bigSt (n : Nat) : TreeSpec.St := { heap := bigHeap n, var := fun v => ⟨v + 5, fun _ _ => 0, v⟩ }
def bigAb (n : Nat) : TreeSpec.Ab := { val := fun _ => none, live := (bigHeap n).valid }

theorem bigInit {n : Nat} (hn : n < 2 ^ (sizeBit - 6)) : TreeSpec.sys.init (bigSt n) (bigAb n) := by
  have hv : ∀ p : Nat, (bigHeap n).valid p = true → p % 32 = 0 ∧ 0 < p ∧ p ≤ 32 * n := fun p h => of_decide_eq_true h
  have bd : ∀ p : Nat, p ≤ 32 * n → p + nodeSize ≤ 2 ^ sizeBit := by arch
  have key : ∀ p q : Nat, p % 32 = 0 → q % 32 = 0 → p ≠ q → p + nodeSize ≤ q ∨ q + nodeSize ≤ p := by arch
  have h0 : (bigHeap n).valid 0 = false := by simp [bigHeap]
  refine ⟨fun _ => rfl, rfl, h0, fun p hp => bd p (hv p hp).2.2, ?_⟩
  exact fun p q hp hq hne => key p q (hv p hp).1 (hv q hq).1 hne

/-- The elements inserted: `0`, `1`, ... in the nodes 32, 64, ... -/
def bigElems (m : Nat) : List (Ptr × Nat) := (List.range m).map fun i => (32 * (i + 1), i)

omit [Arch] in
theorem bigElems_length (m : Nat) : (bigElems m).length = m := by rw [bigElems, List.length_map, List.length_range]

omit [Arch] in
theorem bigElems_mem {m : Nat} {e : Ptr × Nat} (h : e ∈ bigElems m) : ∃ i, i < m ∧ e = (32 * (i + 1), i) := by
  simp only [bigElems, List.mem_map, List.mem_range] at h
  obtain ⟨i, hi, rfl⟩ := h
  exact ⟨i, hi, rfl⟩

omit [Arch] in
theorem bigElems_succ (m : Nat) : bigElems (m + 1) = bigElems m ++ [(32 * (m + 1), m)] := by
  simp [bigElems, List.range_succ]

omit [Arch] in
theorem bigValid {n m : Nat} (h : m < n) : (bigHeap n).valid (32 * (m + 1)) = true := by
  have : 32 * (m + 1) % 32 = 0 ∧ 0 < 32 * (m + 1) ∧ 32 * (m + 1) ≤ 32 * n := by omega
  exact decide_eq_true this

omit [Arch] in
theorem bigNotStored {a : TreeSpec.Ab} {m : Nat} (h : a.val = upd (fun _ => none) 0 (some ⟨tcmp, bigElems m⟩)) :
    ¬ a.stored (32 * (m + 1)) := by
  rintro ⟨v, o, ho, hp⟩
  rw [h] at ho
  simp only [upd] at ho
  split at ho
  · simp only [Option.some.injEq] at ho
    subst ho
    obtain ⟨e, he, hq⟩ := List.mem_map.1 hp
    obtain ⟨i, hi, rfl⟩ := bigElems_mem he
    have hq : 32 * (i + 1) = 32 * (m + 1) := hq
    omega
  · cases ho

/-- There are trees of any size. -/
theorem treeAnySize {n : Nat} (hn : n < 2 ^ (sizeBit - 6)) (m : Nat) (hm : m ≤ n) : ∃ s a, TreeSpec.sys.Reach s a ∧
    a.live = (bigHeap n).valid ∧ a.val = upd (fun _ => none) 0 (some ⟨tcmp, bigElems m⟩) := by
  induction m with
  | zero =>
    obtain ⟨_, s', r, _⟩ := C31_tree_set.extend (.init (bigInit hn)) (.init 0 tcmp) treeCmp
    exact ⟨s', _, r, rfl, rfl⟩
  | succ m ih =>
    obtain ⟨s, a, hr, h1, h2⟩ := ih (by omega)
    obtain ⟨_, s', r, _⟩ := C31_tree_set.extend hr (.insert 0 (32 * (m + 1)) m)
      ⟨by rw [h2]; rfl, by rw [h1]; exact bigValid (by omega), bigNotStored h2⟩
    refine ⟨s', _, r, h1, ?_⟩
    have hf : (OSet.mk tcmp (bigElems m)).find m = none := by
      simp only [OSet.find, List.find?_eq_none]
      intro x hx
      obtain ⟨i, hi, rfl⟩ := bigElems_mem hx
      have : ¬ ((m : Int) - (i : Int) = 0) := by omega
      simp only [tcmp, this, decide_false, Bool.false_eq_true, not_false_eq_true]
    show upd a.val 0 _ = _
    rw [h2]
    funext w
    simp only [upd]
    split
    · simp [hf, bigElems_succ]
    · rfl

attribute [local irreducible] bigElems in
/-- C55 on a tree of 2^20 - 1 elements: the cost of any insert is at most 492. -/
example : ∃ s a o, TreeSpec.sys.Reach s a ∧ a.val 0 = some o ∧ o.elems.length = 2 ^ 20 - 1 ∧
    ∀ d, ∃ r h' n, InsertRun (s.var 0) (32 * (2 ^ 20 - 1 + 1)) d s.heap r h' n ∧ n ≤ 492 := by
  obtain ⟨s, a, hr, h1, h2⟩ := treeAnySize (n := 2 ^ 20) (by arch) (2 ^ 20 - 1) (by omega)
  have ho : a.val 0 = some ⟨tcmp, bigElems (2 ^ 20 - 1)⟩ := by rw [h2]; rfl
  refine ⟨s, a, ⟨tcmp, bigElems (2 ^ 20 - 1)⟩, hr, ho, bigElems_length _, fun d => ?_⟩
  obtain ⟨r, h', n, e, hn⟩ := C55_tree_insert_cost s a hr 0 _ ho (32 * (2 ^ 20 - 1 + 1)) d
    (by rw [h1]; exact bigValid (by omega)) (bigNotStored h2)
  rw [bigElems_length] at hn
  exact ⟨r, h', n, e, hn.trans (by decide)⟩

attribute [local irreducible] bigElems in
/-- C56 on a tree of 2^20 - 1 elements: the cost of any remove is at most 26322, and for one of the elements
    it is at least 72. -/
example : ∃ s a o, TreeSpec.sys.Reach s a ∧ a.val 0 = some o ∧ o.elems.length = 2 ^ 20 - 1 ∧
    (∀ d, ∃ r h' n, RemoveRun (s.var 0) d s.heap r h' n ∧ n ≤ 26322) ∧
    ∃ e ∈ o.elems, ∃ r h' n, RemoveRun (s.var 0) e.2 s.heap r h' n ∧ 72 ≤ n := by
  obtain ⟨s, a, hr, h1, h2⟩ := treeAnySize (n := 2 ^ 20) (by arch) (2 ^ 20 - 1) (by omega)
  have ho : a.val 0 = some ⟨tcmp, bigElems (2 ^ 20 - 1)⟩ := by rw [h2]; rfl
  refine ⟨s, a, ⟨tcmp, bigElems (2 ^ 20 - 1)⟩, hr, ho, bigElems_length _, fun d => ?_, ?_⟩
  · obtain ⟨r, h', n, e, hn⟩ := C56_tree_remove_cost s a hr 0 _ ho d
    rw [bigElems_length] at hn
    exact ⟨r, h', n, e, hn.trans (by decide)⟩
  · have hne : bigElems (2 ^ 20 - 1) ≠ [] := by
      intro h0
      have := bigElems_length (2 ^ 20 - 1)
      rw [h0] at this
      cases this
    obtain ⟨e, he, h⟩ := C56_tree_remove_lower s a hr 0 _ ho hne
    obtain ⟨r, h', n, run, hn⟩ := h e.2 (by simp [tcmp])
    rw [bigElems_length, show Nat.log2 (2 ^ 20 - 1 + 1) = 20 by decide] at hn
    exact ⟨e, he, r, h', n, run, by omega⟩

end Tommy
