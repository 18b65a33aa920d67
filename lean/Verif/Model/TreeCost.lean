import Verif.Model.Tree
/-
  The insert and the remove of tommytree.c with a counter of the calls.

  Each function is the one of `Verif.Model.Tree` with the additional argument `k`, the count before, and the
  additional result, the count after. The counter is incremented at each call of the comparison function and at each
  call of `tommy_tree_balance`, so any work of the functions is at most a constant for each unit.
  `Verif.Proof.TreeErase` proves that without the counter they are the same functions.
-/
set_option autoImplicit false
namespace Tommy

variable [Arch]

mutual

/-- tommytree.c:53-62 `tommy_tree_rotate_left`. -/
def treeRotateLeftC (root : Ptr) (k : Nat) : HM (Ptr × Nat) := do
  let next ← getNext root
  let c ← getPrev next
  setNext root c
  let b ← treeBalanceC root k
  setPrev next b.1
  treeBalanceC next b.2
partial_fixpoint

/-- tommytree.c:64-73 `tommy_tree_rotate_right`. -/
def treeRotateRightC (root : Ptr) (k : Nat) : HM (Ptr × Nat) := do
  let prev ← getPrev root
  let c ← getNext prev
  setPrev root c
  let b ← treeBalanceC root k
  setNext prev b.1
  treeBalanceC prev b.2
partial_fixpoint

/-- tommytree.c:85-114 `tommy_tree_balance`. Here the counter is incremented. -/
def treeBalanceC (root : Ptr) (k : Nat) : HM (Ptr × Nat) := do
  let delta ← treeDelta root
  if delta < -1 then
    let next ← getNext root
    let d ← treeDelta next
    if d > 0 then
      let r ← treeRotateRightC next (k + 1)
      setNext root r.1
      treeRotateLeftC root r.2
    else
      treeRotateLeftC root (k + 1)
  else if delta > 1 then
    let prev ← getPrev root
    let d ← treeDelta prev
    if d < 0 then
      let r ← treeRotateLeftC prev (k + 1)
      setPrev root r.1
      treeRotateRightC root r.2
    else
      treeRotateRightC root (k + 1)
  else
    setIndex root 0
    let prev ← getPrev root
    if prev ≠ 0 then
      let i ← getIndex prev
      let j ← getIndex root
      if i > j then setIndex root i
    let next ← getNext root
    if next ≠ 0 then
      let i ← getIndex next
      let j ← getIndex root
      if i > j then setIndex root i
    let j ← getIndex root
    setIndex root (sizeT (j + 1))
    return (root, k + 1)
partial_fixpoint

end

/-- tommytree.c:75-83 `tommy_tree_move_right`. -/
def treeMoveRightC (root node : Ptr) (k : Nat) : HM (Ptr × Nat) := do
  if root = 0 then
    return (node, k)
  let next ← getNext root
  let r ← treeMoveRightC next node k
  setNext root r.1
  treeBalanceC root r.2
partial_fixpoint

/-- tommytree.c:116-139 `tommy_tree_insert_node`. Counts the call of the comparison. -/
def treeInsertNodeC (cmp : Nat → Nat → Int) (root let_ : Ptr) (k : Nat) : HM ((Ptr × Ptr) × Nat) := do
  if root = 0 then
    return ((let_, let_), k)
  let a ← getData let_
  let b ← getData root
  let c := cmp a b
  if c < 0 then
    let prev ← getPrev root
    let r ← treeInsertNodeC cmp prev let_ (k + 1)
    setPrev root r.1.1
    let t ← treeBalanceC root r.2
    return ((t.1, r.1.2), t.2)
  if c > 0 then
    let next ← getNext root
    let r ← treeInsertNodeC cmp next let_ (k + 1)
    setNext root r.1.1
    let t ← treeBalanceC root r.2
    return ((t.1, r.1.2), t.2)
  return ((root, root), k + 1)
partial_fixpoint

/-- tommytree.c:141-156 `tommy_tree_insert`. The count starts from zero. -/
def treeInsertC (tree : Tree) (node : Ptr) (data : Nat) : HM ((Tree × Nat) × Nat) := do
  setData node data
  setPrev node 0
  setNext node 0
  setIndex node 0
  let r ← treeInsertNodeC tree.cmp tree.root node 0
  let tree := { tree with root := r.1.1 }
  let tree := if r.1.2 = node then { tree with count := sizeT (tree.count + 1) } else tree
  let d ← getData r.1.2
  return ((tree, d), r.2)

/-- tommytree.c:158-181 `tommy_tree_remove_node`. Counts the call of the comparison. -/
def treeRemoveNodeC (cmp : Nat → Nat → Int) (root : Ptr) (data : Nat) (let_ : Ptr) (k : Nat) :
    HM ((Ptr × Ptr) × Nat) := do
  if root = 0 then
    return ((0, let_), k)
  let b ← getData root
  let c := cmp data b
  if c < 0 then
    let prev ← getPrev root
    let r ← treeRemoveNodeC cmp prev data let_ (k + 1)
    setPrev root r.1.1
    let t ← treeBalanceC root r.2
    return ((t.1, r.1.2), t.2)
  if c > 0 then
    let next ← getNext root
    let r ← treeRemoveNodeC cmp next data let_ (k + 1)
    setNext root r.1.1
    let t ← treeBalanceC root r.2
    return ((t.1, r.1.2), t.2)
  let prev ← getPrev root
  let next ← getNext root
  let t ← treeMoveRightC prev next (k + 1)
  return ((t.1, root), t.2)
partial_fixpoint

/-- tommytree.c:183-195 `tommy_tree_remove`. The count starts from zero. -/
def treeRemoveC (tree : Tree) (data : Nat) : HM ((Tree × Nat) × Nat) := do
  let r ← treeRemoveNodeC tree.cmp tree.root data 0 0
  let tree := { tree with root := r.1.1 }
  if r.1.2 = 0 then
    return ((tree, 0), r.2)
  let tree := { tree with count := decT tree.count }
  let d ← getData r.1.2
  return ((tree, d), r.2)

end Tommy
