import Verif.Model.HashCommon
/-
  Model of tommytree.

  The comparison function is a function of the two payloads: it reads only the objects, that do not change.
  `tommy_ssize_t` has the bits of `tommy_size_t`, its overflow is UB.
-/
set_option autoImplicit false
namespace Tommy

variable [Arch]

/-- tommytree.h:118-122 `tommy_tree`. -/
structure Tree where
  root : Ptr
  cmp : Nat → Nat → Int
  count : Nat

/-- tommytree.c:35-40 `tommy_tree_init`. -/
def treeInit (cmp : Nat → Nat → Int) : Tree := { root := 0, count := 0, cmp }

/-- Conversion from `tommy_size_t` to `tommy_ssize_t`. -/
def ssize (n : Nat) : Int := if n < 2 ^ (sizeBit - 1) then n else (n : Int) - 2 ^ sizeBit

/-- `a - b` of `tommy_ssize_t`. -/
def ssizeSub (a b : Int) : HM Int := fun h => if -2 ^ (sizeBit - 1) ≤ a - b ∧ a - b < 2 ^ (sizeBit - 1) then some (a - b, h) else none

/-- tommytree.c:42-48 `tommy_tree_delta`. -/
def treeDelta (root : Ptr) : HM Int := do
  let prev ← getPrev root
  let left ← if prev ≠ 0 then getIndex prev else pure 0
  let next ← getNext root
  let right ← if next ≠ 0 then getIndex next else pure 0
  ssizeSub (ssize left) (ssize right)

mutual

/-- tommytree.c:53-62 `tommy_tree_rotate_left`. -/
def treeRotateLeft (root : Ptr) : HM Ptr := do
  let next ← getNext root
  let c ← getPrev next
  setNext root c
  let b ← treeBalance root
  setPrev next b
  treeBalance next
partial_fixpoint

/-- tommytree.c:64-73 `tommy_tree_rotate_right`. -/
def treeRotateRight (root : Ptr) : HM Ptr := do
  let prev ← getPrev root
  let c ← getNext prev
  setPrev root c
  let b ← treeBalance root
  setNext prev b
  treeBalance prev
partial_fixpoint

/-- tommytree.c:85-114 `tommy_tree_balance`. -/
def treeBalance (root : Ptr) : HM Ptr := do
  let delta ← treeDelta root
  if delta < -1 then
    let next ← getNext root
    let d ← treeDelta next
    if d > 0 then
      let r ← treeRotateRight next
      setNext root r
      treeRotateLeft root
    else
      treeRotateLeft root
  else if delta > 1 then
    let prev ← getPrev root
    let d ← treeDelta prev
    if d < 0 then
      let r ← treeRotateLeft prev
      setPrev root r
      treeRotateRight root
    else
      treeRotateRight root
  else
    setIndex root 0
    let prev ← getPrev root
    if prev ≠ 0 then
      let i ← getIndex prev
      let j ← getIndex root
      if i > j then setIndex root i
    let next ← getNext root
    if next ≠ 0 then
      let i ← getIndex next
      let j ← getIndex root
      if i > j then setIndex root i
    let j ← getIndex root
    setIndex root (sizeT (j + 1))
    return root
partial_fixpoint

end

/-- tommytree.c:75-83 `tommy_tree_move_right`. -/
def treeMoveRight (root node : Ptr) : HM Ptr := do
  if root = 0 then
    return node
  let next ← getNext root
  let r ← treeMoveRight next node
  setNext root r
  treeBalance root
partial_fixpoint

/-- tommytree.c:116-139 `tommy_tree_insert_node`. Returns also the new value of `*let`. -/
def treeInsertNode (cmp : Nat → Nat → Int) (root let_ : Ptr) : HM (Ptr × Ptr) := do
  if root = 0 then
    return (let_, let_)
  let a ← getData let_
  let b ← getData root
  let c := cmp a b
  if c < 0 then
    let prev ← getPrev root
    let r ← treeInsertNode cmp prev let_
    setPrev root r.1
    let t ← treeBalance root
    return (t, r.2)
  if c > 0 then
    let next ← getNext root
    let r ← treeInsertNode cmp next let_
    setNext root r.1
    let t ← treeBalance root
    return (t, r.2)
  return (root, root)
partial_fixpoint

/-- tommytree.c:141-156 `tommy_tree_insert`. -/
def treeInsert (tree : Tree) (node : Ptr) (data : Nat) : HM (Tree × Nat) := do
  setData node data
  setPrev node 0
  setNext node 0
  setIndex node 0
  let r ← treeInsertNode tree.cmp tree.root node
  let tree := { tree with root := r.1 }
  let tree := if r.2 = node then { tree with count := sizeT (tree.count + 1) } else tree
  let d ← getData r.2
  return (tree, d)

/-- tommytree.c:158-181 `tommy_tree_remove_node`. Returns also the new value of `*let`, `0` if not set. -/
def treeRemoveNode (cmp : Nat → Nat → Int) (root : Ptr) (data : Nat) (let_ : Ptr) : HM (Ptr × Ptr) := do
  if root = 0 then
    return (0, let_)
  let b ← getData root
  let c := cmp data b
  if c < 0 then
    let prev ← getPrev root
    let r ← treeRemoveNode cmp prev data let_
    setPrev root r.1
    let t ← treeBalance root
    return (t, r.2)
  if c > 0 then
    let next ← getNext root
    let r ← treeRemoveNode cmp next data let_
    setNext root r.1
    let t ← treeBalance root
    return (t, r.2)
  let prev ← getPrev root
  let next ← getNext root
  let t ← treeMoveRight prev next
  return (t, root)
partial_fixpoint

/-- tommytree.c:183-195 `tommy_tree_remove`. -/
def treeRemove (tree : Tree) (data : Nat) : HM (Tree × Nat) := do
  let r ← treeRemoveNode tree.cmp tree.root data 0
  let tree := { tree with root := r.1 }
  if r.2 = 0 then
    return (tree, 0)
  let tree := { tree with count := decT tree.count }
  let d ← getData r.2
  return (tree, d)

/-- tommytree.c:197-213 `tommy_tree_search_node`. -/
def treeSearchNode (cmp : Nat → Nat → Int) (root : Ptr) (data : Nat) : HM Ptr := do
  if root = 0 then
    return 0
  let b ← getData root
  let c := cmp data b
  if c < 0 then
    let prev ← getPrev root
    treeSearchNode cmp prev data
  else if c > 0 then
    let next ← getNext root
    treeSearchNode cmp next data
  else
    return root
partial_fixpoint

/-- tommytree.c:215-223 `tommy_tree_search`. -/
def treeSearch (tree : Tree) (data : Nat) : HM Nat := do
  let node ← treeSearchNode tree.cmp tree.root data
  if node = 0 then
    return 0
  getData node

/-- tommytree.c:225-233 `tommy_tree_search_compare`. -/
def treeSearchCompare (tree : Tree) (cmp : Nat → Nat → Int) (arg : Nat) : HM Nat := do
  let node ← treeSearchNode cmp tree.root arg
  if node = 0 then
    return 0
  getData node

/-- tommytree.c:235-242 `tommy_tree_remove_existing`. -/
def treeRemoveExisting (tree : Tree) (node : Ptr) : HM (Tree × Nat) := do
  let data ← getData node
  let r ← treeRemove tree data
  if r.2 ≠ 0 then
    return r
  else
    failure

/-- tommytree.c:244-259 `tommy_tree_foreach_node`. -/
def treeForeachNode (func : Nat → HM Unit) (root : Ptr) : HM Unit := do
  if root = 0 then
    return ()
  let prev ← getPrev root
  treeForeachNode func prev
  let next ← getNext root
  let d ← getData root
  func d
  treeForeachNode func next
partial_fixpoint

/-- tommytree.c:261-264 `tommy_tree_foreach`. -/
def treeForeach (tree : Tree) (func : Nat → HM Unit) : HM Unit := treeForeachNode func tree.root

/-- tommytree.h:216-219 `tommy_tree_count`. -/
def treeCount (tree : Tree) : Nat := tree.count

/-- tommytree.c:288-291 `tommy_tree_memory_usage`. -/
def treeMemoryUsage (tree : Tree) : Nat := sizeT (treeCount tree * nodeSize)

end Tommy
