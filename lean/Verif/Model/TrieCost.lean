import Verif.Model.TrieInp
/-
  The functions of the two tries with a counter of the accesses to the memory.

  Each function is the one of `Verif.Model.Trie` or `Verif.Model.TrieInp`, where each access to the memory adds to the
  counter the number of words (pointers, keys) read or written.  For the list functions, which have no loops, it is the
  number of the longest path.  The fields `count` and `node_count` of the struct are not counted.  The work of the
  allocator is not counted: the number of its calls is bounded.  `Verif.Props.TrieCost` proves that without the counter
  the functions are the same.
-/
set_option autoImplicit false
namespace Tommy

variable [Arch]

/-- The memory and the counter. -/
abbrev TC := StateT (TMem × Nat) Option

/-- Code that accesses `n` words of the memory, at most. -/
def tick {α : Type} (n : Nat) (x : TM α) : TC α := fun m => (x m.1).map fun r => (r.1, (r.2, m.2 + n))

/-- tommytrie.c:77-88 `tommy_trie_init` -/
def trieInitC (c : TrieCfg) (trie : Trie) : TC Trie := do
  tick c.bucketMax (clearCells trie.base 0 c.bucketMax)
  return { trie with count := 0, nodeCount := 0 }

/-- tommytrie.c:123-150, the label `expand` of `trie_bucket_insert`. -/
def trieExpandC (c : TrieCfg) (nc shift : Nat) (letPtr : Loc) (node insert : Ptr) (key : Nat) : TC Nat := do
  let tree ← tick 0 (blockAlloc c.treeMax)
  let nc := sizeT (nc + 1)
  tick 1 (cellSet letPtr (trieSetTree tree))
  tick c.treeMax (clearCells tree 0 c.treeMax)
  let idx ← tick 1 (onN (getIndex node))
  let i ← tick 0 (trieSlot c idx shift)
  let j ← tick 0 (trieSlot c key shift)
  if i ≠ j then
    tick 1 (cellSet ⟨tree, i⟩ node)
    let l ← tick 2 (onN (listInsertFirst insert))
    tick 1 (cellSet ⟨tree, j⟩ l)
    return nc
  trieExpandC c nc (sub32 shift c.treeBit) ⟨tree, i⟩ node insert key
partial_fixpoint

/-- tommytrie.c:90-151 `trie_bucket_insert`. -/
def trieBucketInsertC (c : TrieCfg) (nc shift : Nat) (letPtr : Loc) (insert : Ptr) (key : Nat) : TC Nat := do
  let ptr ← tick 1 (cellGet letPtr)
  if ptr = 0 then
    let l ← tick 2 (onN (listInsertFirst insert))
    tick 1 (cellSet letPtr l)
    return nc
  if trieIsTree ptr then
    let i ← tick 0 (trieSlot c key shift)
    trieBucketInsertC c nc (sub32 shift c.treeBit) ⟨trieGetTree ptr, i⟩ insert key
  else
    let idx ← tick 1 (onN (getIndex ptr))
    if idx = key then
      tick 6 (onN (listInsertTailNotEmpty ptr insert))
      return nc
    trieExpandC c nc shift letPtr ptr insert key
partial_fixpoint

/-- tommytrie.c:153-168 `tommy_trie_insert` -/
def trieInsertC (c : TrieCfg) (trie : Trie) (node : Ptr) (data key : Nat) : TC Trie := do
  let b ← tick 0 (shrKey key c.bucketShift)
  tick 0 (assertT (b < c.bucketMax))
  tick 1 (onN (setData node data))
  tick 1 (onN (setIndex node key))
  let nc ← trieBucketInsertC c trie.nodeCount c.bucketShift ⟨trie.base, b⟩ node key
  return { trie with count := sizeT (trie.count + 1), nodeCount := nc }

/-- tommytrie.c:228-238, the scan of a block. -/
def trieScanC (tree : Ptr) (i count last : Nat) : Nat → TC (Option (Nat × Nat))
  | 0 => pure (some (count, last))
  | k + 1 => do
    let p ← tick 1 (cellGet ⟨tree, i⟩)
    if p ≠ 0 then
      if trieIsTree p then
        return none
      if count + 1 > 1 then
        return none
      trieScanC tree (i + 1) (count + 1) i k
    else
      trieScanC tree (i + 1) count last k

/-- tommytrie.c:216, 219-252, the label `reduce`. -/
def trieReduceC (c : TrieCfg) (nc : Nat) : List Loc → TC Nat
  | [] => pure nc
  | letPtr :: back => do
    let p ← tick 1 (cellGet letPtr)
    let tree := trieGetTree p
    match ← trieScanC tree 0 0 0 c.treeMax with
    | none => pure nc
    | some (count, last) =>
      tick 0 (assertT (count = 1))
      let q ← tick 1 (cellGet ⟨tree, last⟩)
      tick 1 (cellSet letPtr q)
      tick 0 (blockFree tree)
      trieReduceC c (decT nc) back

/-- tommytrie.c:170-253 `trie_bucket_remove_existing`. -/
def trieBucketRemoveExistingC (c : TrieCfg) (nc shift : Nat) (letPtr : Loc) (remove : Ptr) (key : Nat)
    (back : List Loc) : TC (Nat × Ptr) := do
  let ptr ← tick 1 (cellGet letPtr)
  if ptr = 0 then
    return (nc, 0)
  if trieIsTree ptr then
    tick 0 (assertT (back.length < c.levelMax + 1))
    let i ← tick 0 (trieSlot c key shift)
    trieBucketRemoveExistingC c nc (sub32 shift c.treeBit) ⟨trieGetTree ptr, i⟩ remove key (letPtr :: back)
  else
    let remove ← tick (if remove = 0 then 1 else 0) (triePick ptr remove key)
    if remove = 0 then
      return (nc, 0)
    let l ← tick 1 (cellGet letPtr)
    let x ← tick 7 (onN (listRemoveExisting l remove))
    tick 1 (cellSet letPtr x.1)
    let now ← tick 1 (cellGet letPtr)
    if now ≠ 0 then
      return (nc, remove)
    let nc ← trieReduceC c nc back
    return (nc, remove)
partial_fixpoint

/-- tommytrie.c:255-273 `tommy_trie_remove` -/
def trieRemoveC (c : TrieCfg) (trie : Trie) (key : Nat) : TC (Trie × Nat) := do
  let b ← tick 0 (shrKey key c.bucketShift)
  tick 0 (assertT (b < c.bucketMax))
  let r ← trieBucketRemoveExistingC c trie.nodeCount c.bucketShift ⟨trie.base, b⟩ 0 key []
  let trie := { trie with nodeCount := r.1 }
  if r.2 = 0 then
    return (trie, 0)
  let d ← tick 1 (onN (getData r.2))
  return ({ trie with count := decT trie.count }, d)

/-- tommytrie.c:275-294 `tommy_trie_remove_existing` -/
def trieRemoveExistingC (c : TrieCfg) (trie : Trie) (node : Ptr) : TC (Trie × Nat) := do
  let key ← tick 1 (onN (getIndex node))
  let b ← tick 0 (shrKey key c.bucketShift)
  tick 0 (assertT (b < c.bucketMax))
  let r ← trieBucketRemoveExistingC c trie.nodeCount c.bucketShift ⟨trie.base, b⟩ node key []
  tick 0 (assertT (r.2 = node))
  let d ← tick 1 (onN (getData r.2))
  return ({ trie with count := decT trie.count, nodeCount := r.1 }, d)

/-- tommytrie.c:310-327, the label `recurse` of `tommy_trie_bucket`. -/
def trieBucketLoopC (c : TrieCfg) (ptr : Ptr) (shift key : Nat) : TC Ptr := do
  if ptr = 0 then
    return 0
  if trieIsTree ptr then
    let i ← tick 0 (trieSlot c key shift)
    let p ← tick 1 (cellGet ⟨trieGetTree ptr, i⟩)
    trieBucketLoopC c p (sub32 shift c.treeBit) key
  else
    let idx ← tick 1 (onN (getIndex ptr))
    if idx ≠ key then
      return 0
    return ptr
partial_fixpoint

/-- tommytrie.c:296-328 `tommy_trie_bucket` -/
def trieBucketC (c : TrieCfg) (trie : Trie) (key : Nat) : TC Ptr := do
  let b ← tick 0 (shrKey key c.bucketShift)
  tick 0 (assertT (b < c.bucketMax))
  let ptr ← tick 1 (cellGet ⟨trie.base, b⟩)
  trieBucketLoopC c ptr c.bucketShift key

/-- tommytrie.h:238-246 `tommy_trie_search` -/
def trieSearchC (c : TrieCfg) (trie : Trie) (key : Nat) : TC Nat := do
  let i ← trieBucketC c trie key
  if i = 0 then
    return 0
  tick 1 (onN (getData i))

/-- tommytrieinp.c:96-104 `tommy_trie_inplace_init` -/
def inpInitC (c : TrieCfg) (trie : InpTrie) : TC InpTrie := do
  tick (inpBucketMax c) (clearCells trie.base 0 (inpBucketMax c))
  return { trie with count := 0 }

/-- tommytrieinp.c:79-94 `tommy_trie_inplace_list_remove`: `*let_ptr`, `node->next`, `node->prev` and a store; then at
    most two reads and a store. -/
def inpListRemoveC (letPtr : Loc) (node : Ptr) : TC Unit := tick 7 (inpListRemove letPtr node)

/-- tommytrieinp.c:110-115 and 155-160: the loop which finds the node with the key. -/
def inpDescendC (c : TrieCfg) (shift : Nat) (letPtr : Loc) (key : Nat) : TC (Loc × Ptr) := do
  let node ← tick 1 (cellGet letPtr)
  if node = 0 then
    return (letPtr, 0)
  let k ← tick 1 (onN (getIndex node))
  if k = key then
    return (letPtr, node)
  let i ← tick 0 (trieSlot c key shift)
  inpDescendC c (sub32 shift c.treeBit) ⟨node, i⟩ key
partial_fixpoint

/-- tommytrieinp.c:106-125 `trie_inplace_bucket_insert`. -/
def inpBucketInsertC (c : TrieCfg) (shift : Nat) (letPtr : Loc) (insert : Ptr) (key : Nat) : TC Unit := do
  let r ← inpDescendC c shift letPtr key
  tick 6 (inpLink insert r)

/-- tommytrieinp.c:127-146 `tommy_trie_inplace_insert`. -/
def inpInsertC (c : TrieCfg) (trie : InpTrie) (node : Ptr) (data key : Nat) : TC InpTrie := do
  let b ← tick 0 (shrKey key (inpBucketShift c))
  tick 0 (assertT (b < inpBucketMax c))
  tick 1 (onN (setData node data))
  tick 1 (onN (setIndex node key))
  tick c.treeMax (clearCells node 0 c.treeMax)
  inpBucketInsertC c (inpBucketShift c) ⟨trie.base, b⟩ node key
  return { trie with count := sizeT (trie.count + 1) }

/-- tommytrieinp.c:185-199, the search of a leaf. -/
def inpLeafC (c : TrieCfg) (leafLet : Option Loc) (leaf : Ptr) (k : Nat) : TC (Option Loc × Ptr) := do
  if k = 0 then
    return (leafLet, leaf)
  let p ← tick 1 (cellGet ⟨leaf, k - 1⟩)
  if p ≠ 0 then
    let p ← tick 1 (cellGet ⟨leaf, k - 1⟩)
    inpLeafC c (some ⟨leaf, k - 1⟩) p c.treeMax
  else
    inpLeafC c leafLet leaf (k - 1)
partial_fixpoint

/-- tommytrieinp.c:169-215, the end of `trie_inplace_bucket_remove`. -/
def inpUnlinkC (c : TrieCfg) (letPtr : Loc) (node remove : Ptr) : TC Ptr := do
  inpListRemoveC letPtr remove
  let now ← tick 1 (cellGet letPtr)
  if now = node then
    return remove
  if now ≠ 0 then
    tick (2 * c.treeMax) (copyCells now remove 0 c.treeMax)
    return remove
  let r ← inpLeafC c none remove c.treeMax
  tick (2 * c.treeMax + 2) (inpReplace c letPtr remove r)

/-- tommytrieinp.c:148-216 `trie_inplace_bucket_remove`. -/
def inpBucketRemoveC (c : TrieCfg) (shift : Nat) (letPtr : Loc) (remove : Ptr) (key : Nat) : TC Ptr := do
  let r ← inpDescendC c shift letPtr key
  if r.2 = 0 then
    return 0
  inpUnlinkC c r.1 r.2 (if remove = 0 then r.2 else remove)

/-- tommytrieinp.c:218-236 `tommy_trie_inplace_remove`. -/
def inpRemoveC (c : TrieCfg) (trie : InpTrie) (key : Nat) : TC (InpTrie × Nat) := do
  let b ← tick 0 (shrKey key (inpBucketShift c))
  tick 0 (assertT (b < inpBucketMax c))
  let ret ← inpBucketRemoveC c (inpBucketShift c) ⟨trie.base, b⟩ 0 key
  if ret = 0 then
    return (trie, 0)
  let d ← tick 1 (onN (getData ret))
  return ({ trie with count := decT trie.count }, d)

/-- tommytrieinp.c:238-257 `tommy_trie_inplace_remove_existing`. -/
def inpRemoveExistingC (c : TrieCfg) (trie : InpTrie) (node : Ptr) : TC (InpTrie × Nat) := do
  let key ← tick 1 (onN (getIndex node))
  let b ← tick 0 (shrKey key (inpBucketShift c))
  tick 0 (assertT (b < inpBucketMax c))
  let ret ← inpBucketRemoveC c (inpBucketShift c) ⟨trie.base, b⟩ node key
  tick 0 (assertT (ret = node))
  let d ← tick 1 (onN (getData ret))
  return ({ trie with count := decT trie.count }, d)

/-- tommytrieinp.c:270-273, the loop of `tommy_trie_inplace_bucket`. -/
def inpBucketLoopC (c : TrieCfg) (node : Ptr) (shift key : Nat) : TC Ptr := do
  if node = 0 then
    return 0
  let k ← tick 1 (onN (getIndex node))
  if k = key then
    return node
  let i ← tick 0 (trieSlot c key shift)
  let p ← tick 1 (cellGet ⟨node, i⟩)
  inpBucketLoopC c p (sub32 shift c.treeBit) key
partial_fixpoint

/-- tommytrieinp.c:259-276 `tommy_trie_inplace_bucket`. -/
def inpBucketC (c : TrieCfg) (trie : InpTrie) (key : Nat) : TC Ptr := do
  let b ← tick 0 (shrKey key (inpBucketShift c))
  tick 0 (assertT (b < inpBucketMax c))
  let node ← tick 1 (cellGet ⟨trie.base, b⟩)
  inpBucketLoopC c node (inpBucketShift c) key

/-- tommytrieinp.h:217-225 `tommy_trie_inplace_search`. -/
def inpSearchC (c : TrieCfg) (trie : InpTrie) (key : Nat) : TC Nat := do
  let i ← inpBucketC c trie key
  if i = 0 then
    return 0
  tick 1 (onN (getData i))

end Tommy
