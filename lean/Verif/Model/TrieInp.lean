import Verif.Model.Trie
/-
  Model of tommytrieinp.h and tommytrieinp.c.

  The fields `next`, `prev`, `data` and `key` of a node (tommytrieinp.h:162-168) are in the heap (`key` is
  `index`), the array `map` of the node `p` is the object with cells of address `p`.  A `TrieCfg` has the
  parameters `TOMMY_TRIE_INPLACE_BIT` (tommytrieinp.h:133) and `TOMMY_TRIE_INPLACE_TREE_MAX`
  (tommytrieinp.h:140); `treeBit` (tommytrieinp.h:145) and `treeMask` (tommytrieinp.c:38) are the same
  expressions as in tommytrie.
-/
set_option autoImplicit false
namespace Tommy

variable [Arch]

/-- tommytrieinp.h:150 `TOMMY_TRIE_INPLACE_BUCKET_BIT` -/
def inpBucketBit (c : TrieCfg) : Nat := c.bit % c.treeBit + 3 * c.treeBit
/-- tommytrieinp.h:156 `TOMMY_TRIE_INPLACE_BUCKET_MAX` -/
def inpBucketMax (c : TrieCfg) : Nat := 1 <<< inpBucketBit c
/-- tommytrieinp.c:43 `TOMMY_TRIE_INPLACE_BUCKET_SHIFT` -/
def inpBucketShift (c : TrieCfg) : Nat := c.bit - inpBucketBit c

/-- The configuration in the source: 32 bit keys, 4 branches. -/
def inpCfg : TrieCfg := ⟨32, 4⟩

/-- tommytrieinp.h:174-177 `tommy_trie_inplace`. `base` is the address of the struct, the `bucket` cells are
    in the memory. -/
structure InpTrie where
  base : Ptr
  count : Nat

/-- tommytrieinp.c:48-57 `tommy_trie_inplace_list_insert_first`. -/
def inpListInsertFirst (node : Ptr) : HM Ptr := do
  setPrev node node
  setNext node 0
  return node

/-- tommytrieinp.c:63-74 `tommy_trie_inplace_list_insert_tail_not_empty`. -/
def inpListInsertTailNotEmpty (head node : Ptr) : HM Unit := do
  let hp ← getPrev head
  setPrev node hp
  setPrev head node
  setNext node 0
  let np ← getPrev node
  setNext np node

/-- tommytrieinp.c:83-87, the first part of `tommy_trie_inplace_list_remove`. -/
def inpUnlinkPrev (head node : Ptr) : HM Unit := do
  let nn ← getNext node
  if nn ≠ 0 then do
    let np ← getPrev node
    setPrev nn np
  else do
    let np ← getPrev node
    setPrev head np

/-- tommytrieinp.c:89-93, the second part of `tommy_trie_inplace_list_remove`. -/
def inpUnlinkNext (letPtr : Loc) (head node : Ptr) : TM Unit := do
  if head = node then do
    let nn ← onN (getNext node)
    cellSet letPtr nn
  else do
    let np ← onN (getPrev node)
    let nn ← onN (getNext node)
    onN (setNext np nn)

/-- tommytrieinp.c:79-94 `tommy_trie_inplace_list_remove`. -/
def inpListRemove (letPtr : Loc) (node : Ptr) : TM Unit := do
  let head ← cellGet letPtr
  onN (inpUnlinkPrev head node)
  inpUnlinkNext letPtr head node

/-- tommytrieinp.c:96-104 `tommy_trie_inplace_init`. -/
def inpInit (c : TrieCfg) (trie : InpTrie) : TM InpTrie := do
  clearCells trie.base 0 (inpBucketMax c)
  return { trie with count := 0 }

/-- tommytrieinp.c:110-115 and 155-160: the loop which finds the node with the key, or the place where it
    should be. Returns `let_ptr` and `node`. -/
def inpDescend (c : TrieCfg) (shift : Nat) (letPtr : Loc) (key : Nat) : TM (Loc × Ptr) := do
  let node ← cellGet letPtr
  if node = 0 then
    return (letPtr, 0)
  let k ← onN (getIndex node)
  if k = key then
    return (letPtr, node)
  let i ← trieSlot c key shift
  inpDescend c (sub32 shift c.treeBit) ⟨node, i⟩ key
partial_fixpoint

/-- tommytrieinp.c:117-124, the end of `trie_inplace_bucket_insert`. -/
def inpLink (insert : Ptr) (r : Loc × Ptr) : TM Unit := do
  if r.2 = 0 then do
    let l ← onN (inpListInsertFirst insert)
    cellSet r.1 l
  else
    onN (inpListInsertTailNotEmpty r.2 insert)

/-- tommytrieinp.c:106-125 `trie_inplace_bucket_insert`. -/
def inpBucketInsert (c : TrieCfg) (shift : Nat) (letPtr : Loc) (insert : Ptr) (key : Nat) : TM Unit := do
  let r ← inpDescend c shift letPtr key
  inpLink insert r

/-- tommytrieinp.c:127-146 `tommy_trie_inplace_insert`. -/
def inpInsert (c : TrieCfg) (trie : InpTrie) (node : Ptr) (data key : Nat) : TM InpTrie := do
  let b ← shrKey key (inpBucketShift c)
  assertT (b < inpBucketMax c)
  onN (setData node data)
  onN (setIndex node key)
  clearCells node 0 c.treeMax
  inpBucketInsert c (inpBucketShift c) ⟨trie.base, b⟩ node key
  return { trie with count := sizeT (trie.count + 1) }

/-- tommytrieinp.c:179-180, 209-210: the loop `dst->map[i] = src->map[i]`. The last argument is
    `TOMMY_TRIE_INPLACE_TREE_MAX - i`. -/
def copyCells (dst src : Ptr) (i : Nat) : Nat → TM Unit
  | 0 => pure ()
  | k + 1 => do
    let p ← cellGet ⟨src, i⟩
    cellSet ⟨dst, i⟩ p
    copyCells dst src (i + 1) k

/-- tommytrieinp.c:185-199, the search of a leaf. `k` is `i + 1`. Returns `leaf_let_ptr` and `leaf`. -/
def inpLeaf (c : TrieCfg) (leafLet : Option Loc) (leaf : Ptr) (k : Nat) : TM (Option Loc × Ptr) := do
  if k = 0 then
    return (leafLet, leaf)
  let p ← cellGet ⟨leaf, k - 1⟩
  if p ≠ 0 then
    let p ← cellGet ⟨leaf, k - 1⟩
    inpLeaf c (some ⟨leaf, k - 1⟩) p c.treeMax
  else
    inpLeaf c leafLet leaf (k - 1)
partial_fixpoint

/-- tommytrieinp.c:201-215: moves the leaf in the place of the removed node. -/
def inpReplace (c : TrieCfg) (letPtr : Loc) (remove : Ptr) : Option Loc × Ptr → TM Ptr
  | (none, _) => pure remove
  | (some leafLet, leaf) => do
    cellSet leafLet 0
    copyCells leaf remove 0 c.treeMax
    cellSet letPtr leaf
    return remove

/-- tommytrieinp.c:169-215, the end of `trie_inplace_bucket_remove`. -/
def inpUnlink (c : TrieCfg) (letPtr : Loc) (node remove : Ptr) : TM Ptr := do
  inpListRemove letPtr remove
  let now ← cellGet letPtr
  if now = node then
    return remove
  if now ≠ 0 then
    copyCells now remove 0 c.treeMax
    return remove
  let r ← inpLeaf c none remove c.treeMax
  inpReplace c letPtr remove r

/-- tommytrieinp.c:148-216 `trie_inplace_bucket_remove`. -/
def inpBucketRemove (c : TrieCfg) (shift : Nat) (letPtr : Loc) (remove : Ptr) (key : Nat) : TM Ptr := do
  let r ← inpDescend c shift letPtr key
  if r.2 = 0 then
    return 0
  inpUnlink c r.1 r.2 (if remove = 0 then r.2 else remove)

/-- tommytrieinp.c:218-236 `tommy_trie_inplace_remove`. -/
def inpRemove (c : TrieCfg) (trie : InpTrie) (key : Nat) : TM (InpTrie × Nat) := do
  let b ← shrKey key (inpBucketShift c)
  assertT (b < inpBucketMax c)
  let ret ← inpBucketRemove c (inpBucketShift c) ⟨trie.base, b⟩ 0 key
  if ret = 0 then
    return (trie, 0)
  let d ← onN (getData ret)
  return ({ trie with count := decT trie.count }, d)

/-- tommytrieinp.c:238-257 `tommy_trie_inplace_remove_existing`. -/
def inpRemoveExisting (c : TrieCfg) (trie : InpTrie) (node : Ptr) : TM (InpTrie × Nat) := do
  let key ← onN (getIndex node)
  let b ← shrKey key (inpBucketShift c)
  assertT (b < inpBucketMax c)
  let ret ← inpBucketRemove c (inpBucketShift c) ⟨trie.base, b⟩ node key
  assertT (ret = node)
  let d ← onN (getData ret)
  return ({ trie with count := decT trie.count }, d)

/-- tommytrieinp.c:270-273, the loop of `tommy_trie_inplace_bucket`. -/
def inpBucketLoop (c : TrieCfg) (node : Ptr) (shift key : Nat) : TM Ptr := do
  if node = 0 then
    return 0
  let k ← onN (getIndex node)
  if k = key then
    return node
  let i ← trieSlot c key shift
  let p ← cellGet ⟨node, i⟩
  inpBucketLoop c p (sub32 shift c.treeBit) key
partial_fixpoint

/-- tommytrieinp.c:259-276 `tommy_trie_inplace_bucket`. -/
def inpBucket (c : TrieCfg) (trie : InpTrie) (key : Nat) : TM Ptr := do
  let b ← shrKey key (inpBucketShift c)
  assertT (b < inpBucketMax c)
  let node ← cellGet ⟨trie.base, b⟩
  inpBucketLoop c node (inpBucketShift c) key

/-- tommytrieinp.h:217-225 `tommy_trie_inplace_search`. -/
def inpSearch (c : TrieCfg) (trie : InpTrie) (key : Nat) : TM Nat := do
  let i ← inpBucket c trie key
  if i = 0 then
    return 0
  onN (getData i)

/-- tommytrieinp.h:237-240 `tommy_trie_inplace_count`. -/
def inpCount (trie : InpTrie) : Nat := trie.count

/-- tommytrieinp.h:162-168 `sizeof(tommy_trie_inplace_node)`. -/
def inpNodeSize (c : TrieCfg) : Nat := ptrSize + ptrSize + ptrSize + ptrSize * c.treeMax + ptrSize

/-- tommytrieinp.c:278-281 `tommy_trie_inplace_memory_usage`. -/
def inpMemoryUsage (c : TrieCfg) (trie : InpTrie) : Nat := sizeT (inpCount trie * inpNodeSize c)

end Tommy
