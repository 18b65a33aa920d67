import Verif.Model.TrieMem
/-
  Model of tommytrie.h and tommytrie.c.

  The compile time parameters of the trie are in a `TrieCfg`, so that the theorems hold for any
  configuration.  A pointer to an inner block is its address plus 1.
-/
set_option autoImplicit false
namespace Tommy

variable [Arch]

/-- tommytrie.h:142 `TOMMY_TRIE_BIT`, tommytrie.h:151 `TOMMY_TRIE_TREE_MAX`. -/
structure TrieCfg where
  bit : Nat
  treeMax : Nat

namespace TrieCfg
variable (c : TrieCfg)

/-- tommytrie.h:162 `TOMMY_TRIE_TREE_BIT` -/
def treeBit : Nat := macroIlog2 c.treeMax
/-- tommytrie.h:167 `TOMMY_TRIE_BUCKET_BIT` -/
def bucketBit : Nat := c.bit % c.treeBit + c.treeBit
/-- tommytrie.h:173 `TOMMY_TRIE_BUCKET_MAX` -/
def bucketMax : Nat := 1 <<< c.bucketBit
/-- tommytrie.c:39 `TOMMY_TRIE_TREE_MASK` -/
def treeMask : Nat := c.treeMax - 1
/-- tommytrie.c:44 `TOMMY_TRIE_BUCKET_SHIFT` -/
def bucketShift : Nat := c.bit - c.bucketBit
/-- tommytrie.c:49 `TOMMY_TRIE_LEVEL_MAX` -/
def levelMax : Nat := (c.bit - c.bucketBit) / c.treeBit
/-- tommytrie.h:157 `TOMMY_TRIE_BLOCK_SIZE` -/
def blockSize : Nat := c.treeMax * ptrSize

end TrieCfg

/-- tommytrie.h:142, 151: the default configuration: `TOMMY_TRIE_BIT` is 32 and `TOMMY_TRIE_TREE_MAX` is `64 / sizeof(void*)`. -/
def trieCfg : TrieCfg := ⟨32, 64 / ptrSize⟩

/-- The default configuration with 64 bit pointers: 32 bit keys, `TREE_MAX = 64 / 8`. -/
def trieCfg64 : TrieCfg := ⟨32, 8⟩

/-- tommytrie.h:185-190 `tommy_trie`. `base` is the address of the struct, the `bucket` cells are in the
    memory. -/
structure Trie where
  base : Ptr
  count : Nat
  nodeCount : Nat

/-- tommytrie.c:73 `trie_get_type(ptr) == TOMMY_TRIE_TYPE_TREE` -/
def trieIsTree (p : Ptr) : Prop := p &&& 1 = 1

instance (p : Ptr) : Decidable (trieIsTree p) := by unfold trieIsTree; infer_instance

/-- tommytrie.c:74 `trie_get_tree` -/
def trieGetTree (p : Ptr) : Ptr := p - 1

/-- tommytrie.c:75 `trie_set_tree` -/
def trieSetTree (p : Ptr) : Ptr := p + 1

/-- `(key >> shift) & TOMMY_TRIE_TREE_MASK`, used in tommytrie.c:110, 134, 135, 195, 324. -/
def trieSlot (c : TrieCfg) (key shift : Nat) : TM Nat := do
  let x ← shrKey key shift
  return x &&& c.treeMask

/-- tommytrie.c:77-88 `tommy_trie_init`. The allocator is left out: it is in the memory. -/
def trieInit (c : TrieCfg) (trie : Trie) : TM Trie := do
  clearCells trie.base 0 c.bucketMax
  return { trie with count := 0, nodeCount := 0 }

/-- tommytrie.c:123-150, the label `expand` of `trie_bucket_insert`. Returns the new `node_count`. -/
def trieExpand (c : TrieCfg) (nc shift : Nat) (letPtr : Loc) (node insert : Ptr) (key : Nat) : TM Nat := do
  let tree ← blockAlloc c.treeMax
  let nc := sizeT (nc + 1)
  cellSet letPtr (trieSetTree tree)
  clearCells tree 0 c.treeMax
  let idx ← onN (getIndex node)
  let i ← trieSlot c idx shift
  let j ← trieSlot c key shift
  if i ≠ j then
    cellSet ⟨tree, i⟩ node
    let l ← onN (listInsertFirst insert)
    cellSet ⟨tree, j⟩ l
    return nc
  trieExpand c nc (sub32 shift c.treeBit) ⟨tree, i⟩ node insert key
partial_fixpoint

/-- tommytrie.c:90-151 `trie_bucket_insert`. Returns the new `trie->node_count`. -/
def trieBucketInsert (c : TrieCfg) (nc shift : Nat) (letPtr : Loc) (insert : Ptr) (key : Nat) : TM Nat := do
  let ptr ← cellGet letPtr
  if ptr = 0 then
    let l ← onN (listInsertFirst insert)
    cellSet letPtr l
    return nc
  if trieIsTree ptr then
    let i ← trieSlot c key shift
    trieBucketInsert c nc (sub32 shift c.treeBit) ⟨trieGetTree ptr, i⟩ insert key
  else
    let idx ← onN (getIndex ptr)
    if idx = key then
      onN (listInsertTailNotEmpty ptr insert)
      return nc
    trieExpand c nc shift letPtr ptr insert key
partial_fixpoint

/-- tommytrie.c:153-168 `tommy_trie_insert` -/
def trieInsert (c : TrieCfg) (trie : Trie) (node : Ptr) (data key : Nat) : TM Trie := do
  let b ← shrKey key c.bucketShift
  assertT (b < c.bucketMax)
  onN (setData node data)
  onN (setIndex node key)
  let nc ← trieBucketInsert c trie.nodeCount c.bucketShift ⟨trie.base, b⟩ node key
  return { trie with count := sizeT (trie.count + 1), nodeCount := nc }

/-- tommytrie.c:228-238, the scan of a block. `none` when the code returns; else `count` and `last`. The
    last argument is `TOMMY_TRIE_TREE_MAX - i`. -/
def trieScan (tree : Ptr) (i count last : Nat) : Nat → TM (Option (Nat × Nat))
  | 0 => pure (some (count, last))
  | k + 1 => do
    let p ← cellGet ⟨tree, i⟩
    if p ≠ 0 then
      if trieIsTree p then
        return none
      if count + 1 > 1 then
        return none
      trieScan tree (i + 1) (count + 1) i k
    else
      trieScan tree (i + 1) count last k

/-- tommytrie.c:216, 219-252, the label `reduce`. `back` is the content of `let_back` from the last entry
    to the first, `level` is its length. Returns the new `node_count`. -/
def trieReduce (c : TrieCfg) (nc : Nat) : List Loc → TM Nat
  | [] => pure nc
  | letPtr :: back => do
    let p ← cellGet letPtr
    let tree := trieGetTree p
    match ← trieScan tree 0 0 0 c.treeMax with
    | none => pure nc
    | some (count, last) =>
      assertT (count = 1)
      let q ← cellGet ⟨tree, last⟩
      cellSet letPtr q
      blockFree tree
      trieReduce c (decT nc) back

/-- tommytrie.c:203-211: the node to remove, or 0 when the code returns 0 (`node` is not null). -/
def triePick (node remove : Ptr) (key : Nat) : TM Ptr := do
  if remove = 0 then
    let idx ← onN (getIndex node)
    if idx ≠ key then
      return 0
    return node
  return remove

/-- tommytrie.c:170-253 `trie_bucket_remove_existing`. `back` is as in `trieReduce`; pushing after the end
    of `let_back` is UB. Returns `node_count` and the node removed, or 0. -/
def trieBucketRemoveExisting (c : TrieCfg) (nc shift : Nat) (letPtr : Loc) (remove : Ptr) (key : Nat)
    (back : List Loc) : TM (Nat × Ptr) := do
  let ptr ← cellGet letPtr
  if ptr = 0 then
    return (nc, 0)
  if trieIsTree ptr then
    assertT (back.length < c.levelMax + 1)
    let i ← trieSlot c key shift
    trieBucketRemoveExisting c nc (sub32 shift c.treeBit) ⟨trieGetTree ptr, i⟩ remove key (letPtr :: back)
  else
    let remove ← triePick ptr remove key
    if remove = 0 then
      return (nc, 0)
    let l ← cellGet letPtr
    let x ← onN (listRemoveExisting l remove)
    cellSet letPtr x.1
    let now ← cellGet letPtr
    if now ≠ 0 then
      return (nc, remove)
    let nc ← trieReduce c nc back
    return (nc, remove)
partial_fixpoint

/-- tommytrie.c:255-273 `tommy_trie_remove` -/
def trieRemove (c : TrieCfg) (trie : Trie) (key : Nat) : TM (Trie × Nat) := do
  let b ← shrKey key c.bucketShift
  assertT (b < c.bucketMax)
  let r ← trieBucketRemoveExisting c trie.nodeCount c.bucketShift ⟨trie.base, b⟩ 0 key []
  let trie := { trie with nodeCount := r.1 }
  if r.2 = 0 then
    return (trie, 0)
  let d ← onN (getData r.2)
  return ({ trie with count := decT trie.count }, d)

/-- tommytrie.c:275-294 `tommy_trie_remove_existing` -/
def trieRemoveExisting (c : TrieCfg) (trie : Trie) (node : Ptr) : TM (Trie × Nat) := do
  let key ← onN (getIndex node)
  let b ← shrKey key c.bucketShift
  assertT (b < c.bucketMax)
  let r ← trieBucketRemoveExisting c trie.nodeCount c.bucketShift ⟨trie.base, b⟩ node key []
  assertT (r.2 = node)
  let d ← onN (getData r.2)
  return ({ trie with count := decT trie.count, nodeCount := r.1 }, d)

/-- tommytrie.c:310-327, the label `recurse` of `tommy_trie_bucket`. -/
def trieBucketLoop (c : TrieCfg) (ptr : Ptr) (shift key : Nat) : TM Ptr := do
  if ptr = 0 then
    return 0
  if trieIsTree ptr then
    let i ← trieSlot c key shift
    let p ← cellGet ⟨trieGetTree ptr, i⟩
    trieBucketLoop c p (sub32 shift c.treeBit) key
  else
    let idx ← onN (getIndex ptr)
    if idx ≠ key then
      return 0
    return ptr
partial_fixpoint

/-- tommytrie.c:296-328 `tommy_trie_bucket` -/
def trieBucket (c : TrieCfg) (trie : Trie) (key : Nat) : TM Ptr := do
  let b ← shrKey key c.bucketShift
  assertT (b < c.bucketMax)
  let ptr ← cellGet ⟨trie.base, b⟩
  trieBucketLoop c ptr c.bucketShift key

/-- tommytrie.h:238-246 `tommy_trie_search` -/
def trieSearch (c : TrieCfg) (trie : Trie) (key : Nat) : TM Nat := do
  let i ← trieBucket c trie key
  if i = 0 then
    return 0
  onN (getData i)

/-- tommytrie.h:258-261 `tommy_trie_count` -/
def trieCount (trie : Trie) : Nat := trie.count

/-- tommytrie.c:330-334 `tommy_trie_memory_usage` -/
def trieMemoryUsage (c : TrieCfg) (trie : Trie) : Nat :=
  sizeT (trieCount trie * nodeSize + trie.nodeCount * c.blockSize)

end Tommy
