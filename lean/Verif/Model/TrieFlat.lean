import Verif.Model.Trie
import Verif.Model.Alloc
/-
  Second model of tommytrie.c: the code on the bytes of the memory, with the code of tommyalloc.c as allocator.

  In `Verif.Model.Trie` the nodes and the arrays of cells are typed objects which do not overlap by construction, and
  the allocator is a list of addresses.  Here there is only one memory of bytes (`AMem`), where malloc(), the
  allocators, the rest of the program and the trie work together: a field of a node and a cell are 8 bytes at some
  address, and a block is what `allocatorAlloc` returns.

  The fields `count`, `node_count` and `alloc` of the trie struct and the allocator struct are not in the memory.
-/
set_option autoImplicit false
namespace Tommy

variable [Arch]

/-- A call of the allocator: `tommy_allocator_alloc` returned `p`, after calling malloc() (which returned `seg`) or
    not; or `tommy_allocator_free(p)`. -/
inductive AEvent
  | got (p : Nat) (seg : Option Nat)
  | gave (p : Nat)

/-- The memory during a call: the bytes, the struct of the allocator of the trie, what malloc() is going to return
    (address and content), and the calls of the allocator (not part of the program, only recorded). -/
structure FMem where
  mem : AMem
  al : Alloc
  mallocs : List (Nat × (Nat → Nat))
  log : List AEvent

abbrev FM := StateT FMem Option

/-- Code on the bytes. -/
def onB {α : Type} (x : AM α) : FM α := fun m => (x m.mem).map fun r => (r.1, { m with mem := r.2 })

/-- A pointer or a size in the memory. -/
def fget (p : Nat) : FM Nat := onB (readP p)
def fset (p v : Nat) : FM Unit := onB (writeP p v)

/-- tommytypes.h:195-221 `tommy_node`: the offsets of the fields. -/
def offNext : Nat := 0
def offPrev : Nat := ptrSize
def offData : Nat := 2 * ptrSize
def offIndex : Nat := 3 * ptrSize

/-- `assert(c)` -/
def assertF (c : Prop) [Decidable c] : FM Unit := fun m => if c then some ((), m) else none

/-- `a >> s` with `a` a `tommy_key_t` (tommytypes.h:172): UB if `s` is not less than its bits. -/
def fshrKey (a s : Nat) : FM Nat := fun m => if s < sizeBit then some (a >>> s, m) else none

/-- tommyalloc.c:81-133 `tommy_allocator_alloc` called by the trie. malloc() is called if there is no free block. -/
def fblockAlloc (slack : Nat) : FM Nat := fun m =>
  if m.al.freeBlock ≠ 0 then
    (allocatorAlloc slack 0 (fun _ => 0) m.al m.mem).map fun r =>
      (r.1.2, { m with mem := r.2, al := r.1.1, log := m.log ++ [.got r.1.2 none] })
  else match m.mallocs with
    | [] => none
    | (b, content) :: ms => (allocatorAlloc slack b content m.al m.mem).map fun r =>
        (r.1.2, { m with mem := r.2, al := r.1.1, mallocs := ms, log := m.log ++ [.got r.1.2 (some b)] })

/-- tommyalloc.c:135-144 `tommy_allocator_free` called by the trie. -/
def fblockFree (p : Nat) : FM Unit := fun m =>
  (allocatorFree m.al p m.mem).map fun r => ((), { m with mem := r.2, al := r.1, log := m.log ++ [.gave p] })

/-- tommylist.h:147-156 `tommy_list_insert_first`. Returns the new `*list`. -/
def flistInsertFirst (node : Nat) : FM Nat := do
  fset (node + offPrev) node
  fset (node + offNext) 0
  return node

/-- tommylist.h:184-193 `tommy_list_insert_tail_not_empty`. -/
def flistInsertTailNotEmpty (head node : Nat) : FM Unit := do
  let hp ← fget (head + offPrev)
  fset (node + offPrev) hp
  fset (head + offPrev) node
  fset (node + offNext) 0
  let np ← fget (node + offPrev)
  fset (np + offNext) node

/-- tommylist.h:237-254 `tommy_list_remove_existing`. Returns the new `*list` and `node->data`. -/
def flistRemoveExisting (list node : Nat) : FM (Nat × Nat) := do
  let head := listHead list
  let nn ← fget (node + offNext)
  if nn ≠ 0 then do
    let np ← fget (node + offPrev)
    fset (nn + offPrev) np
  else do
    let np ← fget (node + offPrev)
    fset (head + offPrev) np
  let list' ←
    if head = node then fget (node + offNext)
    else do
      let np ← fget (node + offPrev)
      let nn ← fget (node + offNext)
      fset (np + offNext) nn
      pure list
  let d ← fget (node + offData)
  return (list', d)

/-- `for (i = 0; i < n; ++i) b->map[i] = 0;` The last argument is `n - i`. -/
def fclearCells (b i : Nat) : Nat → FM Unit
  | 0 => pure ()
  | k + 1 => do
    fset (b + ptrSize * i) 0
    fclearCells b (i + 1) k

/-- `(key >> shift) & TOMMY_TRIE_TREE_MASK`, used in tommytrie.c:110, 134, 135, 195, 324. -/
def ftrieSlot (c : TrieCfg) (key shift : Nat) : FM Nat := do
  let x ← fshrKey key shift
  return x &&& c.treeMask

/-- tommytrie.c:77-88 `tommy_trie_init`. -/
def ftrieInit (c : TrieCfg) (trie : Trie) : FM Trie := do
  fclearCells trie.base 0 c.bucketMax
  return { trie with count := 0, nodeCount := 0 }

/-- tommytrie.c:123-150, the label `expand` of `trie_bucket_insert`. Returns the new `node_count`. -/
def ftrieExpand (slack : Nat) (c : TrieCfg) (nc shift letPtr node insert key : Nat) : FM Nat := do
  let tree ← fblockAlloc slack
  let nc := sizeT (nc + 1)
  fset letPtr (trieSetTree tree)
  fclearCells tree 0 c.treeMax
  let idx ← fget (node + offIndex)
  let i ← ftrieSlot c idx shift
  let j ← ftrieSlot c key shift
  if i ≠ j then
    fset (tree + ptrSize * i) node
    let l ← flistInsertFirst insert
    fset (tree + ptrSize * j) l
    return nc
  ftrieExpand slack c nc (sub32 shift c.treeBit) (tree + ptrSize * i) node insert key
partial_fixpoint

/-- tommytrie.c:90-151 `trie_bucket_insert`. Returns the new `trie->node_count`. -/
def ftrieBucketInsert (slack : Nat) (c : TrieCfg) (nc shift letPtr insert key : Nat) : FM Nat := do
  let ptr ← fget letPtr
  if ptr = 0 then
    let l ← flistInsertFirst insert
    fset letPtr l
    return nc
  if trieIsTree ptr then
    let i ← ftrieSlot c key shift
    ftrieBucketInsert slack c nc (sub32 shift c.treeBit) (trieGetTree ptr + ptrSize * i) insert key
  else
    let idx ← fget (ptr + offIndex)
    if idx = key then
      flistInsertTailNotEmpty ptr insert
      return nc
    ftrieExpand slack c nc shift letPtr ptr insert key
partial_fixpoint

/-- tommytrie.c:153-168 `tommy_trie_insert` -/
def ftrieInsert (slack : Nat) (c : TrieCfg) (trie : Trie) (node data key : Nat) : FM Trie := do
  let b ← fshrKey key c.bucketShift
  assertF (b < c.bucketMax)
  fset (node + offData) data
  fset (node + offIndex) key
  let nc ← ftrieBucketInsert slack c trie.nodeCount c.bucketShift (trie.base + ptrSize * b) node key
  return { trie with count := sizeT (trie.count + 1), nodeCount := nc }

/-- tommytrie.c:228-238, the scan of a block. `none` when the code returns; else `count` and `last`. The
    last argument is `TOMMY_TRIE_TREE_MAX - i`. -/
def ftrieScan (tree i count last : Nat) : Nat → FM (Option (Nat × Nat))
  | 0 => pure (some (count, last))
  | k + 1 => do
    let p ← fget (tree + ptrSize * i)
    if p ≠ 0 then
      if trieIsTree p then
        return none
      if count + 1 > 1 then
        return none
      ftrieScan tree (i + 1) (count + 1) i k
    else
      ftrieScan tree (i + 1) count last k

/-- tommytrie.c:216, 219-252, the label `reduce`. `back` is the content of `let_back` from the last entry
    to the first, `level` is its length. Returns the new `node_count`. -/
def ftrieReduce (c : TrieCfg) (nc : Nat) : List Nat → FM Nat
  | [] => pure nc
  | letPtr :: back => do
    let p ← fget letPtr
    let tree := trieGetTree p
    match ← ftrieScan tree 0 0 0 c.treeMax with
    | none => pure nc
    | some (count, last) =>
      assertF (count = 1)
      let q ← fget (tree + ptrSize * last)
      fset letPtr q
      fblockFree tree
      ftrieReduce c (decT nc) back

/-- tommytrie.c:203-211: the node to remove, or 0 when the code returns 0 (`node` is not null). -/
def ftriePick (node remove key : Nat) : FM Nat := do
  if remove = 0 then
    let idx ← fget (node + offIndex)
    if idx ≠ key then
      return 0
    return node
  return remove

/-- tommytrie.c:170-253 `trie_bucket_remove_existing`. `back` is as in `ftrieReduce`; pushing after the end
    of `let_back` is UB. Returns `node_count` and the node removed, or 0. -/
def ftrieBucketRemoveExisting (c : TrieCfg) (nc shift letPtr remove key : Nat) (back : List Nat) :
    FM (Nat × Nat) := do
  let ptr ← fget letPtr
  if ptr = 0 then
    return (nc, 0)
  if trieIsTree ptr then
    assertF (back.length < c.levelMax + 1)
    let i ← ftrieSlot c key shift
    ftrieBucketRemoveExisting c nc (sub32 shift c.treeBit) (trieGetTree ptr + ptrSize * i) remove key (letPtr :: back)
  else
    let remove ← ftriePick ptr remove key
    if remove = 0 then
      return (nc, 0)
    let l ← fget letPtr
    let x ← flistRemoveExisting l remove
    fset letPtr x.1
    let now ← fget letPtr
    if now ≠ 0 then
      return (nc, remove)
    let nc ← ftrieReduce c nc back
    return (nc, remove)
partial_fixpoint

/-- tommytrie.c:255-273 `tommy_trie_remove` -/
def ftrieRemove (c : TrieCfg) (trie : Trie) (key : Nat) : FM (Trie × Nat) := do
  let b ← fshrKey key c.bucketShift
  assertF (b < c.bucketMax)
  let r ← ftrieBucketRemoveExisting c trie.nodeCount c.bucketShift (trie.base + ptrSize * b) 0 key []
  let trie := { trie with nodeCount := r.1 }
  if r.2 = 0 then
    return (trie, 0)
  let d ← fget (r.2 + offData)
  return ({ trie with count := decT trie.count }, d)

/-- tommytrie.c:275-294 `tommy_trie_remove_existing` -/
def ftrieRemoveExisting (c : TrieCfg) (trie : Trie) (node : Nat) : FM (Trie × Nat) := do
  let key ← fget (node + offIndex)
  let b ← fshrKey key c.bucketShift
  assertF (b < c.bucketMax)
  let r ← ftrieBucketRemoveExisting c trie.nodeCount c.bucketShift (trie.base + ptrSize * b) node key []
  assertF (r.2 = node)
  let d ← fget (r.2 + offData)
  return ({ trie with count := decT trie.count, nodeCount := r.1 }, d)

/-- tommytrie.c:310-327, the label `recurse` of `tommy_trie_bucket`. -/
def ftrieBucketLoop (c : TrieCfg) (ptr shift key : Nat) : FM Nat := do
  if ptr = 0 then
    return 0
  if trieIsTree ptr then
    let i ← ftrieSlot c key shift
    let p ← fget (trieGetTree ptr + ptrSize * i)
    ftrieBucketLoop c p (sub32 shift c.treeBit) key
  else
    let idx ← fget (ptr + offIndex)
    if idx ≠ key then
      return 0
    return ptr
partial_fixpoint

/-- tommytrie.c:296-328 `tommy_trie_bucket` -/
def ftrieBucket (c : TrieCfg) (trie : Trie) (key : Nat) : FM Nat := do
  let b ← fshrKey key c.bucketShift
  assertF (b < c.bucketMax)
  let ptr ← fget (trie.base + ptrSize * b)
  ftrieBucketLoop c ptr c.bucketShift key

/-- tommytrie.h:238-246 `tommy_trie_search` -/
def ftrieSearch (c : TrieCfg) (trie : Trie) (key : Nat) : FM Nat := do
  let i ← ftrieBucket c trie key
  if i = 0 then
    return 0
  fget (i + offData)

end Tommy
