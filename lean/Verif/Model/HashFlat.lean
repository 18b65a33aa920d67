import Verif.Model.Alloc
import Verif.Model.Bits
/-
  Second model of tommyhashtbl, tommyhashdyn and tommyhashlin: the code on the bytes of the memory.

  In `Verif.Model.Hashtable`, `Hashdyn` and `Hashlin` the nodes and the vectors of buckets are typed objects which do
  not overlap by construction, a vector is identified by a number which is never used again, and the struct of the table is a
  value.  Here there is only one memory of bytes (`AMem`): a field of a node, a cell of a vector and a field of the struct
  are bytes at some address, pointers are computed with the arithmetic of the addresses, and malloc() may return again the
  memory already freed.
-/
set_option autoImplicit false
namespace Tommy

variable [Arch]

/-- malloc() or calloc() of `n` bytes returned `p`; or free(p). -/
inductive BEvent
  | got (p n : Nat)
  | gave (p : Nat)
deriving DecidableEq

/-- The memory during a call: the bytes, what malloc() is going to return (address and content), and the calls of malloc() and
    free() (not part of the program, only recorded). -/
structure BMem where
  mem : AMem
  mallocs : List (Nat × (Nat → Nat))
  log : List BEvent

abbrev BM := StateT BMem Option

/-- The `n` bytes from `p` with the number `v`. -/
def wrN (f : Nat → Nat) (p n v : Nat) : Nat → Nat := fun x =>
  if p ≤ x ∧ x < p + n then v / 2 ^ (8 * (x - p)) % 256 else f x

/-- Read of an unsigned number of `n` bytes. -/
def bgetN (n p : Nat) : BM Nat := fun w => if w.mem.acc p n then some (rdN w.mem.byte p n, w) else none

/-- Write of an unsigned number of `n` bytes. -/
def bsetN (n p v : Nat) : BM Unit := fun w =>
  if w.mem.acc p n then some ((), { w with mem := { w.mem with byte := wrN w.mem.byte p n v } }) else none

/-- A pointer or a `tommy_size_t`. -/
def bget (p : Nat) : BM Nat := bgetN ptrSize p
def bset (p v : Nat) : BM Unit := bsetN ptrSize p v

/-- A `tommy_uint_t` (tommytypes.h:79: 4 bytes). -/
def bget32 (p : Nat) : BM Nat := bgetN 4 p
def bset32 (p v : Nat) : BM Unit := bsetN 4 p v

/-- tommytypes.h:105 `tommy_malloc(size)`. -/
def bmalloc (size : Nat) : BM Nat := fun w =>
  match w.mallocs with
  | [] => none
  | (b, content) :: ms => some (b, {
      mem := { live := upd w.mem.live b (some size)
               byte := fun x => if b ≤ x ∧ x < b + size then content x else w.mem.byte x }
      mallocs := ms, log := w.log ++ [.got b size] })

/-- `memset(p, 0, n)` -/
def bzero (p n : Nat) : BM Unit := fun w =>
  if w.mem.acc p n then
    some ((), { w with mem := { w.mem with byte := fun x => if p ≤ x ∧ x < p + n then 0 else w.mem.byte x } })
  else none

/-- tommytypes.h:108 `tommy_calloc(n, size)`: calloc() does the product without overflow. -/
def hbcalloc (n size : Nat) : BM Nat := do
  let p ← bmalloc (n * size)
  bzero p (n * size)
  return p

/-- tommytypes.h:114 `tommy_free(p)`: UB if it is not a live pointer. -/
def bfree (p : Nat) : BM Unit := fun w =>
  if (w.mem.live p).isSome then
    some ((), { w with mem := { w.mem with live := upd w.mem.live p none }, log := w.log ++ [.gave p] })
  else none

/-- `&p[i]` with `p` a pointer to pointers. -/
def padd (p i : Nat) : Nat := (p + ptrSize * i) % 2 ^ sizeBit

/-- `&p[-i]` -/
def psub (p i : Nat) : Nat := subT p (ptrSize * i % 2 ^ sizeBit)

/-- `(tommy_size_t)1 << bit`: UB from TOMMY_SIZE_BIT on. -/
def bshl (bit : Nat) : BM Nat := fun w => if bit < sizeBit then some (2 ^ bit, w) else none

/-- `(tommy_ptrdiff_t)1 << bit`: the type is signed, UB from TOMMY_SIZE_BIT - 1 on. -/
def bshlS (bit : Nat) : BM Nat := fun w => if bit + 1 < sizeBit then some (2 ^ bit, w) else none

/-- `&p[-(tommy_ptrdiff_t)x]`: refused if `x` is not a tommy_ptrdiff_t. -/
def bpsub (p x : Nat) : BM Nat := fun w => if x < 2 ^ (sizeBit - 1) then some (psub p x, w) else none

/-- tommytypes.h:195-221 `tommy_node`: the offsets of the fields. -/
def nodNext : Nat := 0
def nodPrev : Nat := ptrSize
def nodData : Nat := 2 * ptrSize
def nodIndex : Nat := 3 * ptrSize

/-! ### Lists, with `list` the address of the pointer to the first node -/

/-- tommylist.h:147-156 `tommy_list_insert_first`. -/
def blistInsertFirst (list node : Nat) : BM Unit := do
  bset (node + nodPrev) node
  bset (node + nodNext) 0
  bset list node

/-- tommylist.h:184-193 `tommy_list_insert_tail_not_empty`. -/
def blistInsertTailNotEmpty (head node : Nat) : BM Unit := do
  let hp ← bget (head + nodPrev)
  bset (node + nodPrev) hp
  bset (head + nodPrev) node
  bset (node + nodNext) 0
  let np ← bget (node + nodPrev)
  bset (np + nodNext) node

/-- tommylist.h:217-227 `tommy_list_insert_tail`. -/
def blistInsertTail (list node data : Nat) : BM Unit := do
  let head ← bget list
  if head ≠ 0 then
    blistInsertTailNotEmpty head node
  else
    blistInsertFirst list node
  bset (node + nodData) data

/-- tommylist.h:237-254 `tommy_list_remove_existing`. -/
def blistRemoveExisting (list node : Nat) : BM Nat := do
  let head ← bget list
  let nn ← bget (node + nodNext)
  if nn ≠ 0 then do
    let np ← bget (node + nodPrev)
    bset (nn + nodPrev) np
  else do
    let np ← bget (node + nodPrev)
    bset (head + nodPrev) np
  if head = node then do
    let nn ← bget (node + nodNext)
    bset list nn
  else do
    let np ← bget (node + nodPrev)
    let nn ← bget (node + nodNext)
    bset (np + nodNext) nn
  bget (node + nodData)

/-- tommylist.h:263-290 `tommy_list_concat`. -/
def blistConcat (first second : Nat) : BM Unit := do
  let secondHead ← bget second
  if secondHead = 0 then
    return ()
  let firstHead ← bget first
  if firstHead = 0 then
    bset first secondHead
    return ()
  let firstTail ← bget (firstHead + nodPrev)
  let sp ← bget (secondHead + nodPrev)
  bset (firstHead + nodPrev) sp
  bset (secondHead + nodPrev) firstTail
  bset (firstTail + nodNext) secondHead

/-! ### Code which is the same in the three hashtables -/

/-- tommyhashtbl.h:211-217, tommyhashdyn.h:227-233, tommyhashlin.h:276-282: the search loop. -/
def bhashSearchLoop (cmp : Nat → Int) (hash i : Nat) : BM Nat := do
  if i = 0 then
    return 0
  let idx ← bget (i + nodIndex)
  if idx = hash then
    let d ← bget (i + nodData)
    if cmp d = 0 then
      return d
    let n ← bget (i + nodNext)
    bhashSearchLoop cmp hash n
  else
    let n ← bget (i + nodNext)
    bhashSearchLoop cmp hash n
partial_fixpoint

/-- tommyhashtbl.c:88-98, tommyhashdyn.c:168-180, tommyhashlin.c:274-286: the loop of remove up to the test. Returns the node to
    remove, or 0. -/
def bhashFindLoop (cmp : Nat → Int) (hash node : Nat) : BM Nat := do
  if node = 0 then
    return 0
  let idx ← bget (node + nodIndex)
  if idx = hash then
    let d ← bget (node + nodData)
    if cmp d = 0 then
      return node
    let n ← bget (node + nodNext)
    bhashFindLoop cmp hash n
  else
    let n ← bget (node + nodNext)
    bhashFindLoop cmp hash n
partial_fixpoint

/-- tommyhashdyn.c:85-93, tommyhashlin.c:154-162: moves the nodes of a detached bucket into the lists at the addresses
    `dest (j->index)`. -/
def bflushLoop (dest : Nat → Nat) (j : Nat) : BM Unit := do
  if j = 0 then
    return ()
  let jNext ← bget (j + nodNext)
  let idx ← bget (j + nodIndex)
  let l ← bget (dest idx)
  if l ≠ 0 then
    blistInsertTailNotEmpty l j
  else
    blistInsertFirst (dest idx) j
  bflushLoop dest jNext
partial_fixpoint

/-- The callback of a foreach is a memory transformer. The loop on a bucket, tommyhashtbl.c:112-116, tommyhashdyn.c:194-198,
    tommyhashlin.c:302-306. -/
def bbucketForeachLoop (func : Nat → BM Unit) (node : Nat) : BM Unit := do
  if node = 0 then
    return ()
  let data ← bget (node + nodData)
  let node' ← bget (node + nodNext)
  func data
  bbucketForeachLoop func node'
partial_fixpoint

/-- The loop on the positions of a foreach, tommyhashtbl.c:109-117, tommyhashdyn.c:191-199, tommyhashlin.c:299-307. `ref pos` gives
    the address of the bucket. The last argument is `bucket_max - pos`. -/
def bposForeachLoop (func : Nat → BM Unit) (ref : Nat → BM Nat) (pos : Nat) : Nat → BM Unit
  | 0 => pure ()
  | k + 1 => do
    let r ← ref pos
    let node ← bget r
    bbucketForeachLoop func node
    bposForeachLoop func ref (pos + 1) k

/-! ### tommy_hashtable, with `t` the address of the struct -/

/-- tommyhashtbl.h:146-151 `tommy_hashtable`: the offsets of the fields, and the size. -/
def tblBucket : Nat := 0
def tblMax : Nat := ptrSize
def tblMask : Nat := 2 * ptrSize
def tblCount : Nat := 3 * ptrSize
def tblSize : Nat := 4 * ptrSize

/-- tommyhashtbl.c:36-54 `tommy_hashtable_init`. -/
def bhashtableInit (t bucketMax : Nat) : BM Unit := do
  let bucketMax := if bucketMax < 16 then 16 else roundupPow2 bucketMax
  bset (t + tblMax) bucketMax
  let max ← bget (t + tblMax)
  bset (t + tblMask) (decT max)
  let max ← bget (t + tblMax)
  let bucket ← bmalloc (sizeT (max * ptrSize))
  bset (t + tblBucket) bucket
  let bucket ← bget (t + tblBucket)
  let max ← bget (t + tblMax)
  bzero bucket (sizeT (max * ptrSize))
  bset (t + tblCount) 0

/-- tommyhashtbl.c:56-59 `tommy_hashtable_done`. -/
def bhashtableDone (t : Nat) : BM Unit := do
  let bucket ← bget (t + tblBucket)
  bfree bucket

/-- tommyhashtbl.c:61-70 `tommy_hashtable_insert`. -/
def bhashtableInsert (t node data hash : Nat) : BM Unit := do
  let mask ← bget (t + tblMask)
  let pos := hash &&& mask
  let bucket ← bget (t + tblBucket)
  blistInsertTail (padd bucket pos) node data
  bset (node + nodIndex) hash
  let count ← bget (t + tblCount)
  bset (t + tblCount) (sizeT (count + 1))

/-- tommyhashtbl.c:72-81 `tommy_hashtable_remove_existing`. -/
def bhashtableRemoveExisting (t node : Nat) : BM Nat := do
  let idx ← bget (node + nodIndex)
  let mask ← bget (t + tblMask)
  let pos := idx &&& mask
  let bucket ← bget (t + tblBucket)
  let _ ← blistRemoveExisting (padd bucket pos) node
  let count ← bget (t + tblCount)
  bset (t + tblCount) (decT count)
  bget (node + nodData)

/-- tommyhashtbl.c:83-101 `tommy_hashtable_remove`. -/
def bhashtableRemove (t : Nat) (cmp : Nat → Int) (hash : Nat) : BM Nat := do
  let mask ← bget (t + tblMask)
  let pos := hash &&& mask
  let bucket ← bget (t + tblBucket)
  let head ← bget (padd bucket pos)
  let node ← bhashFindLoop cmp hash head
  if node ≠ 0 then
    let bucket ← bget (t + tblBucket)
    let _ ← blistRemoveExisting (padd bucket pos) node
    let count ← bget (t + tblCount)
    bset (t + tblCount) (decT count)
    bget (node + nodData)
  else
    return 0

/-- tommyhashtbl.h:192-195 `tommy_hashtable_bucket`. -/
def bhashtableBucket (t hash : Nat) : BM Nat := do
  let bucket ← bget (t + tblBucket)
  let mask ← bget (t + tblMask)
  bget (padd bucket (hash &&& mask))

/-- tommyhashtbl.h:207-218 `tommy_hashtable_search`. -/
def bhashtableSearch (t : Nat) (cmp : Nat → Int) (hash : Nat) : BM Nat := do
  let i ← bhashtableBucket t hash
  bhashSearchLoop cmp hash i

/-- tommyhashtbl.h:268-271 `tommy_hashtable_count`. -/
def bhashtableCount (t : Nat) : BM Nat := bget (t + tblCount)

/-- tommyhashtbl.c:103-118 `tommy_hashtable_foreach`. -/
def bhashtableForeach (t : Nat) (func : Nat → BM Unit) : BM Unit := do
  let bucketMax ← bget (t + tblMax)
  let bucket ← bget (t + tblBucket)
  bposForeachLoop func (fun pos => pure (padd bucket pos)) 0 bucketMax

/-- tommyhashtbl.c:137-141 `tommy_hashtable_memory_usage`. -/
def bhashtableMemoryUsage (t : Nat) : BM Nat := do
  let max ← bget (t + tblMax)
  let count ← bhashtableCount t
  return sizeT (max * ptrSize + count * nodeSize)

/-! ### tommy_hashdyn, with `t` the address of the struct -/

/-- tommyhashdyn.h:158-164 `tommy_hashdyn`: the offsets of the fields, and the size (in a 64 bit build there are 4 unused bytes at
    the end). -/
def dynBucket : Nat := 0
def dynMax : Nat := ptrSize
def dynMask : Nat := 2 * ptrSize
def dynCount : Nat := 3 * ptrSize
def dynBit : Nat := 4 * ptrSize
def dynStruct : Nat := 5 * ptrSize

/-- tommyhashdyn.h:149 `TOMMY_HASHDYN_BIT`. -/
def dynBIT : Nat := 4

/-- tommyhashdyn.c:34-43 `tommy_hashdyn_init`. -/
def bhashdynInit (t : Nat) : BM Unit := do
  bset32 (t + dynBit) dynBIT
  let bit ← bget32 (t + dynBit)
  let max ← bshl bit
  bset (t + dynMax) max
  let max ← bget (t + dynMax)
  bset (t + dynMask) (decT max)
  let max ← bget (t + dynMax)
  let bucket ← hbcalloc max ptrSize
  bset (t + dynBucket) bucket
  bset (t + dynCount) 0

/-- tommyhashdyn.c:45-48 `tommy_hashdyn_done`. -/
def bhashdynDone (t : Nat) : BM Unit := do
  let bucket ← bget (t + dynBucket)
  bfree bucket

/-- tommyhashdyn.c:76-94: the grow loop of resize. The last argument is `bucket_max - i`. -/
def bhashdynGrowLoop (t bucketMax newBucket newBucketMask i : Nat) : Nat → BM Unit
  | 0 => pure ()
  | k + 1 => do
    bset (padd newBucket i) 0
    bset (padd newBucket (i + bucketMax)) 0
    let bucket ← bget (t + dynBucket)
    let j ← bget (padd bucket i)
    bflushLoop (fun index => padd newBucket (index &&& newBucketMask)) j
    bhashdynGrowLoop t bucketMax newBucket newBucketMask (i + 1) k

/-- tommyhashdyn.c:99-105: the shrink loop of resize. The last argument is `new_bucket_max - i`. -/
def bhashdynShrinkLoop (t newBucket newBucketMax i : Nat) : Nat → BM Unit
  | 0 => pure ()
  | k + 1 => do
    let bucket ← bget (t + dynBucket)
    let j ← bget (padd bucket i)
    bset (padd newBucket i) j
    let bucket ← bget (t + dynBucket)
    blistConcat (padd newBucket i) (padd bucket (i + newBucketMax))
    bhashdynShrinkLoop t newBucket newBucketMax (i + 1) k

/-- tommyhashdyn.c:53-115 `tommy_hashdyn_resize`. -/
def bhashdynResize (t newBucketBit : Nat) : BM Unit := do
  let bucketBit ← bget32 (t + dynBit)
  let bucketMax ← bget (t + dynMax)
  let newBucketMax ← bshl newBucketBit
  let newBucketMask := decT newBucketMax
  let newBucket ← bmalloc (sizeT (newBucketMax * ptrSize))
  if newBucketBit > bucketBit then
    bhashdynGrowLoop t bucketMax newBucket newBucketMask 0 bucketMax
  else
    bhashdynShrinkLoop t newBucket newBucketMax 0 newBucketMax
  let bucket ← bget (t + dynBucket)
  bfree bucket
  bset32 (t + dynBit) newBucketBit
  bset (t + dynMax) newBucketMax
  bset (t + dynMask) newBucketMask
  bset (t + dynBucket) newBucket

/-- tommyhashdyn.c:120-125 `hashdyn_grow_step`. The sum is of `tommy_uint_t`. -/
def bhashdynGrowStep (t : Nat) : BM Unit := do
  let count ← bget (t + dynCount)
  let max ← bget (t + dynMax)
  if count ≥ max / 2 then
    let bit ← bget32 (t + dynBit)
    bhashdynResize t ((bit + 1) % 2 ^ 32)
  else
    return ()

/-- tommyhashdyn.c:130-135 `hashdyn_shrink_step`. -/
def bhashdynShrinkStep (t : Nat) : BM Unit := do
  let count ← bget (t + dynCount)
  let max ← bget (t + dynMax)
  if count ≤ max / 8 then
    let bit ← bget32 (t + dynBit)
    if bit > dynBIT then
      let bit ← bget32 (t + dynBit)
      bhashdynResize t ((bit + 2 ^ 32 - 1) % 2 ^ 32)
    else
      return ()
  else
    return ()

/-- tommyhashdyn.c:137-148 `tommy_hashdyn_insert`. -/
def bhashdynInsert (t node data hash : Nat) : BM Unit := do
  let mask ← bget (t + dynMask)
  let pos := hash &&& mask
  let bucket ← bget (t + dynBucket)
  blistInsertTail (padd bucket pos) node data
  bset (node + nodIndex) hash
  let count ← bget (t + dynCount)
  bset (t + dynCount) (sizeT (count + 1))
  bhashdynGrowStep t

/-- tommyhashdyn.c:150-161 `tommy_hashdyn_remove_existing`. -/
def bhashdynRemoveExisting (t node : Nat) : BM Nat := do
  let idx ← bget (node + nodIndex)
  let mask ← bget (t + dynMask)
  let pos := idx &&& mask
  let bucket ← bget (t + dynBucket)
  let _ ← blistRemoveExisting (padd bucket pos) node
  let count ← bget (t + dynCount)
  bset (t + dynCount) (decT count)
  bhashdynShrinkStep t
  bget (node + nodData)

/-- tommyhashdyn.c:163-183 `tommy_hashdyn_remove`. -/
def bhashdynRemove (t : Nat) (cmp : Nat → Int) (hash : Nat) : BM Nat := do
  let mask ← bget (t + dynMask)
  let pos := hash &&& mask
  let bucket ← bget (t + dynBucket)
  let head ← bget (padd bucket pos)
  let node ← bhashFindLoop cmp hash head
  if node ≠ 0 then
    let bucket ← bget (t + dynBucket)
    let _ ← blistRemoveExisting (padd bucket pos) node
    let count ← bget (t + dynCount)
    bset (t + dynCount) (decT count)
    bhashdynShrinkStep t
    bget (node + nodData)
  else
    return 0

/-- tommyhashdyn.h:208-211 `tommy_hashdyn_bucket`. -/
def bhashdynBucket (t hash : Nat) : BM Nat := do
  let bucket ← bget (t + dynBucket)
  let mask ← bget (t + dynMask)
  bget (padd bucket (hash &&& mask))

/-- tommyhashdyn.h:223-234 `tommy_hashdyn_search`. -/
def bhashdynSearch (t : Nat) (cmp : Nat → Int) (hash : Nat) : BM Nat := do
  let i ← bhashdynBucket t hash
  bhashSearchLoop cmp hash i

/-- tommyhashdyn.h:284-287 `tommy_hashdyn_count`. -/
def bhashdynCount (t : Nat) : BM Nat := bget (t + dynCount)

/-- tommyhashdyn.c:185-200 `tommy_hashdyn_foreach`. -/
def bhashdynForeach (t : Nat) (func : Nat → BM Unit) : BM Unit := do
  let bucketMax ← bget (t + dynMax)
  let bucket ← bget (t + dynBucket)
  bposForeachLoop func (fun pos => pure (padd bucket pos)) 0 bucketMax

/-- tommyhashdyn.c:219-223 `tommy_hashdyn_memory_usage`. -/
def bhashdynMemoryUsage (t : Nat) : BM Nat := do
  let max ← bget (t + dynMax)
  let count ← bhashdynCount t
  return sizeT (max * ptrSize + count * nodeSize)

/-! ### tommy_hashlin, with `t` the address of the struct -/

/-- tommyhashlin.h:164-174 `tommy_hashlin`: the offsets of the fields after the array `bucket`, and the size. -/
def linMax : Nat := ptrSize * sizeBit
def linMask : Nat := ptrSize * (sizeBit + 1)
def linLowMax : Nat := ptrSize * (sizeBit + 2)
def linLowMask : Nat := ptrSize * (sizeBit + 3)
def linSplit : Nat := ptrSize * (sizeBit + 4)
def linCount : Nat := ptrSize * (sizeBit + 5)
def linBit : Nat := ptrSize * (sizeBit + 6)
def linState : Nat := ptrSize * (sizeBit + 6) + 4
def linStruct : Nat := ptrSize * (sizeBit + 6) + 8

/-- tommyhashlin.h:152 `TOMMY_HASHLIN_BIT`. -/
def linBIT : Nat := 6

/-- tommyhashlin.c:39-41, the reallocation states. -/
def linStable : Nat := 0
def linGrow : Nat := 1
def linShrink : Nat := 2

/-- `hashlin->bucket[i]`: out of the bounds of the array is UB. -/
def bseg (t i : Nat) : BM Nat := fun w => if i < sizeBit then bget (t + ptrSize * i) w else none

/-- `hashlin->bucket[i] = p` -/
def bsetSeg (t i p : Nat) : BM Unit := fun w => if i < sizeBit then bset (t + ptrSize * i) p w else none

/-- tommyhashlin.c:46-55 `tommy_hashlin_stable`. -/
def bhashlinStable (t : Nat) : BM Unit := do
  bset32 (t + linState) linStable
  let max ← bget (t + linMax)
  bset (t + linLowMax) max
  let mask ← bget (t + linMask)
  bset (t + linLowMask) mask
  bset (t + linSplit) 0

/-- tommyhashlin.c:66-67, the loop of init. The last argument is `TOMMY_HASHLIN_BIT - i`. -/
def bhashlinInitLoop (t i : Nat) : Nat → BM Unit
  | 0 => pure ()
  | k + 1 => do
    let b0 ← bseg t 0
    bsetSeg t i b0
    bhashlinInitLoop t (i + 1) k

/-- tommyhashlin.c:57-73 `tommy_hashlin_init`. -/
def bhashlinInit (t : Nat) : BM Unit := do
  bset32 (t + linBit) linBIT
  let bit ← bget32 (t + linBit)
  let max ← bshl bit
  bset (t + linMax) max
  let max ← bget (t + linMax)
  bset (t + linMask) (decT max)
  let max ← bget (t + linMax)
  let b0 ← hbcalloc max ptrSize
  bsetSeg t 0 b0
  bhashlinInitLoop t 1 (linBIT - 1)
  bhashlinStable t
  bset (t + linCount) 0

/-- tommyhashlin.c:80-83, the loop of done. -/
def bhashlinDoneLoop (t i : Nat) : BM Unit := do
  let bit ← bget32 (t + linBit)
  if i < bit then
    let segment ← bseg t i
    let off ← bshlS i
    bfree (padd segment off)
    bhashlinDoneLoop t (i + 1)
  else
    return ()
partial_fixpoint

/-- tommyhashlin.c:75-84 `tommy_hashlin_done`. -/
def bhashlinDone (t : Nat) : BM Unit := do
  let b0 ← bseg t 0
  bfree b0
  bhashlinDoneLoop t linBIT

/-- tommyhashlin.h:210-218 `tommy_hashlin_pos`. -/
def bhashlinPos (t pos : Nat) : BM Nat := do
  let b ← bseg t (Nat.log2 (pos ||| 1))
  return padd b pos

/-- tommyhashlin.h:223-247 `tommy_hashlin_bucket_ref`. -/
def bhashlinBucketRef (t hash : Nat) : BM Nat := do
  let lowMask ← bget (t + linLowMask)
  let pos := hash &&& lowMask
  let mask ← bget (t + linMask)
  let highPos := hash &&& mask
  let split ← bget (t + linSplit)
  bhashlinPos t (if pos < split then highPos else pos)

/-- tommyhashlin.c:91-120: the start of a growth in `hashlin_grow_step`. -/
def bhashlinGrowStart (t : Nat) : BM Unit := do
  let state ← bget32 (t + linState)
  let count ← bget (t + linCount)
  let max ← bget (t + linMax)
  if state ≠ linGrow ∧ count > max / 2 then
    let state ← bget32 (t + linState)
    if state = linStable then
      let max ← bget (t + linMax)
      bset (t + linLowMax) max
      let mask ← bget (t + linMask)
      bset (t + linLowMask) mask
      let lowMax ← bget (t + linLowMax)
      let segment ← bmalloc (sizeT (lowMax * ptrSize))
      let lowMax ← bget (t + linLowMax)
      let first ← bpsub segment lowMax
      let bit ← bget32 (t + linBit)
      bsetSeg t bit first
      let bit ← bget32 (t + linBit)
      bset32 (t + linBit) ((bit + 1) % 2 ^ 32)
      let bit ← bget32 (t + linBit)
      let max ← bshl bit
      bset (t + linMax) max
      let max ← bget (t + linMax)
      bset (t + linMask) (decT max)
      bset (t + linSplit) 0
      bset32 (t + linState) linGrow
    else
      bset32 (t + linState) linGrow
  else
    return ()

/-- tommyhashlin.c:130-174: the loop of `hashlin_grow_step`. -/
def bhashlinGrowLoop (t splitTarget : Nat) : BM Unit := do
  let split ← bget (t + linSplit)
  let lowMax ← bget (t + linLowMax)
  if sizeT (split + lowMax) < splitTarget then
    let split ← bget (t + linSplit)
    let s0 ← bhashlinPos t split
    let split ← bget (t + linSplit)
    let lowMax ← bget (t + linLowMax)
    let s1 ← bhashlinPos t (sizeT (split + lowMax))
    let j ← bget s0
    bset s0 0
    bset s1 0
    let mask ← bget (t + linLowMax)
    bflushLoop (fun index => if index &&& mask ≠ 0 then s1 else s0) j
    let split ← bget (t + linSplit)
    bset (t + linSplit) (sizeT (split + 1))
    let split ← bget (t + linSplit)
    let lowMax ← bget (t + linLowMax)
    if split = lowMax then
      bhashlinStable t
    else
      bhashlinGrowLoop t splitTarget
  else
    return ()
partial_fixpoint

/-- tommyhashlin.c:89-175 `hashlin_grow_step`. -/
def bhashlinGrowStep (t : Nat) : BM Unit := do
  bhashlinGrowStart t
  let state ← bget32 (t + linState)
  if state = linGrow then
    let count ← bget (t + linCount)
    bhashlinGrowLoop t (sizeT (2 * count))
  else
    return ()

/-- tommyhashlin.c:183-202: the start of a shrink in `hashlin_shrink_step`. -/
def bhashlinShrinkStart (t : Nat) : BM Unit := do
  let state ← bget32 (t + linState)
  let count ← bget (t + linCount)
  let max ← bget (t + linMax)
  if state ≠ linShrink ∧ count < max / 8 then
    let bit ← bget32 (t + linBit)
    if bit > linBIT then
      let state ← bget32 (t + linState)
      if state = linStable then
        let max ← bget (t + linMax)
        bset (t + linLowMax) (max / 2)
        let mask ← bget (t + linMask)
        bset (t + linLowMask) (mask / 2)
        let lowMax ← bget (t + linLowMax)
        bset (t + linSplit) lowMax
        bset32 (t + linState) linShrink
      else
        bset32 (t + linState) linShrink
    else
      return ()
  else
    return ()

/-- tommyhashlin.c:210-243: the loop of `hashlin_shrink_step`. -/
def bhashlinShrinkLoop (t splitTarget : Nat) : BM Unit := do
  let split ← bget (t + linSplit)
  let lowMax ← bget (t + linLowMax)
  if sizeT (split + lowMax) > splitTarget then
    let split ← bget (t + linSplit)
    bset (t + linSplit) (decT split)
    let split ← bget (t + linSplit)
    let s0 ← bhashlinPos t split
    let split ← bget (t + linSplit)
    let lowMax ← bget (t + linLowMax)
    let s1 ← bhashlinPos t (sizeT (split + lowMax))
    blistConcat s0 s1
    let split ← bget (t + linSplit)
    if split = 0 then
      let bit ← bget32 (t + linBit)
      bset32 (t + linBit) ((bit + 2 ^ 32 - 1) % 2 ^ 32)
      let bit ← bget32 (t + linBit)
      let max ← bshl bit
      bset (t + linMax) max
      let max ← bget (t + linMax)
      bset (t + linMask) (decT max)
      let bit ← bget32 (t + linBit)
      let segment ← bseg t bit
      let bit ← bget32 (t + linBit)
      let off ← bshlS bit
      bfree (padd segment off)
      bhashlinStable t
    else
      bhashlinShrinkLoop t splitTarget
  else
    return ()
partial_fixpoint

/-- tommyhashlin.c:180-245 `hashlin_shrink_step`. -/
def bhashlinShrinkStep (t : Nat) : BM Unit := do
  bhashlinShrinkStart t
  let state ← bget32 (t + linState)
  if state = linShrink then
    let count ← bget (t + linCount)
    bhashlinShrinkLoop t (sizeT (8 * count))
  else
    return ()

/-- tommyhashlin.c:247-256 `tommy_hashlin_insert`. -/
def bhashlinInsert (t node data hash : Nat) : BM Unit := do
  let r ← bhashlinBucketRef t hash
  blistInsertTail r node data
  bset (node + nodIndex) hash
  let count ← bget (t + linCount)
  bset (t + linCount) (sizeT (count + 1))
  bhashlinGrowStep t

/-- tommyhashlin.c:258-267 `tommy_hashlin_remove_existing`. -/
def bhashlinRemoveExisting (t node : Nat) : BM Nat := do
  let idx ← bget (node + nodIndex)
  let r ← bhashlinBucketRef t idx
  let _ ← blistRemoveExisting r node
  let count ← bget (t + linCount)
  bset (t + linCount) (decT count)
  bhashlinShrinkStep t
  bget (node + nodData)

/-- tommyhashlin.c:269-289 `tommy_hashlin_remove`. -/
def bhashlinRemove (t : Nat) (cmp : Nat → Int) (hash : Nat) : BM Nat := do
  let r ← bhashlinBucketRef t hash
  let head ← bget r
  let node ← bhashFindLoop cmp hash head
  if node ≠ 0 then
    let _ ← blistRemoveExisting r node
    let count ← bget (t + linCount)
    bset (t + linCount) (decT count)
    bhashlinShrinkStep t
    bget (node + nodData)
  else
    return 0

/-- tommyhashlin.h:257-260 `tommy_hashlin_bucket`. -/
def bhashlinBucket (t hash : Nat) : BM Nat := do
  let r ← bhashlinBucketRef t hash
  bget r

/-- tommyhashlin.h:272-283 `tommy_hashlin_search`. -/
def bhashlinSearch (t : Nat) (cmp : Nat → Int) (hash : Nat) : BM Nat := do
  let i ← bhashlinBucket t hash
  bhashSearchLoop cmp hash i

/-- tommyhashlin.h:333-336 `tommy_hashlin_count`. -/
def bhashlinCount (t : Nat) : BM Nat := bget (t + linCount)

/-- tommyhashlin.c:291-308 `tommy_hashlin_foreach`. -/
def bhashlinForeach (t : Nat) (func : Nat → BM Unit) : BM Unit := do
  let lowMax ← bget (t + linLowMax)
  let split ← bget (t + linSplit)
  bposForeachLoop func (bhashlinPos t) 0 (sizeT (lowMax + split))

/-- tommyhashlin.c:329-333 `tommy_hashlin_memory_usage`. -/
def bhashlinMemoryUsage (t : Nat) : BM Nat := do
  let max ← bget (t + linMax)
  let count ← bget (t + linCount)
  return sizeT (max * ptrSize + count * nodeSize)

end Tommy
