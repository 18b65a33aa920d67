import Verif.Model.HashCommon
/-
  Model of tommyhashdyn.h and tommyhashdyn.c. Same conventions of `Hashtable`.
-/
set_option autoImplicit false
namespace Tommy

variable [Arch]

/-- tommyhashdyn.h:158-164 `tommy_hashdyn`.
    `work` is a ghost field: it counts the buckets visited and the nodes moved by resize since init. -/
structure Hashdyn where
  bucket : Ref
  bucketBit : Nat
  bucketMax : Nat
  bucketMask : Nat
  count : Nat
  work : Nat

/-- tommyhashdyn.h:149 `TOMMY_HASHDYN_BIT`. -/
def hashdynBIT : Nat := 4

/-- `(tommy_size_t)1 << bit`: UB from TOMMY_SIZE_BIT on. -/
def shlT (bit : Nat) : MM Nat := fun m => if bit < sizeBit then some (2 ^ bit, m) else none

/-- tommyhashdyn.c:34-43 `tommy_hashdyn_init`. -/
def hashdynInit : MM Hashdyn := do
  let bucketMax ← shlT hashdynBIT
  let bucket ← vcalloc bucketMax
  return { bucket, bucketBit := hashdynBIT, bucketMax, bucketMask := decT bucketMax, count := 0, work := 0 }

/-- tommyhashdyn.c:45-48 `tommy_hashdyn_done`. -/
def hashdynDone (t : Hashdyn) : MM Unit := vfree t.bucket

/-- tommyhashdyn.c:76-94: the grow loop of resize. The last argument is `bucket_max - i`.
    The result is a ghost: the number of buckets visited and of nodes moved. -/
def hashdynGrowLoop (t : Hashdyn) (newBucket : Ref) (newBucketMask : Nat) (i : Nat) : Nat → MM Nat
  | 0 => pure 0
  | k + 1 => do
    writeRef (newBucket.add i) 0
    writeRef (newBucket.add (i + t.bucketMax : Nat)) 0
    let j ← readRef (t.bucket.add i)
    let moved ← flushLoop (fun index => newBucket.add (index &&& newBucketMask : Nat)) j
    let work ← hashdynGrowLoop t newBucket newBucketMask (i + 1) k
    return work + moved + 1

/-- tommyhashdyn.c:99-105: the shrink loop of resize. The last argument is `new_bucket_max - i`.
    The result is a ghost: the number of buckets visited. -/
def hashdynShrinkLoop (t : Hashdyn) (newBucket : Ref) (newBucketMax : Nat) (i : Nat) : Nat → MM Nat
  | 0 => pure 0
  | k + 1 => do
    let j ← readRef (t.bucket.add i)
    writeRef (newBucket.add i) j
    cellConcat (newBucket.add i) (t.bucket.add (i + newBucketMax : Nat))
    let work ← hashdynShrinkLoop t newBucket newBucketMax (i + 1) k
    return work + 1

/-- tommyhashdyn.c:53-115 `tommy_hashdyn_resize`. -/
def hashdynResize (t : Hashdyn) (newBucketBit : Nat) : MM Hashdyn := do
  let newBucketMax ← shlT newBucketBit
  let newBucketMask := decT newBucketMax
  let newBucket ← vmalloc (sizeT (newBucketMax * ptrSize))
  let work ← if newBucketBit > t.bucketBit then
      hashdynGrowLoop t newBucket newBucketMask 0 t.bucketMax
    else
      hashdynShrinkLoop t newBucket newBucketMax 0 newBucketMax
  vfree t.bucket
  return { t with bucketBit := newBucketBit, bucketMax := newBucketMax, bucketMask := newBucketMask,
                  bucket := newBucket, work := t.work + work }

/-- tommyhashdyn.c:120-125 `hashdyn_grow_step`. -/
def hashdynGrowStep (t : Hashdyn) : MM Hashdyn :=
  if t.count ≥ t.bucketMax / 2 then hashdynResize t (t.bucketBit + 1) else pure t

/-- tommyhashdyn.c:130-135 `hashdyn_shrink_step`. -/
def hashdynShrinkStep (t : Hashdyn) : MM Hashdyn :=
  if t.count ≤ t.bucketMax / 8 ∧ t.bucketBit > hashdynBIT then hashdynResize t (t.bucketBit - 1)
  else pure t

/-- tommyhashdyn.c:137-148 `tommy_hashdyn_insert`. -/
def hashdynInsert (t : Hashdyn) (node : Ptr) (data hash : Nat) : MM Hashdyn := do
  let pos := hash &&& t.bucketMask
  cellInsertTail (t.bucket.add pos) node data
  onNodes (setIndex node hash)
  hashdynGrowStep { t with count := sizeT (t.count + 1) }

/-- tommyhashdyn.c:150-161 `tommy_hashdyn_remove_existing`. -/
def hashdynRemoveExisting (t : Hashdyn) (node : Ptr) : MM (Hashdyn × Nat) := do
  let idx ← onNodes (getIndex node)
  let pos := idx &&& t.bucketMask
  cellRemoveExisting (t.bucket.add pos) node
  let t' ← hashdynShrinkStep { t with count := decT t.count }
  let d ← onNodes (getData node)
  return (t', d)

/-- tommyhashdyn.c:163-183 `tommy_hashdyn_remove`. -/
def hashdynRemove (t : Hashdyn) (cmp : Nat → Int) (hash : Nat) : MM (Hashdyn × Nat) := do
  let pos := hash &&& t.bucketMask
  let head ← readRef (t.bucket.add pos)
  let node ← onNodes (hashFindLoop cmp hash head)
  if node ≠ 0 then
    cellRemoveExisting (t.bucket.add pos) node
    let t' ← hashdynShrinkStep { t with count := decT t.count }
    let d ← onNodes (getData node)
    return (t', d)
  else
    return (t, 0)

/-- tommyhashdyn.h:208-211 `tommy_hashdyn_bucket`. -/
def hashdynBucket (t : Hashdyn) (hash : Nat) : MM Ptr :=
  readRef (t.bucket.add (hash &&& t.bucketMask : Nat))

/-- tommyhashdyn.h:223-234 `tommy_hashdyn_search`. -/
def hashdynSearch (t : Hashdyn) (cmp : Nat → Int) (hash : Nat) : MM Nat := do
  let i ← hashdynBucket t hash
  onNodes (hashSearchLoop cmp hash i)

/-- tommyhashdyn.h:284-287 `tommy_hashdyn_count`. -/
def hashdynCount (t : Hashdyn) : Nat := t.count

/-- tommyhashdyn.c:185-200 `tommy_hashdyn_foreach`. -/
def hashdynForeach (t : Hashdyn) (func : Nat → MM Unit) : MM Unit :=
  posForeachLoop func (fun pos => pure (t.bucket.add pos)) 0 t.bucketMax

/-- tommyhashdyn.c:219-223 `tommy_hashdyn_memory_usage`. -/
def hashdynMemoryUsage (t : Hashdyn) : Nat := sizeT (t.bucketMax * ptrSize + hashdynCount t * nodeSize)

end Tommy
