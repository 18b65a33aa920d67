import Verif.Model.HashCommon
import Verif.Model.Bits
/-
  Model of tommyhashtbl.h and tommyhashtbl.c.
  A `tommy_hashtable*` argument becomes a value; functions which change the struct return the new
  value.  `cmp` is `cmp(cmp_arg, ·)`.
-/
set_option autoImplicit false
namespace Tommy

variable [Arch]

/-- tommyhashtbl.h:146-151 `tommy_hashtable`. -/
structure Hashtable where
  bucket : Ref
  bucketMax : Nat
  bucketMask : Nat
  count : Nat

/-- tommyhashtbl.c:36-54 `tommy_hashtable_init`. -/
def hashtableInit (bucketMax : Nat) : MM Hashtable := do
  let bucketMax := if bucketMax < 16 then 16 else roundupPow2 bucketMax
  let bucketMask := decT bucketMax
  let bucket ← vmalloc (sizeT (bucketMax * ptrSize))
  vzero bucket (sizeT (bucketMax * ptrSize))
  return { bucket, bucketMax, bucketMask, count := 0 }

/-- tommyhashtbl.c:56-59 `tommy_hashtable_done`. -/
def hashtableDone (t : Hashtable) : MM Unit := vfree t.bucket

/-- tommyhashtbl.c:61-70 `tommy_hashtable_insert`. -/
def hashtableInsert (t : Hashtable) (node : Ptr) (data hash : Nat) : MM Hashtable := do
  let pos := hash &&& t.bucketMask
  cellInsertTail (t.bucket.add pos) node data
  onNodes (setIndex node hash)
  return { t with count := sizeT (t.count + 1) }

/-- tommyhashtbl.c:72-81 `tommy_hashtable_remove_existing`. -/
def hashtableRemoveExisting (t : Hashtable) (node : Ptr) : MM (Hashtable × Nat) := do
  let idx ← onNodes (getIndex node)
  let pos := idx &&& t.bucketMask
  cellRemoveExisting (t.bucket.add pos) node
  let d ← onNodes (getData node)
  return ({ t with count := decT t.count }, d)

/-- tommyhashtbl.c:83-101 `tommy_hashtable_remove`. -/
def hashtableRemove (t : Hashtable) (cmp : Nat → Int) (hash : Nat) : MM (Hashtable × Nat) := do
  let pos := hash &&& t.bucketMask
  let head ← readRef (t.bucket.add pos)
  let node ← onNodes (hashFindLoop cmp hash head)
  if node ≠ 0 then
    cellRemoveExisting (t.bucket.add pos) node
    let d ← onNodes (getData node)
    return ({ t with count := decT t.count }, d)
  else
    return (t, 0)

/-- tommyhashtbl.h:192-195 `tommy_hashtable_bucket`. -/
def hashtableBucket (t : Hashtable) (hash : Nat) : MM Ptr :=
  readRef (t.bucket.add (hash &&& t.bucketMask : Nat))

/-- tommyhashtbl.h:207-218 `tommy_hashtable_search`. -/
def hashtableSearch (t : Hashtable) (cmp : Nat → Int) (hash : Nat) : MM Nat := do
  let i ← hashtableBucket t hash
  onNodes (hashSearchLoop cmp hash i)

/-- tommyhashtbl.h:268-271 `tommy_hashtable_count`. -/
def hashtableCount (t : Hashtable) : Nat := t.count

/-- tommyhashtbl.c:103-118 `tommy_hashtable_foreach`. -/
def hashtableForeach (t : Hashtable) (func : Nat → MM Unit) : MM Unit :=
  posForeachLoop func (fun pos => pure (t.bucket.add pos)) 0 t.bucketMax

/-- tommyhashtbl.c:137-141 `tommy_hashtable_memory_usage`. -/
def hashtableMemoryUsage (t : Hashtable) : Nat := sizeT (t.bucketMax * ptrSize + hashtableCount t * nodeSize)

end Tommy
