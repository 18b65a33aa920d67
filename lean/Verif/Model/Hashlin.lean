import Verif.Model.Hashdyn
/-
  Model of tommyhashlin.h and tommyhashlin.c. Same conventions of `Hashtable`.
-/
set_option autoImplicit false
namespace Tommy

variable [Arch]

/-- tommyhashlin.c:39-41, the reallocation states. -/
inductive LinState | stable | grow | shrink
deriving DecidableEq

/-- tommyhashlin.h:164-174 `tommy_hashlin`. `bucket i` is `none` when not initialised.
    `work` and `moved` are ghost fields: they count the buckets split or merged, and the nodes moved, since init. -/
structure Hashlin where
  bucket : Nat → Option Ref
  bucketMax : Nat
  bucketMask : Nat
  lowMax : Nat
  lowMask : Nat
  split : Nat
  count : Nat
  bucketBit : Nat
  state : LinState
  work : Nat
  moved : Nat

/-- tommyhashlin.h:152 `TOMMY_HASHLIN_BIT`. -/
def hashlinBIT : Nat := 6

/-- `hashlin->bucket[i]`: out of the bounds of the array of `TOMMY_SIZE_BIT` elements, or not initialised, is UB. -/
def hashlinSeg (t : Hashlin) (i : Nat) : MM Ref := fun m =>
  if i < sizeBit then (t.bucket i).map (fun r => (r, m)) else none

/-- `hashlin->bucket[i] = r` -/
def hashlinSetSeg (t : Hashlin) (i : Nat) (r : Ref) : MM Hashlin := fun m =>
  if i < sizeBit then some ({ t with bucket := upd t.bucket i (some r) }, m) else none

/-- `(tommy_ptrdiff_t)1 << bit`: the type is signed, UB from TOMMY_SIZE_BIT - 1 on. -/
def shlS (bit : Nat) : MM Nat := fun m => if bit + 1 < sizeBit then some (2 ^ bit, m) else none

/-- `-(tommy_ptrdiff_t)x`: refused if `x` is not a tommy_ptrdiff_t. -/
def negS (x : Nat) : MM Int := fun m => if x < 2 ^ (sizeBit - 1) then some (-(x : Int), m) else none

/-- tommyhashlin.c:46-55 `tommy_hashlin_stable`. -/
def hashlinStable (t : Hashlin) : Hashlin :=
  { t with state := .stable, lowMax := t.bucketMax, lowMask := t.bucketMask, split := 0 }

/-- tommyhashlin.c:66-67, the loop of init. The last argument is `TOMMY_HASHLIN_BIT - i`. -/
def hashlinInitLoop (t : Hashlin) (i : Nat) : Nat → MM Hashlin
  | 0 => pure t
  | k + 1 => do
    let b0 ← hashlinSeg t 0
    let t ← hashlinSetSeg t i b0
    hashlinInitLoop t (i + 1) k

/-- tommyhashlin.c:57-73 `tommy_hashlin_init`. The fields not yet assigned are 0 here. -/
def hashlinInit : MM Hashlin := do
  let bucketMax ← shlT hashlinBIT
  let t : Hashlin :=
    { bucket := fun _ => none, bucketMax, bucketMask := decT bucketMax, lowMax := 0, lowMask := 0,
      split := 0, count := 0, bucketBit := hashlinBIT, state := .stable, work := 0, moved := 0 }
  let b0 ← vcalloc bucketMax
  let t ← hashlinSetSeg t 0 b0
  let t ← hashlinInitLoop t 1 (hashlinBIT - 1)
  return { hashlinStable t with count := 0 }

/-- tommyhashlin.c:80-83, the loop of done. The last argument is `bucket_bit - i`. -/
def hashlinDoneLoop (t : Hashlin) (i : Nat) : Nat → MM Unit
  | 0 => pure ()
  | k + 1 => do
    let segment ← hashlinSeg t i
    let off ← shlS i
    vfree (segment.add off)
    hashlinDoneLoop t (i + 1) k

/-- tommyhashlin.c:75-84 `tommy_hashlin_done`. -/
def hashlinDone (t : Hashlin) : MM Unit := do
  let b0 ← hashlinSeg t 0
  vfree b0
  hashlinDoneLoop t hashlinBIT (t.bucketBit - hashlinBIT)

/-- tommyhashlin.h:210-218 `tommy_hashlin_pos`. -/
def hashlinPos (t : Hashlin) (pos : Nat) : MM Ref := do
  let bsr ← ilog2M (pos ||| 1)
  let b ← hashlinSeg t bsr
  return b.add pos

/-- tommyhashlin.h:223-247 `tommy_hashlin_bucket_ref`. -/
def hashlinBucketRef (t : Hashlin) (hash : Nat) : MM Ref :=
  let pos := hash &&& t.lowMask
  let highPos := hash &&& t.bucketMask
  hashlinPos t (if pos < t.split then highPos else pos)

/-- tommyhashlin.c:91-120: the start of a growth in `hashlin_grow_step`. -/
def hashlinGrowStart (t : Hashlin) : MM Hashlin := do
  if t.state ≠ .grow ∧ t.count > t.bucketMax / 2 then
    if t.state = .stable then
      let t := { t with lowMax := t.bucketMax, lowMask := t.bucketMask }
      let segment ← vmalloc (sizeT (t.lowMax * ptrSize))
      let neg ← negS t.lowMax
      let t ← hashlinSetSeg t t.bucketBit (segment.add neg)
      let t := { t with bucketBit := t.bucketBit + 1 }
      let max ← shlT t.bucketBit
      return { t with bucketMax := max, bucketMask := decT max, split := 0, state := .grow }
    else
      return { t with state := .grow }
  else
    return t

/-- tommyhashlin.c:130-174: the loop of `hashlin_grow_step`. -/
def hashlinGrowLoop (t : Hashlin) (splitTarget : Nat) : MM Hashlin := do
  if sizeT (t.split + t.lowMax) < splitTarget then
    let s0 ← hashlinPos t t.split
    let s1 ← hashlinPos t (sizeT (t.split + t.lowMax))
    let j ← readRef s0
    writeRef s0 0
    writeRef s1 0
    let mask := t.lowMax
    let moved ← flushLoop (fun index => if index &&& mask ≠ 0 then s1 else s0) j
    let t := { t with split := sizeT (t.split + 1), work := t.work + 1, moved := t.moved + moved }
    if t.split = t.lowMax then
      return hashlinStable t
    else
      hashlinGrowLoop t splitTarget
  else
    return t
partial_fixpoint

/-- tommyhashlin.c:89-175 `hashlin_grow_step`. -/
def hashlinGrowStep (t : Hashlin) : MM Hashlin := do
  let t ← hashlinGrowStart t
  if t.state = .grow then
    hashlinGrowLoop t (sizeT (2 * t.count))
  else
    return t

/-- tommyhashlin.c:183-202: the start of a shrink in `hashlin_shrink_step`. -/
def hashlinShrinkStart (t : Hashlin) : Hashlin :=
  if t.state ≠ .shrink ∧ t.count < t.bucketMax / 8 then
    if t.bucketBit > hashlinBIT then
      let t :=
        if t.state = .stable then
          { t with lowMax := t.bucketMax / 2, lowMask := t.bucketMask / 2, split := t.bucketMax / 2 }
        else t
      { t with state := .shrink }
    else t
  else t

/-- tommyhashlin.c:210-243: the loop of `hashlin_shrink_step`. -/
def hashlinShrinkLoop (t : Hashlin) (splitTarget : Nat) : MM Hashlin := do
  if sizeT (t.split + t.lowMax) > splitTarget then
    let t := { t with split := decT t.split, work := t.work + 1 }
    let s0 ← hashlinPos t t.split
    let s1 ← hashlinPos t (sizeT (t.split + t.lowMax))
    cellConcat s0 s1
    if t.split = 0 then
      let t := { t with bucketBit := t.bucketBit - 1 }
      let max ← shlT t.bucketBit
      let t := { t with bucketMax := max, bucketMask := decT max }
      let segment ← hashlinSeg t t.bucketBit
      let off ← shlS t.bucketBit
      vfree (segment.add off)
      return hashlinStable t
    else
      hashlinShrinkLoop t splitTarget
  else
    return t
partial_fixpoint

/-- tommyhashlin.c:180-245 `hashlin_shrink_step`. -/
def hashlinShrinkStep (t : Hashlin) : MM Hashlin := do
  let t := hashlinShrinkStart t
  if t.state = .shrink then
    hashlinShrinkLoop t (sizeT (8 * t.count))
  else
    return t

/-- tommyhashlin.c:247-256 `tommy_hashlin_insert`. -/
def hashlinInsert (t : Hashlin) (node : Ptr) (data hash : Nat) : MM Hashlin := do
  let r ← hashlinBucketRef t hash
  cellInsertTail r node data
  onNodes (setIndex node hash)
  hashlinGrowStep { t with count := sizeT (t.count + 1) }

/-- tommyhashlin.c:258-267 `tommy_hashlin_remove_existing`. -/
def hashlinRemoveExisting (t : Hashlin) (node : Ptr) : MM (Hashlin × Nat) := do
  let idx ← onNodes (getIndex node)
  let r ← hashlinBucketRef t idx
  cellRemoveExisting r node
  let t' ← hashlinShrinkStep { t with count := decT t.count }
  let d ← onNodes (getData node)
  return (t', d)

/-- tommyhashlin.c:269-289 `tommy_hashlin_remove`. -/
def hashlinRemove (t : Hashlin) (cmp : Nat → Int) (hash : Nat) : MM (Hashlin × Nat) := do
  let r ← hashlinBucketRef t hash
  let head ← readRef r
  let node ← onNodes (hashFindLoop cmp hash head)
  if node ≠ 0 then
    cellRemoveExisting r node
    let t' ← hashlinShrinkStep { t with count := decT t.count }
    let d ← onNodes (getData node)
    return (t', d)
  else
    return (t, 0)

/-- tommyhashlin.h:257-260 `tommy_hashlin_bucket`. -/
def hashlinBucket (t : Hashlin) (hash : Nat) : MM Ptr := do
  let r ← hashlinBucketRef t hash
  readRef r

/-- tommyhashlin.h:272-283 `tommy_hashlin_search`. -/
def hashlinSearch (t : Hashlin) (cmp : Nat → Int) (hash : Nat) : MM Nat := do
  let i ← hashlinBucket t hash
  onNodes (hashSearchLoop cmp hash i)

/-- tommyhashlin.h:333-336 `tommy_hashlin_count`. -/
def hashlinCount (t : Hashlin) : Nat := t.count

/-- tommyhashlin.c:291-308 `tommy_hashlin_foreach`. -/
def hashlinForeach (t : Hashlin) (func : Nat → MM Unit) : MM Unit :=
  posForeachLoop func (hashlinPos t) 0 (sizeT (t.lowMax + t.split))

/-- tommyhashlin.c:329-333 `tommy_hashlin_memory_usage`. -/
def hashlinMemoryUsage (t : Hashlin) : Nat := sizeT (t.bucketMax * ptrSize + t.count * nodeSize)

end Tommy
