import Verif.Model.Array
/-
  Model of tommyarrayblk and tommyarrayblkof. Same conventions of `Array`.
  The address of the start of the vector `v`, when it is stored in a `void*` cell, is `v + 1`.
-/
set_option autoImplicit false
namespace Tommy

variable [Arch]

/-- Conversion of a pointer to the start of a vector to a `void*` value. -/
def refToPtr (r : Ref) : MM Nat := fun m => if r.off = 0 then some (r.vec + 1, m) else none

/-- Conversion of a `void*` value to a pointer to the start of a vector. -/
def ptrToRef (p : Nat) : MM Ref := fun m => if p = 0 then none else some (⟨p - 1, 0⟩, m)

/-! ## tommy_arrayblk -/

/-- tommyarrayblk.h:55 `TOMMY_ARRAYBLK_SIZE`. -/
def arrayblkSIZE : Nat := 4 * 1024

/-- tommyarrayblk.h:61-64 `tommy_arrayblk`. -/
structure ArrBlk where
  block : Arr
  count : Nat

/-- tommyarrayblk.c:33-38 `tommy_arrayblk_init`. -/
def arrayblkInit : MM ArrBlk := do
  let block ← arrayInit
  return { block, count := 0 }

/-- tommyarrayblk.c:44-45, the loop of done. -/
def arrayblkDoneLoop (t : ArrBlk) (i : Nat) : MM Unit := do
  if i < arraySize t.block then
    let p ← arrayGet t.block i
    let r ← ptrToRef p
    vfree r
    arrayblkDoneLoop t (i + 1)
  else
    return ()
partial_fixpoint

/-- tommyarrayblk.c:40-48 `tommy_arrayblk_done`. -/
def arrayblkDone (t : ArrBlk) : MM Unit := do
  arrayblkDoneLoop t 0
  arrayDone t.block

/-- tommyarrayblk.c:67-74: the loop of grow. -/
def arrayblkGrowLoop (t : ArrBlk) (blockMac blockMax : Nat) : MM Unit := do
  if blockMac < blockMax then
    let ptr ← pcalloc arrayblkSIZE
    let p ← refToPtr ptr
    arraySet t.block blockMac p
    arrayblkGrowLoop t (blockMac + 1) blockMax
  else
    return ()
partial_fixpoint

/-- tommyarrayblk.c:50-76 `tommy_arrayblk_grow`. -/
def arrayblkGrow (t : ArrBlk) (count : Nat) : MM ArrBlk := do
  if t.count ≥ count then
    return t
  let t := { t with count := count }
  let blockMax := decT (sizeT (count + arrayblkSIZE)) / arrayblkSIZE
  let blockMac := arraySize t.block
  if blockMac < blockMax then
    let block ← arrayGrow t.block blockMax
    let t := { t with block := block }
    arrayblkGrowLoop t blockMac blockMax
    return t
  else
    return t

/-- tommyarrayblk.h:87-96 `tommy_arrayblk_ref`. -/
def arrayblkRef (t : ArrBlk) (pos : Nat) : MM Ref := do
  assertM (pos < t.count)
  let p ← arrayGet t.block (pos / arrayblkSIZE)
  let ptr ← ptrToRef p
  return ptr.add (pos % arrayblkSIZE : Nat)

/-- tommyarrayblk.h:103-106 `tommy_arrayblk_set`. -/
def arrayblkSet (t : ArrBlk) (pos : Nat) (element : Nat) : MM Unit := do
  let r ← arrayblkRef t pos
  writeRef r element

/-- tommyarrayblk.h:113-116 `tommy_arrayblk_get`. -/
def arrayblkGet (t : ArrBlk) (pos : Nat) : MM Nat := do
  let r ← arrayblkRef t pos
  readRef r

/-- tommyarrayblk.h:121-128 `tommy_arrayblk_insert`. -/
def arrayblkInsert (t : ArrBlk) (element : Nat) : MM ArrBlk := do
  let pos := t.count
  let t ← arrayblkGrow t (sizeT (pos + 1))
  arrayblkSet t pos element
  return t

/-- tommyarrayblk.h:133-136 `tommy_arrayblk_size`. -/
def arrayblkSize (t : ArrBlk) : Nat := t.count

/-- tommyarrayblk.c:78-81 `tommy_arrayblk_memory_usage`. -/
def arrayblkMemoryUsage (t : ArrBlk) : Nat :=
  sizeT (arrayMemoryUsage t.block + arraySize t.block * arrayblkSIZE * ptrSize)

/-! ## tommy_arrayblkof -/

/-- tommyarrayblkof.h:55 `TOMMY_ARRAYBLKOF_SIZE`. -/
def arrayblkofSIZE : Nat := 4 * 1024

/-- tommyarrayblkof.h:61-65 `tommy_arrayblkof`. -/
structure ArrBlkOf where
  block : Arr
  elementSize : Nat
  count : Nat

/-- tommyarrayblkof.c:33-39 `tommy_arrayblkof_init`. -/
def arrayblkofInit (elementSize : Nat) : MM ArrBlkOf := do
  let block ← arrayInit
  return { block, elementSize, count := 0 }

/-- tommyarrayblkof.c:45-46, the loop of done. -/
def arrayblkofDoneLoop (t : ArrBlkOf) (i : Nat) : MM Unit := do
  if i < arraySize t.block then
    let p ← arrayGet t.block i
    let r ← ptrToRef p
    vfree r
    arrayblkofDoneLoop t (i + 1)
  else
    return ()
partial_fixpoint

/-- tommyarrayblkof.c:41-49 `tommy_arrayblkof_done`. -/
def arrayblkofDone (t : ArrBlkOf) : MM Unit := do
  arrayblkofDoneLoop t 0
  arrayDone t.block

/-- tommyarrayblkof.c:68-75: the loop of grow. -/
def arrayblkofGrowLoop (t : ArrBlkOf) (blockMac blockMax : Nat) : MM Unit := do
  if blockMac < blockMax then
    let ptr ← bcalloc arrayblkofSIZE t.elementSize
    let p ← refToPtr ptr
    arraySet t.block blockMac p
    arrayblkofGrowLoop t (blockMac + 1) blockMax
  else
    return ()
partial_fixpoint

/-- tommyarrayblkof.c:51-77 `tommy_arrayblkof_grow`. -/
def arrayblkofGrow (t : ArrBlkOf) (count : Nat) : MM ArrBlkOf := do
  if t.count ≥ count then
    return t
  let t := { t with count := count }
  let blockMax := decT (sizeT (count + arrayblkofSIZE)) / arrayblkofSIZE
  let blockMac := arraySize t.block
  if blockMac < blockMax then
    let block ← arrayGrow t.block blockMax
    let t := { t with block := block }
    arrayblkofGrowLoop t blockMac blockMax
    return t
  else
    return t

/-- tommyarrayblkof.h:89-98 `tommy_arrayblkof_ref`. -/
def arrayblkofRef (t : ArrBlkOf) (pos : Nat) : MM Ref := do
  assertM (pos < t.count)
  let p ← arrayGet t.block (pos / arrayblkofSIZE)
  let base ← ptrToRef p
  return base.add (sizeT (pos % arrayblkofSIZE * t.elementSize) : Nat)

/-- tommyarrayblkof.h:103-106 `tommy_arrayblkof_size`. -/
def arrayblkofSize (t : ArrBlkOf) : Nat := t.count

/-- tommyarrayblkof.c:79-82 `tommy_arrayblkof_memory_usage`. -/
def arrayblkofMemoryUsage (t : ArrBlkOf) : Nat :=
  sizeT (arrayMemoryUsage t.block + sizeT (arraySize t.block * arrayblkofSIZE * t.elementSize))

end Tommy
