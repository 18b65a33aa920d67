import Verif.Model.Mem
/-
  Model of tommyarray and tommyarrayof.

  For tommy_array a cell of a vector is a `void*`; for tommy_arrayof a cell is a byte.
  `calloc()` fails if the requested size is 2^TOMMY_SIZE_BIT or more: as the library does not check, the outcome is
  then UB (`none`).
-/
set_option autoImplicit false
namespace Tommy

variable [Arch]

/-- `tommy_calloc(n, sizeof(void*))`: a vector of `n` pointers. -/
def pcalloc (n : Nat) : MM Ref := fun m => if n * ptrSize < 2 ^ sizeBit then vcalloc n m else none

/-- `tommy_calloc(n, size)`: a vector of `n * size` bytes. -/
def bcalloc (n size : Nat) : MM Ref := fun m => if n * size < 2 ^ sizeBit then vcalloc (n * size) m else none

/-- `(tommy_size_t)1 << bit`, also with `tommy_ptrdiff_t`: UB from TOMMY_SIZE_BIT on. -/
def ashl (bit : Nat) : MM Nat := fun m => if bit < sizeBit then some (2 ^ bit, m) else none

/-- `array->bucket[i]`: out of the bounds of the array of `TOMMY_SIZE_BIT` elements, or not initialised, is UB. -/
def segGet (bucket : Nat → Option Ref) (i : Nat) : MM Ref := fun m =>
  if i < sizeBit then (bucket i).map (fun r => (r, m)) else none

/-- `array->bucket[i] = r` -/
def segSet (bucket : Nat → Option Ref) (i : Nat) (r : Ref) : MM (Nat → Option Ref) := fun m =>
  if i < sizeBit then some (upd bucket i (some r), m) else none

/-- `assert(c)` -/
def assertM (c : Prop) [Decidable c] : MM Unit := fun m => if c then some ((), m) else none

/-! ## tommy_array -/

/-- tommyarray.h:54 `TOMMY_ARRAY_BIT`. -/
def arrayBIT : Nat := 6

/-- tommyarray.h:60-65 `tommy_array`. -/
structure Arr where
  bucket : Nat → Option Ref
  bucketMax : Nat
  count : Nat
  bucketBit : Nat

/-- tommyarray.c:41-42, the loop of init. The last argument is `TOMMY_ARRAY_BIT - i`. -/
def arrayInitLoop (bucket : Nat → Option Ref) (i : Nat) : Nat → MM (Nat → Option Ref)
  | 0 => pure bucket
  | k + 1 => do
    let b0 ← segGet bucket 0
    let bucket ← segSet bucket i b0
    arrayInitLoop bucket (i + 1) k

/-- tommyarray.c:33-45 `tommy_array_init`. -/
def arrayInit : MM Arr := do
  let bucketMax ← ashl arrayBIT
  let b0 ← pcalloc bucketMax
  let bucket ← segSet (fun _ => none) 0 b0
  let bucket ← arrayInitLoop bucket 1 (arrayBIT - 1)
  return { bucket, bucketMax, count := 0, bucketBit := arrayBIT }

/-- tommyarray.c:52-55, the loop of done. The last argument is `bucket_bit - i`. -/
def arrayDoneLoop (t : Arr) (i : Nat) : Nat → MM Unit
  | 0 => pure ()
  | k + 1 => do
    let segment ← segGet t.bucket i
    let off ← ashl i
    vfree (segment.add off)
    arrayDoneLoop t (i + 1) k

/-- tommyarray.c:47-56 `tommy_array_done`. -/
def arrayDone (t : Arr) : MM Unit := do
  let b0 ← segGet t.bucket 0
  vfree b0
  arrayDoneLoop t arrayBIT (t.bucketBit - arrayBIT)

/-- tommyarray.c:64-76: the loop of grow. -/
def arrayGrowLoop (t : Arr) (count : Nat) : MM Arr := do
  if count > t.bucketMax then
    let segment ← pcalloc t.bucketMax
    let bucket ← segSet t.bucket t.bucketBit (segment.add (-(t.bucketMax : Int)))
    let bucketBit := t.bucketBit + 1
    let bucketMax ← ashl bucketBit
    arrayGrowLoop { t with bucket, bucketBit, bucketMax } count
  else
    return t
partial_fixpoint

/-- tommyarray.c:58-77 `tommy_array_grow`. -/
def arrayGrow (t : Arr) (count : Nat) : MM Arr := do
  if t.count ≥ count then
    return t
  arrayGrowLoop { t with count := count } count

/-- tommyarray.h:88-98 `tommy_array_ref`. -/
def arrayRef (t : Arr) (pos : Nat) : MM Ref := do
  assertM (pos < t.count)
  let bsr ← ilog2M (pos ||| 1)
  let b ← segGet t.bucket bsr
  return b.add pos

/-- tommyarray.h:105-108 `tommy_array_set`. -/
def arraySet (t : Arr) (pos : Nat) (element : Nat) : MM Unit := do
  let r ← arrayRef t pos
  writeRef r element

/-- tommyarray.h:115-118 `tommy_array_get`. -/
def arrayGet (t : Arr) (pos : Nat) : MM Nat := do
  let r ← arrayRef t pos
  readRef r

/-- tommyarray.h:123-130 `tommy_array_insert`. -/
def arrayInsert (t : Arr) (element : Nat) : MM Arr := do
  let pos := t.count
  let t ← arrayGrow t (sizeT (pos + 1))
  arraySet t pos element
  return t

/-- tommyarray.h:135-138 `tommy_array_size`. -/
def arraySize (t : Arr) : Nat := t.count

/-- tommyarray.c:79-82 `tommy_array_memory_usage`. -/
def arrayMemoryUsage (t : Arr) : Nat := sizeT (t.bucketMax * ptrSize)

/-! ## tommy_arrayof -/

/-- tommyarrayof.h:55 `TOMMY_ARRAYOF_BIT`. -/
def arrayofBIT : Nat := 6

/-- tommyarrayof.h:61-67 `tommy_arrayof`. -/
structure ArrOf where
  bucket : Nat → Option Ref
  elementSize : Nat
  bucketMax : Nat
  count : Nat
  bucketBit : Nat

/-- tommyarrayof.c:42-43, the loop of init. The last argument is `TOMMY_ARRAYOF_BIT - i`. -/
def arrayofInitLoop (bucket : Nat → Option Ref) (i : Nat) : Nat → MM (Nat → Option Ref)
  | 0 => pure bucket
  | k + 1 => do
    let b0 ← segGet bucket 0
    let bucket ← segSet bucket i b0
    arrayofInitLoop bucket (i + 1) k

/-- tommyarrayof.c:33-46 `tommy_arrayof_init`. -/
def arrayofInit (elementSize : Nat) : MM ArrOf := do
  let bucketMax ← ashl arrayofBIT
  let b0 ← bcalloc bucketMax elementSize
  let bucket ← segSet (fun _ => none) 0 b0
  let bucket ← arrayofInitLoop bucket 1 (arrayofBIT - 1)
  return { bucket, elementSize, bucketMax, count := 0, bucketBit := arrayofBIT }

/-- tommyarrayof.c:53-56, the loop of done. The last argument is `bucket_bit - i`. The product is on
    `tommy_size_t`. -/
def arrayofDoneLoop (t : ArrOf) (i : Nat) : Nat → MM Unit
  | 0 => pure ()
  | k + 1 => do
    let segment ← segGet t.bucket i
    let off ← ashl i
    vfree (segment.add (sizeT (off * t.elementSize) : Nat))
    arrayofDoneLoop t (i + 1) k

/-- tommyarrayof.c:48-57 `tommy_arrayof_done`. -/
def arrayofDone (t : ArrOf) : MM Unit := do
  let b0 ← segGet t.bucket 0
  vfree b0
  arrayofDoneLoop t arrayofBIT (t.bucketBit - arrayofBIT)

/-- tommyarrayof.c:65-77: the loop of grow. The product with a `tommy_ptrdiff_t` is on `tommy_size_t`. -/
def arrayofGrowLoop (t : ArrOf) (count : Nat) : MM ArrOf := do
  if count > t.bucketMax then
    let segment ← bcalloc t.bucketMax t.elementSize
    let bucket ← segSet t.bucket t.bucketBit (segment.add (-(sizeT (t.bucketMax * t.elementSize) : Int)))
    let bucketBit := t.bucketBit + 1
    let bucketMax ← ashl bucketBit
    arrayofGrowLoop { t with bucket, bucketBit, bucketMax } count
  else
    return t
partial_fixpoint

/-- tommyarrayof.c:59-78 `tommy_arrayof_grow`. -/
def arrayofGrow (t : ArrOf) (count : Nat) : MM ArrOf := do
  if t.count ≥ count then
    return t
  arrayofGrowLoop { t with count := count } count

/-- tommyarrayof.h:91-104 `tommy_arrayof_ref`. -/
def arrayofRef (t : ArrOf) (pos : Nat) : MM Ref := do
  assertM (pos < t.count)
  let bsr ← ilog2M (pos ||| 1)
  let ptr ← segGet t.bucket bsr
  return ptr.add (sizeT (pos * t.elementSize) : Nat)

/-- tommyarrayof.h:109-112 `tommy_arrayof_size`. -/
def arrayofSize (t : ArrOf) : Nat := t.count

/-- tommyarrayof.c:80-83 `tommy_arrayof_memory_usage`. -/
def arrayofMemoryUsage (t : ArrOf) : Nat := sizeT (t.bucketMax * t.elementSize)

end Tommy
