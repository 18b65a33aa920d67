import Verif.Model.Heap
import Verif.Model.Arch
/-
  Model of tommyalloc.

  The memory is made of bytes. `live` gives for each address returned by malloc() and not yet freed the number of
  bytes that can be accessed from it: the requested ones plus `slack`, the bytes that the heap manager gives for
  free (`malloc_usable_size() - size`). Accessing any other byte is UB. Pointers are stored in 4 or 8 bytes, little endian;
  misaligned accesses are tolerated.

  malloc() may return any address: it is an argument of the functions that call it. It never fails.
-/
set_option autoImplicit false
namespace Tommy
variable [Arch]

/-- The memory of the allocators. -/
structure AMem where
  byte : Nat → Nat
  live : Nat → Option Nat

abbrev AM := StateT AMem Option

/-- The bytes from `p` to `p + n` are inside a live region. -/
def AMem.acc (m : AMem) (p n : Nat) : Bool :=
  (List.range (p + 1)).any fun b => match m.live b with
    | some size => p + n ≤ b + size
    | none => false

/-- The number in the `n` bytes from `p`. -/
def rdN (f : Nat → Nat) (p : Nat) : Nat → Nat
  | 0 => 0
  | n + 1 => f p + 256 * rdN f (p + 1) n

/-- A pointer in memory. -/
def rdP (f : Nat → Nat) (p : Nat) : Nat := rdN f p ptrSize

def wrP (f : Nat → Nat) (p v : Nat) : Nat → Nat := fun x =>
  if p ≤ x ∧ x < p + ptrSize then v / 2 ^ (8 * (x - p)) % 256 else f x

/-- Read of a pointer. -/
def readP (p : Nat) : AM Nat := fun m => if m.acc p ptrSize then some (rdP m.byte p, m) else none

/-- Write of a pointer. -/
def writeP (p v : Nat) : AM Unit := fun m => if m.acc p ptrSize then some ((), { m with byte := wrP m.byte p v }) else none

/-- tommytypes.h:105 `tommy_malloc(size)` returning the address `base`, with any content. -/
def amalloc (slack base : Nat) (content : Nat → Nat) (size : Nat) : AM Nat := fun m =>
  some (base, { live := upd m.live base (some (size + slack))
                byte := fun x => if base ≤ x ∧ x < base + (size + slack) then content x else m.byte x })

/-- tommytypes.h:114 `tommy_free(p)`: UB if it is not a live pointer. -/
def afree (p : Nat) : AM Unit := fun m => if (m.live p).isSome then some ((), { m with live := upd m.live p none }) else none

/-- `a - b` of `tommy_size_t`. -/
def subT (a b : Nat) : Nat := (a + 2 ^ sizeBit - b) % 2 ^ sizeBit

/-- `a + b` of `tommy_size_t`. -/
def addT (a b : Nat) : Nat := (a + b) % 2 ^ sizeBit

/-- tommyalloc.h:51-57 `tommy_allocator`. -/
structure Alloc where
  freeBlock : Nat
  usedSegment : Nat
  blockSize : Nat
  alignSize : Nat
  count : Nat

/-- tommyalloc.c:38 `TOMMY_ALLOCATOR_BLOCK_SIZE`. -/
def allocatorBlockSize : Nat := 4096 - 64

/-- tommyalloc.c:40-56 `tommy_allocator_init`. -/
def allocatorInit (blockSize alignSize : Nat) : Alloc :=
  let alignSize := if alignSize < ptrSize then ptrSize else alignSize
  let blockSize := if blockSize % alignSize ≠ 0 then addT blockSize (subT alignSize (blockSize % alignSize)) else blockSize
  { freeBlock := 0, usedSegment := 0, blockSize, alignSize, count := 0 }

/-- tommyalloc.c:65-69: the loop of reset. -/
def allocatorResetLoop (block : Nat) : AM Unit := do
  if block ≠ 0 then
    let blockNext ← readP block
    afree block
    allocatorResetLoop blockNext
  else
    return ()
partial_fixpoint

/-- tommyalloc.c:61-74 `allocator_reset`. -/
def allocatorReset (t : Alloc) : AM Alloc := do
  allocatorResetLoop t.usedSegment
  return { t with count := 0, freeBlock := 0, usedSegment := 0 }

/-- tommyalloc.c:76-79 `tommy_allocator_done`. -/
def allocatorDone (t : Alloc) : AM Alloc := allocatorReset t

/-- tommyalloc.c:116-123: the loop putting the blocks of a new segment in the free list. -/
def allocatorPushLoop (t : Alloc) (data size : Nat) : AM Alloc := do
  writeP data t.freeBlock
  let t := { t with freeBlock := data }
  let data := addT data t.blockSize
  let size := subT size t.blockSize
  if size ≥ t.blockSize then
    allocatorPushLoop t data size
  else
    return t
partial_fixpoint

/-- tommyalloc.c:87-123: a new segment. `base` and `content` are the result of malloc(). -/
def allocatorSegment (slack base : Nat) (content : Nat → Nat) (t : Alloc) : AM Alloc := do
  let size := allocatorBlockSize
  let least := addT (addT ptrSize t.alignSize) t.blockSize
  let size := if size < least then least else size
  let data ← amalloc slack base content size
  let segment := data
  writeP segment t.usedSegment
  let t := { t with usedSegment := segment }
  let data := addT data ptrSize
  let mis := data % t.alignSize
  if mis ≠ 0 then
    allocatorPushLoop t (addT data (subT t.alignSize mis)) (subT size (subT t.alignSize mis))
  else
    allocatorPushLoop t data size

/-- tommyalloc.c:81-133 `tommy_allocator_alloc`. -/
def allocatorAlloc (slack base : Nat) (content : Nat → Nat) (t : Alloc) : AM (Alloc × Nat) := do
  let t ← if t.freeBlock = 0 then allocatorSegment slack base content t else pure t
  let ptr := t.freeBlock
  let next ← readP ptr
  return ({ t with freeBlock := next, count := addT t.count 1 }, ptr)

/-- tommyalloc.c:135-144 `tommy_allocator_free`. -/
def allocatorFree (t : Alloc) (ptr : Nat) : AM Alloc := do
  writeP ptr t.freeBlock
  return { t with freeBlock := ptr, count := subT t.count 1 }

/-- tommyalloc.c:146-149 `tommy_allocator_memory_usage`. -/
def allocatorMemoryUsage (t : Alloc) : Nat := t.count * t.blockSize % 2 ^ sizeBit

end Tommy
