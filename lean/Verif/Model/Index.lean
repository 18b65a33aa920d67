import Verif.Model.Hash
import Verif.Model.List
import Verif.Model.Hashdyn
/-
  The program of the manual for objects with several keys, tommy.h:550-626: two tommy_hashdyn
  and a tommy_list hold the same objects, each object embeds the three nodes.

  Simplifications: `tommy_inthash_u32` gets the bits of the `int`; the two `int` fields of the
  objects are kept apart from the memory of the nodes (`value0`, `value1`), and can be read and
  written only when the object is live, that is when its three nodes are.
-/
set_option autoImplicit false
namespace Tommy

variable [Arch]

/-- tommy.h:551-560: `&obj->list_node`, after two `int` of 4 bytes. -/
def listNode (obj : Ptr) : Ptr := obj + 8
/-- tommy.h:551-560: `&obj->hash_node_0`. -/
def hashNode0 (obj : Ptr) : Ptr := obj + (8 + nodeSize)
/-- tommy.h:551-560: `&obj->hash_node_1`. -/
def hashNode1 (obj : Ptr) : Ptr := obj + (8 + 2 * nodeSize)

/-- `p` is one of the three nodes of the object (tommy.h:551-560). -/
def isNodeOf (obj p : Ptr) : Bool := p == listNode obj || p == hashNode0 obj || p == hashNode1 obj

/-- The object is allocated (tommy.h:580). -/
def Heap.object (h : Heap) (obj : Ptr) : Bool :=
  obj != 0 && h.valid (listNode obj) && h.valid (hashNode0 obj) && h.valid (hashNode1 obj)

/-- The variables of the program, tommy.h:568-570, and the memory. -/
structure Index where
  mem : Mem
  hash0 : Hashdyn
  hash1 : Hashdyn
  list : Ptr
  value0 : Ptr → BitVec 32
  value1 : Ptr → BitVec 32

/-- Programs on these variables. -/
abbrev XM := StateT Index Option

/-- A call on `hash_0`. -/
def onHash0 {α : Type} (f : Hashdyn → MM (Hashdyn × α)) : XM α := fun s =>
  (f s.hash0 s.mem).map fun r => (r.1.2, { s with hash0 := r.1.1, mem := r.2 })
/-- A call on `hash_1`. -/
def onHash1 {α : Type} (f : Hashdyn → MM (Hashdyn × α)) : XM α := fun s =>
  (f s.hash1 s.mem).map fun r => (r.1.2, { s with hash1 := r.1.1, mem := r.2 })
/-- A call on `list`. -/
def onList {α : Type} (f : Ptr → HM (Ptr × α)) : XM α := fun s =>
  (f s.list s.mem.heap).map fun r => (r.1.2, { s with list := r.1.1, mem := { s.mem with heap := r.2 } })

/-- tommy.h:573-575: the initialisations (tommylist.h:108-111 for the list). -/
def indexInit (value0 value1 : Ptr → BitVec 32) : MM Index := fun m =>
  match hashdynInit m with
  | none => none
  | some (hash0, m) => match hashdynInit m with
    | none => none
    | some (hash1, m) => some ({ mem := m, hash0, hash1, list := 0, value0, value1 }, m)

/-- tommy.h:580: the object got from `malloc` is at `obj`, the content of its nodes is the one of `g`. -/
def mallocObject (obj : Ptr) (g : Heap) (h : Heap) : Heap where
  valid p := isNodeOf obj p || h.valid p
  next p := if isNodeOf obj p then g.next p else h.next p
  prev p := if isNodeOf obj p then g.prev p else h.prev p
  data p := if isNodeOf obj p then g.data p else h.data p
  index p := if isNodeOf obj p then g.index p else h.index p

/-- `free(obj)`: only for an allocated object. -/
def freeObject (obj : Ptr) : HM Unit := fun h =>
  if h.object obj then some ((), { h with valid := fun p => !isNodeOf obj p && h.valid p }) else none

/-- tommy.h:581-582: the fields of the object. -/
def setValues (obj : Ptr) (v0 v1 : BitVec 32) : XM Unit := fun s =>
  if s.mem.heap.object obj then
    some ((), { s with value0 := upd s.value0 obj v0, value1 := upd s.value1 obj v1 })
  else none

/-- tommy.h:563-566 `search_1`. In memory which is not an allocated object any value can be found (the
    comparison there is `junk`). -/
def search1 (s : Index) (junk : Nat → Int) (v : BitVec 32) (obj : Nat) : Int :=
  if s.mem.heap.object obj then (if v ≠ s.value1 obj then 1 else 0) else junk obj

/-- The same for `value_0`. -/
def search0 (s : Index) (junk : Nat → Int) (v : BitVec 32) (obj : Nat) : Int :=
  if s.mem.heap.object obj then (if v ≠ s.value0 obj then 1 else 0) else junk obj

/-- tommy.h:581-588: sets the fields and inserts. -/
def indexInsert (obj : Ptr) (v0 v1 : BitVec 32) : XM Unit := do
  setValues obj v0 v1
  onHash0 fun t => do return (← hashdynInsert t (hashNode0 obj) obj (inthashU32 v0).toNat, ())
  onHash1 fun t => do return (← hashdynInsert t (hashNode1 obj) obj (inthashU32 v1).toNat, ())
  onList fun l => do return (← listInsertTail l (listNode obj) obj, ())

/-- tommy.h:593-594: the search by `value_1`. -/
def indexSearch1 (junk : Nat → Int) (v : BitVec 32) : XM Ptr := do
  let s ← get
  onHash1 fun t => do return (t, ← hashdynSearch t (search1 s junk v) (inthashU32 v).toNat)

/-- The same by `value_0`, in the other table. -/
def indexSearch0 (junk : Nat → Int) (v : BitVec 32) : XM Ptr := do
  let s ← get
  onHash0 fun t => do return (t, ← hashdynSearch t (search0 s junk v) (inthashU32 v).toNat)

/-- tommy.h:592-600: search by `value_1` and delete. The results of the removes are ignored. -/
def indexDelete (junk : Nat → Int) (v : BitVec 32) : XM Ptr := do
  let obj ← indexSearch1 junk v
  if obj ≠ 0 then
    let _ ← onHash0 fun t => hashdynRemoveExisting t (hashNode0 obj)
    let _ ← onHash1 fun t => hashdynRemoveExisting t (hashNode1 obj)
    let _ ← onList fun l => listRemoveExisting l (listNode obj)
  return obj

/-- tommy.h:605-616: the iterator. `fwd` tells at each turn whether the client goes to the next element
    or to the previous one; the client stops when `fwd` ends. The result are the objects seen. -/
def indexIterLoop (i : Ptr) : List Bool → HM (List Ptr)
  | [] => pure []
  | d :: ds => do
    if i = 0 then
      return []
    let obj ← getData i
    let i' ← if d then getNext i else getPrev i
    return obj :: (← indexIterLoop i' ds)

/-- tommy.h:605-616. -/
def indexIter (ds : List Bool) : XM (List Ptr) :=
  onList fun l => do return (l, ← indexIterLoop (listHead l) ds)

/-- tommy.h:620-625: the end of the program. -/
def indexDone : XM Unit := do
  onList fun l => do return (l, ← listForeach l freeObject)
  onHash0 fun t => do return (t, ← hashdynDone t)
  onHash1 fun t => do return (t, ← hashdynDone t)

end Tommy
