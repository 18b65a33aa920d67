/-
  Memory model shared by all the pointer based containers.

  A C program fragment is modelled as `σ → Option (α × σ)` (the monad `StateT σ Option`).
  `none` is the *bad* outcome: undefined behaviour (null/invalid dereference, out of bounds
  access, read of uninitialised memory, out of range shift, unsigned underflow that the
  code does not expect), a failed `assert`, or non termination.  A theorem which says that
  a call `= some _` therefore says that none of these can happen.

  Unbounded loops and recursions are defined with `partial_fixpoint`: the least fixed point
  in `Option`, so a loop which does not terminate is `none`, exactly like UB.
-/
set_option autoImplicit false
namespace Tommy

/-- An address. `0` is the C null pointer. -/
abbrev Ptr := Nat

/-- Point update of a function. Used for every store to memory. -/
def upd {α : Type} (f : Nat → α) (p : Nat) (v : α) : Nat → α :=
  fun q => if q = p then v else f q

/-- The memory holding the `tommy_node` structs (tommytypes.h:195-221), split by field:
    `next p` is the content of `p->next`, and so on.  `valid p` tells that a live
    `tommy_node` exists at address `p`.  Fields of a not initialised node have an arbitrary
    content.  `index` (a `tommy_size_t`) is an unbounded `Nat`. -/
structure Heap where
  valid : Ptr → Bool
  next : Ptr → Ptr
  prev : Ptr → Ptr
  data : Ptr → Nat
  index : Ptr → Nat

/-- The node pointer `p` can be dereferenced. -/
def Heap.ok (h : Heap) (p : Ptr) : Prop := p ≠ 0 ∧ h.valid p = true

instance (h : Heap) (p : Ptr) : Decidable (h.ok p) := by unfold Heap.ok; infer_instance

/-- Programs over the node heap. -/
abbrev HM := StateT Heap Option

/-- `p->next` (rvalue) -/
def getNext (p : Ptr) : HM Ptr := fun h => if h.ok p then some (h.next p, h) else none
/-- `p->prev` (rvalue) -/
def getPrev (p : Ptr) : HM Ptr := fun h => if h.ok p then some (h.prev p, h) else none
/-- `p->data` (rvalue) -/
def getData (p : Ptr) : HM Nat := fun h => if h.ok p then some (h.data p, h) else none
/-- `p->index` (rvalue) -/
def getIndex (p : Ptr) : HM Nat := fun h => if h.ok p then some (h.index p, h) else none
/-- `p->next = v` -/
def setNext (p v : Ptr) : HM Unit := fun h =>
  if h.ok p then some ((), { h with next := upd h.next p v }) else none
/-- `p->prev = v` -/
def setPrev (p v : Ptr) : HM Unit := fun h =>
  if h.ok p then some ((), { h with prev := upd h.prev p v }) else none
/-- `p->data = v` -/
def setData (p : Ptr) (v : Nat) : HM Unit := fun h =>
  if h.ok p then some ((), { h with data := upd h.data p v }) else none
/-- `p->index = v` -/
def setIndex (p : Ptr) (v : Nat) : HM Unit := fun h =>
  if h.ok p then some ((), { h with index := upd h.index p v }) else none

/-- Run a program on the node heap inside a bigger memory. -/
def zoom {σ α : Type} (get : σ → Heap) (set : σ → Heap → σ) (m : HM α) : StateT σ Option α :=
  fun s => match m (get s) with
    | none => none
    | some (a, h) => some (a, set s h)

end Tommy
