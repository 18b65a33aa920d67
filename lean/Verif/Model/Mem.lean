import Verif.Model.Heap
import Verif.Model.Arch
/-
  Memory with vectors of node pointers, used by the hashtables and by the pointer arrays.

  A vector obtained from `tommy_malloc`/`tommy_calloc` (tommytypes.h:60-90) is an abstract
  object, identified by a number, with a length and cells.  A cell can be not initialised:
  reading it is UB, as reading a cell out of the bounds or of a freed vector.  Vectors never
  overlap the nodes or each other.  Allocations always succeed (the library does not check).
-/
set_option autoImplicit false
namespace Tommy

variable [Arch]

/-- `heap`: the nodes; `vlen v`: the length of the live vector `v`, `none` if not live;
    `vcell v i`: the content of the cell, `none` if not initialised; `vnext`: ids from this
    one on were never used. -/
structure Mem where
  heap : Heap
  vlen : Nat → Option Nat
  vcell : Nat → Nat → Option Ptr
  vnext : Nat

/-- A pointer to a cell: vector and offset (in cells, from the start of the vector). The offset
    can be out of the bounds, as in `&segment[-max]`. -/
structure Ref where
  vec : Nat
  off : Int
deriving DecidableEq

/-- The content of `*r` when it is in bounds, live and initialised. -/
def Mem.cell? (m : Mem) (r : Ref) : Option Ptr :=
  match m.vlen r.vec with
  | none => none
  | some n => if 0 ≤ r.off ∧ r.off < n then m.vcell r.vec r.off.toNat else none

/-- `*r` is inside a live vector. -/
def Mem.inside (m : Mem) (r : Ref) : Bool :=
  match m.vlen r.vec with
  | none => false
  | some n => decide (0 ≤ r.off ∧ r.off < n)

abbrev MM := StateT Mem Option

/-- `*r` (rvalue) -/
def readRef (r : Ref) : MM Ptr := fun m => (m.cell? r).map (fun p => (p, m))

/-- `*r = p` -/
def writeRef (r : Ref) (p : Ptr) : MM Unit := fun m =>
  if m.inside r then
    some ((), { m with vcell := upd m.vcell r.vec (upd (m.vcell r.vec) r.off.toNat (some p)) })
  else none

/-- `malloc(bytes)` of a vector of pointers: not initialised cells. -/
def vmalloc (bytes : Nat) : MM Ref := fun m =>
  some (⟨m.vnext, 0⟩, { m with
    vlen := upd m.vlen m.vnext (some (bytes / ptrSize))
    vcell := upd m.vcell m.vnext (fun _ => none)
    vnext := m.vnext + 1 })

/-- `calloc(n, sizeof(void*))`: cells set to 0. -/
def vcalloc (n : Nat) : MM Ref := fun m =>
  some (⟨m.vnext, 0⟩, { m with
    vlen := upd m.vlen m.vnext (some n)
    vcell := upd m.vcell m.vnext (fun _ => some 0)
    vnext := m.vnext + 1 })

/-- `memset(r, 0, bytes)` on a vector of pointers. -/
def vzero (r : Ref) (bytes : Nat) : MM Unit := fun m =>
  match m.vlen r.vec with
  | none => none
  | some n =>
    if r.off = 0 ∧ bytes / ptrSize ≤ n then
      let cells := fun i => if i < bytes / ptrSize then some 0 else m.vcell r.vec i
      some ((), { m with vcell := upd m.vcell r.vec cells })
    else none

/-- `free(r)`: only on the start of a live vector. -/
def vfree (r : Ref) : MM Unit := fun m =>
  if r.off = 0 ∧ (m.vlen r.vec).isSome then
    some ((), { m with vlen := upd m.vlen r.vec none })
  else none

/-- Code on the nodes. -/
def onNodes {α : Type} (m : HM α) : MM α := zoom Mem.heap (fun s h => { s with heap := h }) m

/-- `&r[i]` -/
def Ref.add (r : Ref) (i : Int) : Ref := ⟨r.vec, r.off + i⟩

/-- Index of the most significant bit. -/
def ilog2 (n : Nat) : Nat := Nat.log2 n

/-- tommytypes.h:346-412 `tommy_ilog2` (compiler builtin): the argument 0 is UB.
    (The portable implementation is in `Verif.Model.Bits`, property C45.) -/
def ilog2M {σ : Type} (n : Nat) : StateT σ Option Nat := fun m => if n = 0 then none else some (ilog2 n, m)

end Tommy
