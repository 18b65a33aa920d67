import Verif.Model.Index
import Verif.Spec.Sys
import Verif.Spec.Hash
/-
  Specification of the program of the manual for objects with several keys (tommy.h:550-626):
  a sequence of records, in insertion order, which can be searched by the one or by the other key.
-/
set_option autoImplicit false
namespace Tommy

variable [Arch]
namespace IndexSpec

/-- A stored object and its two keys. -/
structure Rec where
  obj : Ptr
  v0 : BitVec 32
  v1 : BitVec 32

/-- The stored objects, in insertion order, and the allocated objects. -/
structure Ab where
  stored : List Rec
  live : Ptr → Bool

inductive Op
  /-- `malloc` of an object, which gives `obj`; the content of its nodes is the one of `g` -/
  | malloc (obj : Ptr) (g : Heap)
  /-- sets the keys and inserts in the three containers -/
  | insert (obj : Ptr) (v0 v1 : BitVec 32)
  | search0 (junk : Nat → Int) (v : BitVec 32)
  | search1 (junk : Nat → Int) (v : BitVec 32)
  /-- searches by the second key and removes from the three containers -/
  | delete (junk : Nat → Int) (v : BitVec 32)
  /-- `free` of an object -/
  | free (obj : Ptr)
  /-- goes forward (`true`) and backward in the list -/
  | iter (ds : List Bool)

inductive Out
  | unit
  | obj (p : Ptr)
  | objs (l : List Ptr)

/-- An object of `8 + 3 * nodeSize` bytes at `obj` fits in the address space, and does not overlap the allocated
    objects and the other nodes (`other`, `nodeSize` bytes each). -/
def Fits (other live : Ptr → Bool) (obj : Ptr) : Prop :=
  obj ≠ 0 ∧ obj + (8 + 3 * nodeSize) ≤ 2 ^ sizeBit ∧ (∀ q, live q = true → obj + (8 + 3 * nodeSize) ≤ q ∨ q + (8 + 3 * nodeSize) ≤ obj) ∧
    ∀ p, other p = true → obj + (8 + 3 * nodeSize) ≤ p ∨ p + nodeSize ≤ obj

/-- The first object stored with a property, 0 if there is none. -/
def first (p : Rec → Bool) (l : List Rec) : Ptr := ((l.find? p).map Rec.obj).getD 0

/-- The objects seen going forward and backward from the position `i`: backward from the first is the
    last, forward from the last is the end. -/
def visit (xs : List Ptr) : List Bool → Nat → List Ptr
  | [], _ => []
  | d :: ds, i => match xs[i]? with
    | none => []
    | some x => x :: visit xs ds (if d then i + 1 else if i = 0 then xs.length - 1 else i - 1)

def legal (other : Ptr → Bool) (a : Ab) : Op → Prop
  | .malloc obj _ => Fits other a.live obj
  | .insert obj _ _ => a.live obj = true ∧ ∀ r ∈ a.stored, r.obj ≠ obj
  | .free obj => a.live obj = true ∧ ∀ r ∈ a.stored, r.obj ≠ obj
  | _ => True

def allowed (a : Ab) (op : Op) (out : Out) : Prop :=
  match op with
  | .malloc _ _ => out = .unit
  | .insert _ _ _ => out = .unit
  | .free _ => out = .unit
  | .search0 _ v => out = .obj (first (·.v0 == v) a.stored)
  | .search1 _ v => out = .obj (first (·.v1 == v) a.stored)
  | .delete _ v => out = .obj (first (·.v1 == v) a.stored)
  | .iter ds => out = .objs (visit (a.stored.map Rec.obj) ds 0)

def next (a : Ab) (op : Op) (_ : Out) : Ab :=
  match op with
  | .malloc obj _ => { a with live := upd a.live obj true }
  | .insert obj v0 v1 => { a with stored := a.stored ++ [⟨obj, v0, v1⟩] }
  | .free obj => { a with live := upd a.live obj false }
  | .delete _ v => { a with stored := a.stored.filter (·.obj ≠ first (·.v1 == v) a.stored) }
  | _ => a

/-- The client calls. -/
def step : Op → StateT Index Option Out
  | .malloc obj g => fun s => some (.unit, { s with mem := { s.mem with heap := mallocObject obj g s.mem.heap } })
  | .insert obj v0 v1 => do indexInsert obj v0 v1; return .unit
  | .search0 junk v => return .obj (← indexSearch0 junk v)
  | .search1 junk v => return .obj (← indexSearch1 junk v)
  | .delete junk v => return .obj (← indexDelete junk v)
  | .free obj => do onList fun l => do return (l, ← freeObject obj)
                    return .unit
  | .iter ds => return .objs (← indexIter ds)

/-- The program started in the memory `m0`, with any content. The nodes allocated in `m0` are not of the
    program. -/
def sys (m0 : Mem) : Sys Index Ab Op Out where
  init s a := HashSpec.StartOk m0 ∧ (∃ value0 value1, indexInit value0 value1 m0 = some (s, s.mem)) ∧
    a.stored = [] ∧ ∀ p, a.live p = false
  step := step
  legal := legal m0.heap.valid
  allowed := allowed
  next := next

/-- The memory `m` has only the objects in `live`, beside what was in `m0`, and everything in `m0` is as
    it was. -/
structure Owns (m0 m : Mem) (live : Ptr → Bool) : Prop where
  nodes : ∀ p, m.heap.valid p = true ↔
    m0.heap.valid p = true ∨ ∃ o, live o = true ∧ (p = o + 8 ∨ p = o + (8 + nodeSize) ∨ p = o + (8 + 2 * nodeSize))
  same : ∀ p, m0.heap.valid p = true → m.heap.next p = m0.heap.next p ∧ m.heap.prev p = m0.heap.prev p ∧
    m.heap.data p = m0.heap.data p ∧ m.heap.index p = m0.heap.index p
  cells : ∀ r p, m0.cell? r = some p → m.cell? r = some p

end IndexSpec
end Tommy
