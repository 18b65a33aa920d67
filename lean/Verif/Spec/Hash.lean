import Verif.Model.HashCommon
import Verif.Spec.Sys
/-
  Specification of the three hashtables: a multiset of (node, payload, hash) in insertion order.

  The history can contain, between the calls, arbitrary writes to the nodes not in the table, and
  allocation and deallocation of the nodes not in the table.  The node objects are 32 bytes and do
  not overlap.
-/
set_option autoImplicit false
namespace Tommy

variable [Arch]
namespace HashSpec

/-- A stored element. -/
structure Elem where
  node : Ptr
  data : Nat
  hash : Nat
deriving DecidableEq

/-- The functions of a hashtable, `T` is the struct. -/
structure Impl (T : Type) where
  insert : T → Ptr → Nat → Nat → MM T
  remove : T → (Nat → Int) → Nat → MM (T × Nat)
  removeExisting : T → Ptr → MM (T × Nat)
  search : T → (Nat → Int) → Nat → MM Nat
  bucket : T → Nat → MM Ptr
  count : T → Nat
  foreach : T → (Nat → MM Unit) → MM Unit
  done : T → MM Unit

/-- Concrete state: the memory and the struct. -/
structure St (T : Type) where
  mem : Mem
  tbl : T

/-- Abstract state: the elements in insertion order, and the live node objects. -/
structure Ab where
  elems : List Elem
  live : Ptr → Bool

inductive Op
  | insert (p : Ptr) (data hash : Nat)
  | remove (cmp : Nat → Int) (hash : Nat)
  | removeExisting (p : Ptr)
  | search (cmp : Nat → Int) (hash : Nat)
  | bucket (hash : Nat)
  | count
  /- things that the client does to the memory -/
  | alloc (p : Ptr)
  | free (p : Ptr)
  | scribble (p : Ptr) (next prev : Ptr) (data index : Nat)

inductive Out
  | unit
  | val (n : Nat)
  | elems (l : List Elem)

/-- The client loop of the documentation, tommyhashtbl.h:57-68 (and the same in the other
    hashtables): visits the bucket from its head through `next`. -/
def walkLoop (i : Ptr) (acc : List Elem) : HM (List Elem) := do
  if i = 0 then
    return acc.reverse
  let d ← getData i
  let x ← getIndex i
  let n ← getNext i
  walkLoop n (⟨i, d, x⟩ :: acc)
partial_fixpoint

def walkBucket {T : Type} (I : Impl T) (t : T) (hash : Nat) : MM (List Elem) := do
  let i ← I.bucket t hash
  onNodes (walkLoop i [])

/-- Execution of a call on the model. -/
def step {T : Type} (I : Impl T) : Op → StateT (St T) Option Out
  | .insert p d h => fun s => (I.insert s.tbl p d h s.mem).map fun r => (.unit, ⟨r.2, r.1⟩)
  | .remove cmp h => fun s => (I.remove s.tbl cmp h s.mem).map fun r => (.val r.1.2, ⟨r.2, r.1.1⟩)
  | .removeExisting p => fun s =>
      (I.removeExisting s.tbl p s.mem).map fun r => (.val r.1.2, ⟨r.2, r.1.1⟩)
  | .search cmp h => fun s => (I.search s.tbl cmp h s.mem).map fun r => (.val r.1, ⟨r.2, s.tbl⟩)
  | .bucket h => fun s => (walkBucket I s.tbl h s.mem).map fun r => (.elems r.1, ⟨r.2, s.tbl⟩)
  | .count => fun s => some (.val (I.count s.tbl), s)
  | .alloc p => fun s =>
      some (.unit, { s with mem := { s.mem with heap := { s.mem.heap with
        valid := upd s.mem.heap.valid p true } } })
  | .free p => fun s =>
      some (.unit, { s with mem := { s.mem with heap := { s.mem.heap with
        valid := upd s.mem.heap.valid p false } } })
  | .scribble p n q d i => fun s =>
      some (.unit, { s with mem := { s.mem with heap := { s.mem.heap with
        next := upd s.mem.heap.next p n, prev := upd s.mem.heap.prev p q,
        data := upd s.mem.heap.data p d, index := upd s.mem.heap.index p i } } })

/-- The pointers in half of the memory: 2^60 in a 64 bit build, 2^29 in a 32 bit one. -/
def maxBuckets : Nat := 2 ^ (sizeBit - 1) / ptrSize

/-- A node object fits at `p` without touching the ones already there. -/
def Fits (live : Ptr → Bool) (p : Ptr) : Prop :=
  p ≠ 0 ∧ p + nodeSize ≤ 2 ^ sizeBit ∧ ∀ q, live q = true → p + nodeSize ≤ q ∨ q + nodeSize ≤ p

def Ab.stored (a : Ab) (p : Ptr) : Prop := p ∈ a.elems.map Elem.node

/-- What the client may do. -/
def legal (a : Ab) : Op → Prop
  | .insert p _ _ => a.live p = true ∧ ¬ a.stored p
  | .removeExisting p => a.stored p
  | .remove _ _ | .search _ _ | .bucket _ | .count => True
  | .alloc p => Fits a.live p
  | .free p => a.live p = true ∧ ¬ a.stored p
  | .scribble p _ _ _ _ => a.live p = true ∧ ¬ a.stored p

/-- The element searched for. -/
def hit (cmp : Nat → Int) (hash : Nat) (e : Elem) : Bool := e.hash = hash ∧ cmp e.data = 0

def allowed (a : Ab) : Op → Out → Prop
  | .insert _ _ _, r | .alloc _, r | .free _, r | .scribble _ _ _ _ _, r => r = .unit
  | .remove cmp h, r | .search cmp h, r =>
      r = .val (((a.elems.find? (hit cmp h)).map Elem.data).getD 0)
  | .removeExisting p, r => ∃ e ∈ a.elems, e.node = p ∧ r = .val e.data
  | .bucket h, r => ∃ l, r = .elems l ∧ l.Nodup ∧ (∀ e ∈ l, e ∈ a.elems) ∧
      l.filter (fun e => e.hash = h) = a.elems.filter (fun e => e.hash = h)
  | .count, r => r = .val a.elems.length

def next (a : Ab) : Op → Out → Ab
  | .insert p d h, _ => { a with elems := a.elems ++ [⟨p, d, h⟩] }
  | .remove cmp h, _ => { a with elems := a.elems.eraseP (hit cmp h) }
  | .removeExisting p, _ => { a with elems := a.elems.filter (fun e => e.node ≠ p) }
  | .alloc p, _ => { a with live := upd a.live p true }
  | .free p, _ => { a with live := upd a.live p false }
  | _, _ => a

/-- The node objects of a memory do not overlap. -/
structure LiveOk (live : Ptr → Bool) : Prop where
  zero : live 0 = false
  bound : ∀ p, live p = true → p + nodeSize ≤ 2 ^ sizeBit
  apart : ∀ p q, live p = true → live q = true → p ≠ q → p + nodeSize ≤ q ∨ q + nodeSize ≤ p

/-- The memory where the init function starts: any content, any live vectors. -/
def StartOk (m : Mem) : Prop := LiveOk m.heap.valid ∧ ∀ v, m.vnext ≤ v → m.vlen v = none

/-- A hashtable initialised by `start` in the memory `m0`. -/
def sys {T : Type} (I : Impl T) (start : MM T) (m0 : Mem) : Sys (St T) Ab Op Out where
  init s a := StartOk m0 ∧ start m0 = some (s.tbl, s.mem) ∧ a.elems = [] ∧ a.live = m0.heap.valid
  step := step I
  legal := legal
  allowed := allowed
  next := next

/-- The nodes `xs` and the vectors of `m` are the same in `m'`. -/
def SameNodes (m m' : Mem) (xs : List Ptr) : Prop :=
  (∀ x ∈ xs, (m.heap.ok x ↔ m'.heap.ok x) ∧ m'.heap.next x = m.heap.next x ∧
    m'.heap.data x = m.heap.data x) ∧ ∀ r p, m.cell? r = some p → m'.cell? r = some p

/-- Calling `func` on the elements in the order `L`, from the memory `m`, each call leaves alone the
    elements not yet visited and the vectors. -/
def GoodCallback (m : Mem) (func : Nat → MM Unit) (L : List Elem) : Prop :=
  ∀ as x bs, L = as ++ x :: bs → ∀ m1 m2, SameNodes m m1 (bs.map Elem.node) →
    func x.data m1 = some ((), m2) → SameNodes m m2 (bs.map Elem.node)

/-- Calls `func` on each payload, in order. -/
def callAll (func : Nat → MM Unit) : List Nat → MM Unit
  | [] => pure ()
  | d :: ds => do func d; callAll func ds

/-- The nodes which a call may write. -/
def mayWrite (a : Ab) (op : Op) (q : Ptr) : Prop :=
  a.stored q ∨ match op with
    | .insert p _ _ => q = p
    | _ => False

/-- The calls of the library. -/
def isCall : Op → Prop
  | .alloc _ | .free _ | .scribble _ _ _ _ _ => False
  | _ => True

/-- 4 for each insert, 8 for each remove. -/
def linCost : Op → Nat
  | .insert _ _ _ => 4
  | .remove _ _ | .removeExisting _ => 8
  | _ => 0

/-- 4 for each insert, 1 for each remove. -/
def movedCost : Op → Nat
  | .insert _ _ _ => 4
  | .remove _ _ | .removeExisting _ => 1
  | _ => 0

/-- 6 for each insert, 4 for each remove. -/
def dynCost : Op → Nat
  | .insert _ _ _ => 6
  | .remove _ _ | .removeExisting _ => 4
  | _ => 0

/-- The vectors live in `m` that were not live in `m0`. -/
structure NewVecs (m0 m : Mem) (vs : List Nat) : Prop where
  nodup : vs.Nodup
  mem : ∀ v, v ∈ vs ↔ m0.vlen v = none ∧ m.vlen v ≠ none

/-- Total number of cells. -/
def cellCount (m : Mem) (vs : List Nat) : Nat := (vs.map (fun v => (m.vlen v).getD 0)).sum

/-- A memory of 2^32 or 2^64 bytes, as the one of the machine: any set of different vectors and nodes, with the bytes of a pointer for
    each cell and of a node for each node, is less than that. -/
def Bounded (m : Mem) : Prop := ∀ (vs : List Nat) (ns : List Ptr), vs.Nodup → ns.Nodup → (∀ p ∈ ns, m.heap.ok p) →
  ptrSize * cellCount m vs + nodeSize * ns.length < 2 ^ sizeBit

end HashSpec
end Tommy
