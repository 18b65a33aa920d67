import Verif.Spec.HashImpl
import Verif.Spec.Free
import Verif.Model.Free
/-!
  Specification of a program with any number of hashtables of the three kinds in the same memory, created and
  destroyed at any time (C66). The tables are numbered; each one is a multiset of (node, payload, hash) as in
  Spec/Hash.lean. The nodes and the vectors of all the tables are in one memory.
-/
set_option autoImplicit false
namespace Tommy

variable [Arch]
namespace TablesSpec
open HashSpec (Elem Fits LiveOk Impl hashtableImpl hashdynImpl hashlinImpl)
open FreeSpec (Objects)

/-- How a table is created. -/
inductive Kind
  | hashtable (buckets : Nat)
  | hashdyn
  | hashlin

/-- The struct of a table. -/
inductive Tbl
  | hashtable (t : Hashtable)
  | hashdyn (t : Hashdyn)
  | hashlin (t : Hashlin)

/-- The call of the init function. -/
def start : Kind → MM Tbl
  | .hashtable n => Tbl.hashtable <$> hashtableInit n
  | .hashdyn => Tbl.hashdyn <$> hashdynInit
  | .hashlin => Tbl.hashlin <$> hashlinInit

/-- The functions of the kind of the table. -/
def tblImpl : Impl Tbl where
  insert t p d h := match t with
    | .hashtable t => Tbl.hashtable <$> hashtableInsert t p d h
    | .hashdyn t => Tbl.hashdyn <$> hashdynInsert t p d h
    | .hashlin t => Tbl.hashlin <$> hashlinInsert t p d h
  remove t cmp h := match t with
    | .hashtable t => (fun r => (Tbl.hashtable r.1, r.2)) <$> hashtableRemove t cmp h
    | .hashdyn t => (fun r => (Tbl.hashdyn r.1, r.2)) <$> hashdynRemove t cmp h
    | .hashlin t => (fun r => (Tbl.hashlin r.1, r.2)) <$> hashlinRemove t cmp h
  removeExisting t p := match t with
    | .hashtable t => (fun r => (Tbl.hashtable r.1, r.2)) <$> hashtableRemoveExisting t p
    | .hashdyn t => (fun r => (Tbl.hashdyn r.1, r.2)) <$> hashdynRemoveExisting t p
    | .hashlin t => (fun r => (Tbl.hashlin r.1, r.2)) <$> hashlinRemoveExisting t p
  search t cmp h := match t with
    | .hashtable t => hashtableSearch t cmp h
    | .hashdyn t => hashdynSearch t cmp h
    | .hashlin t => hashlinSearch t cmp h
  bucket t h := match t with
    | .hashtable t => hashtableBucket t h
    | .hashdyn t => hashdynBucket t h
    | .hashlin t => hashlinBucket t h
  count t := match t with
    | .hashtable t => hashtableCount t
    | .hashdyn t => hashdynCount t
    | .hashlin t => hashlinCount t
  foreach t func := match t with
    | .hashtable t => hashtableForeach t func
    | .hashdyn t => hashdynForeach t func
    | .hashlin t => hashlinForeach t func
  done t := match t with
    | .hashtable t => hashtableDone t
    | .hashdyn t => hashdynDone t
    | .hashlin t => hashlinDone t

/-- The memory usage function of the kind of the table. -/
def usage : Tbl → Nat
  | .hashtable t => hashtableMemoryUsage t
  | .hashdyn t => hashdynMemoryUsage t
  | .hashlin t => hashlinMemoryUsage t

/-- The documented deallocation (Model/Free.lean). -/
def freeAll (offs : List Nat) (junk : Heap) : Tbl → MM Unit
  | .hashtable t => hashtableFreeAll offs junk t
  | .hashdyn t => hashdynFreeAll offs junk t
  | .hashlin t => hashlinFreeAll offs junk t

/-- Concrete state: the memory and the structs; `none` if the table does not exist. -/
structure St where
  mem : Mem
  tbl : Nat → Option Tbl

/-- Abstract state: the elements of each table in insertion order, and the live node objects. -/
structure Ab where
  val : Nat → Option (List Elem)
  live : Ptr → Bool

inductive Op
  /-- creates a table -/
  | init (i : Nat) (k : Kind)
  /-- a call on a table: insert, remove, remove_existing, search, bucket, count -/
  | call (i : Nat) (op : HashSpec.Op)
  /-- destroys a table, the nodes remain -/
  | done (i : Nat)
  /-- destroys a table and deallocates its objects: foreach with free(), and done -/
  | destroy (i : Nat) (offs : List Nat) (off : Nat) (junk : Heap)
  /- things that the client does to the memory -/
  | alloc (p : Ptr)
  | free (p : Ptr)
  | scribble (p : Ptr) (next prev : Ptr) (data index : Nat)

/-- Execution. -/
def step : Op → StateT St Option HashSpec.Out
  | .init i k => fun s => (start k s.mem).map fun r => (.unit, ⟨r.2, upd s.tbl i (some r.1)⟩)
  | .call i op => fun s => (s.tbl i).bind fun t =>
      (HashSpec.step tblImpl op ⟨s.mem, t⟩).map fun r => (r.1, ⟨r.2.mem, upd s.tbl i (some r.2.tbl)⟩)
  | .done i => fun s => (s.tbl i).bind fun t => (tblImpl.done t s.mem).map fun r => (.unit, ⟨r.2, upd s.tbl i none⟩)
  | .destroy i offs _ junk => fun s => (s.tbl i).bind fun t =>
      (freeAll offs junk t s.mem).map fun r => (.unit, ⟨r.2, upd s.tbl i none⟩)
  | .alloc p => fun s => some (.unit, { s with mem := { s.mem with heap := { s.mem.heap with
      valid := upd s.mem.heap.valid p true } } })
  | .free p => fun s => some (.unit, { s with mem := { s.mem with heap := { s.mem.heap with
      valid := upd s.mem.heap.valid p false } } })
  | .scribble p n q d x => fun s => some (.unit, { s with mem := { s.mem with heap := { s.mem.heap with
      next := upd s.mem.heap.next p n, prev := upd s.mem.heap.prev p q,
      data := upd s.mem.heap.data p d, index := upd s.mem.heap.index p x } } })

/-- The node is in the table `i`. -/
def Ab.within (a : Ab) (i : Nat) (p : Ptr) : Prop := ∃ es, a.val i = some es ∧ p ∈ es.map Elem.node

/-- The node is in a table. -/
def Ab.stored (a : Ab) (p : Ptr) : Prop := ∃ i, a.within i p

/-- The node that is passed to be inserted. -/
def given : HashSpec.Op → Option Ptr
  | .insert p _ _ => some p
  | _ => none

/-- The node `p` is in one of the objects of the table. -/
def inside (offs : List Nat) (es : List Elem) (p : Ptr) : Bool := es.any fun e => offs.any fun o => p == e.data + o

/-- What the client may do. -/
def legal (a : Ab) : Op → Prop
  | .init i k => a.val i = none ∧ match k with
      | .hashtable n => n ≤ HashSpec.maxBuckets
      | _ => True
  | .call i op => HashSpec.isCall op ∧ (∃ es, a.val i = some es ∧ HashSpec.legal ⟨es, a.live⟩ op) ∧
      ∀ p, given op = some p → ¬ a.stored p
  | .done i => a.val i ≠ none
  | .destroy i offs off _ => ∃ es, a.val i = some es ∧ Objects a.live offs off (es.map fun e => (e.node, e.data)) ∧
      ∀ j p, j ≠ i → a.within j p → inside offs es p = false
  | .alloc p => Fits a.live p
  | .free p | .scribble p _ _ _ _ => a.live p = true ∧ ¬ a.stored p

/-- The result of a call is the one of the table as if it were alone. -/
def allowed (a : Ab) : Op → HashSpec.Out → Prop
  | .call i op, r => ∃ es, a.val i = some es ∧ HashSpec.allowed ⟨es, a.live⟩ op r
  | _, r => r = .unit

def next (a : Ab) : Op → HashSpec.Out → Ab
  | .init i _, _ => { a with val := upd a.val i (some []) }
  | .call i op, r => { a with val := upd a.val i ((a.val i).map fun es => (HashSpec.next ⟨es, a.live⟩ op r).elems) }
  | .done i, _ => { a with val := upd a.val i none }
  | .destroy i offs _ _, _ => ⟨upd a.val i none, fun p => a.live p && !inside offs ((a.val i).getD []) p⟩
  | .alloc p, _ => { a with live := upd a.live p true }
  | .free p, _ => { a with live := upd a.live p false }
  | .scribble _ _ _ _ _, _ => a

/-- The program starts in the memory `m0`, without tables. -/
def sys (m0 : Mem) : Sys St Ab Op HashSpec.Out where
  init s a := HashSpec.StartOk m0 ∧ s.mem = m0 ∧ (∀ i, s.tbl i = none) ∧ (∀ i, a.val i = none) ∧ a.live = m0.heap.valid
  step := step
  legal := legal
  allowed := allowed
  next := next

end TablesSpec
end Tommy
