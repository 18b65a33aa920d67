import Verif.Model.TrieInp
import Verif.Spec.Trie
/-
  Specification of tommytrieinp: multimaps from keys to (node, payload), in insertion order.

  Any number of tries share one memory.  The history can contain, between the calls, arbitrary writes to the
  nodes in no trie (also to their `map`), allocation and deallocation of them.
-/
set_option autoImplicit false
namespace Tommy

variable [Arch]
namespace InpSpec
open HashSpec (Elem Fits LiveOk walkLoop)
open TrieSpec (first)

/-- The configurations considered: `TREE_MAX` is a power of two up to 128 (with more branches `1 <<
    BUCKET_BIT` could overflow an `int`), the keys have at least the bits of three levels and at most the ones of `tommy_key_t`. -/
structure CfgOk (c : TrieCfg) : Prop where
  pow : ∃ t, 1 ≤ t ∧ t ≤ 7 ∧ c.treeMax = 2 ^ t
  low : c.treeMax ^ 3 ≤ 2 ^ c.bit
  high : c.bit ≤ sizeBit

/-- Concrete state: the memory and the `tommy_trie_inplace` variables. -/
structure St where
  mem : TMem
  var : Nat → InpTrie

/-- Abstract state. `val v`: the elements of the trie `v`, `none` if it is not initialised; `live p`: there is
    a node object at `p`; `busy b`: there is the struct of a trie, or another object, at `b`. -/
structure Ab where
  val : Nat → Option (List Elem)
  live : Ptr → Bool
  busy : Ptr → Bool

def Ab.stored (a : Ab) (p : Ptr) : Prop := ∃ v es, a.val v = some es ∧ p ∈ es.map Elem.node

inductive Op
  | init (v : Nat)
  | insert (v : Nat) (p : Ptr) (data key : Nat)
  | remove (v : Nat) (key : Nat)
  | removeExisting (v : Nat) (p : Ptr)
  | search (v : Nat) (key : Nat)
  | bucket (v : Nat) (key : Nat)
  | count (v : Nat)
  | memoryUsage (v : Nat)
  /- things that the client does to the memory -/
  | alloc (p : Ptr)
  | free (p : Ptr)
  | scribble (p : Ptr) (next prev : Ptr) (data index : Nat) (map : Nat → Ptr)

inductive Out
  | unit
  | val (n : Nat)
  | elems (l : List Elem)

/-- Execution of a function. -/
def call {α : Type} (s : St) (x : TM α) (res : α → Out) (var : α → Nat → InpTrie) : Option (Out × St) :=
  (x s.mem).map fun r => (res r.1, ⟨r.2, var r.1⟩)

/-- The client loop of the documentation, tommytrieinp.h:85-94. -/
def walkBucket (c : TrieCfg) (t : InpTrie) (key : Nat) : TM (List Elem) := do
  let i ← inpBucket c t key
  onN (walkLoop i [])

/-- Execution of a call on the model. -/
def step (c : TrieCfg) : Op → StateT St Option Out
  | .init v => fun s => call s (inpInit c (s.var v)) (fun _ => .unit) (fun t => upd s.var v t)
  | .insert v p d k => fun s => call s (inpInsert c (s.var v) p d k) (fun _ => .unit) (fun t => upd s.var v t)
  | .remove v k => fun s => call s (inpRemove c (s.var v) k) (fun r => .val r.2) (fun r => upd s.var v r.1)
  | .removeExisting v p => fun s =>
      call s (inpRemoveExisting c (s.var v) p) (fun r => .val r.2) (fun r => upd s.var v r.1)
  | .search v k => fun s => call s (inpSearch c (s.var v) k) .val (fun _ => s.var)
  | .bucket v k => fun s => call s (walkBucket c (s.var v) k) .elems (fun _ => s.var)
  | .count v => fun s => some (.val (inpCount (s.var v)), s)
  | .memoryUsage v => fun s => some (.val (inpMemoryUsage c (s.var v)), s)
  | .alloc p => fun s => some (.unit, { s with mem := { s.mem with
      heap := { s.mem.heap with valid := upd s.mem.heap.valid p true }
      csize := upd s.mem.csize p c.treeMax } })
  | .free p => fun s => some (.unit, { s with mem := { s.mem with
      heap := { s.mem.heap with valid := upd s.mem.heap.valid p false }
      csize := upd s.mem.csize p 0 } })
  | .scribble p n q d i f => fun s => some (.unit, { s with mem := { s.mem with
      heap := { s.mem.heap with
        next := upd s.mem.heap.next p n
        prev := upd s.mem.heap.prev p q
        data := upd s.mem.heap.data p d
        index := upd s.mem.heap.index p i }
      cell := upd s.mem.cell p f } })

/-- What the client may do. -/
def legal (c : TrieCfg) (a : Ab) : Op → Prop
  | .init _ => True
  | .insert v p _ k => (a.val v).isSome ∧ a.live p = true ∧ ¬ a.stored p ∧ k < 2 ^ c.bit
  | .remove v k | .search v k | .bucket v k => (a.val v).isSome ∧ k < 2 ^ c.bit
  | .count v | .memoryUsage v => (a.val v).isSome
  | .removeExisting v p => ∃ es, a.val v = some es ∧ p ∈ es.map Elem.node
  | .alloc p => Fits a.live p ∧ a.busy p = false
  | .free p => a.live p = true ∧ ¬ a.stored p
  | .scribble p _ _ _ _ _ => a.live p = true ∧ ¬ a.stored p

/-- The results; a node has `TREE_MAX + 4` words of 8 bytes. -/
def allowed (c : TrieCfg) (a : Ab) : Op → Out → Prop
  | .init _, r | .insert _ _ _ _, r | .alloc _, r | .free _, r | .scribble _ _ _ _ _ _, r => r = .unit
  | .remove v k, r | .search v k, r => ∀ es, a.val v = some es → r = .val (((first es k).map Elem.data).getD 0)
  | .removeExisting v p, r => ∀ es, a.val v = some es → ∃ e ∈ es, e.node = p ∧ r = .val e.data
  | .bucket v k, r => ∀ es, a.val v = some es → r = .elems (es.filter fun e => e.hash = k)
  | .count v, r => ∀ es, a.val v = some es → r = .val es.length
  | .memoryUsage v, r => ∀ es, a.val v = some es → r = .val (es.length * (ptrSize * (c.treeMax + 4)) % 2 ^ sizeBit)

def Ab.onTrie (a : Ab) (v : Nat) (f : List Elem → List Elem) : Ab :=
  { a with val := upd a.val v ((a.val v).map f) }

def next (a : Ab) : Op → Out → Ab
  | .init v, _ => { a with val := upd a.val v (some []) }
  | .insert v p d k, _ => a.onTrie v fun es => es ++ [⟨p, d, k⟩]
  | .remove v k, _ => a.onTrie v fun es => es.eraseP fun e => e.hash = k
  | .removeExisting v p, _ => a.onTrie v fun es => es.filter fun e => e.node ≠ p
  | .alloc p, _ => { a with live := upd a.live p true }
  | .free p, _ => { a with live := upd a.live p false }
  | _, _ => a

/-- Initially no trie is initialised; the memory has any content, any set of nodes and objects is live,
    between which the structs of the tries. -/
def sys (c : TrieCfg) : Sys St Ab Op Out where
  init s a := (∀ v, a.val v = none) ∧ a.live = s.mem.heap.valid ∧ LiveOk a.live ∧
    (∀ p, a.live p = true → s.mem.csize p = c.treeMax ∧ a.busy p = false) ∧
    (∀ v, s.mem.csize (s.var v).base = inpBucketMax c ∧ a.busy (s.var v).base = true) ∧
    ∀ v w, (s.var v).base = (s.var w).base → v = w
  step := step c
  legal := legal c
  allowed := allowed c
  next := next

/-- The calls (not the client actions). -/
def isCall : Op → Prop
  | .alloc _ | .free _ | .scribble _ _ _ _ _ _ => False
  | _ => True

/-- The nodes of which a call may write the list fields (`next`, `prev`, `data`, `key`). -/
def mayNode (a : Ab) : Op → Ptr → Prop
  | .insert v p _ k, q => q = p ∨ ∃ es, a.val v = some es ∧ ∃ e ∈ es, e.hash = k ∧ e.node = q
  | .remove v k, q => ∃ es, a.val v = some es ∧ ∃ e ∈ es, e.hash = k ∧ e.node = q
  | .removeExisting v p, q => ∃ es, a.val v = some es ∧ ∃ e ∈ es, ∃ f ∈ es, f.node = p ∧ e.hash = f.hash ∧ e.node = q
  | _, _ => False

/-- The objects of which a call may write the cells: the struct of the trie, the `map` of its nodes and of the
    inserted one. -/
def mayObj (s : St) (a : Ab) : Op → Ptr → Prop
  | .init v, b => b = (s.var v).base
  | .insert v p _ _, b => b = p ∨ b = (s.var v).base ∨ ∃ es, a.val v = some es ∧ b ∈ es.map Elem.node
  | .remove v _, b | .removeExisting v _, b => b = (s.var v).base ∨ ∃ es, a.val v = some es ∧ b ∈ es.map Elem.node
  | _, _ => False

/-- The trie variables which a call may write. -/
def mayVar : Op → Nat → Prop
  | .init v, w | .insert v _ _ _, w | .remove v _, w | .removeExisting v _, w => w = v
  | _, _ => False

end InpSpec
end Tommy
