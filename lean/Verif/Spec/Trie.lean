import Verif.Model.Trie
import Verif.Spec.Hash
/-
  Specification of tommytrie: multimaps from keys to (node, payload), in insertion order.

  Any number of tries (variables numbered by `Nat`) share one memory and one allocator.  The allocator can
  return any even address which is not of a live object, so also the ones of the blocks given back.  The
  history can contain, between the calls, arbitrary writes to the nodes in no trie, allocation and
  deallocation of them, and arbitrary writes to the blocks which are free.
-/
set_option autoImplicit false
namespace Tommy

variable [Arch]
namespace TrieSpec
open HashSpec (Elem Fits LiveOk walkLoop)

/-- The configurations considered: `TREE_MAX` is a power of two that `TOMMY_ILOG2` knows, the keys have at
    least the bits of a level and at most the ones of `tommy_key_t`. -/
structure CfgOk (c : TrieCfg) : Prop where
  pow : ∃ t, 1 ≤ t ∧ t ≤ 8 ∧ c.treeMax = 2 ^ t
  low : c.treeMax ≤ 2 ^ c.bit
  high : c.bit ≤ sizeBit

/-- Concrete state: the memory and the `tommy_trie` variables. -/
structure St where
  mem : TMem
  var : Nat → Trie

/-- Abstract state. `val v`: the elements of the trie `v`, `none` if it is not initialised; `owned v`: the
    blocks that the trie got from the allocator and did not give back; `live p`: there is a node object at
    `p`; `busy b`: there is an object which is not a block of a trie at `b` (the structs of the tries, ...). -/
structure Ab where
  val : Nat → Option (List Elem)
  owned : Nat → List Ptr
  live : Ptr → Bool
  busy : Ptr → Bool

def Ab.stored (a : Ab) (p : Ptr) : Prop := ∃ v es, a.val v = some es ∧ p ∈ es.map Elem.node

/-- No object with cells at `b`. -/
def Ab.unused (a : Ab) (b : Ptr) : Prop := a.busy b = false ∧ ∀ v, b ∉ a.owned v

inductive Op
  | init (v : Nat)
  /-- the addresses that the allocator returns during the call are the first ones of `supply` -/
  | insert (v : Nat) (p : Ptr) (data key : Nat) (supply : List Ptr)
  | remove (v : Nat) (key : Nat)
  | removeExisting (v : Nat) (p : Ptr)
  | search (v : Nat) (key : Nat)
  | bucket (v : Nat) (key : Nat)
  | count (v : Nat)
  | memoryUsage (v : Nat)
  /- things that the client does to the memory -/
  | alloc (p : Ptr)
  | free (p : Ptr)
  | scribble (p : Ptr) (next prev : Ptr) (data index : Nat)
  | junk (b : Ptr) (cells : Nat → Ptr)

inductive Res
  | unit
  | val (n : Nat)
  | elems (l : List Elem)

/-- The result of a call, the blocks it got from the allocator and the ones it gave back. -/
structure Out where
  res : Res
  got : List Ptr
  freed : List Ptr

/-- Execution of a function of the trie `v`, with the allocator returning the addresses `supply`. -/
def call {α : Type} (supply : List Ptr) (s : St) (x : TM α) (res : α → Res) (var : α → Nat → Trie) :
    Option (Out × St) :=
  (x { s.mem with supply := supply, freed := [] }).map fun r =>
    (⟨res r.1, supply.take (supply.length - r.2.supply.length), r.2.freed⟩, ⟨r.2, var r.1⟩)

/-- The client loop of the documentation, tommytrie.h:91-100. -/
def walkBucket (c : TrieCfg) (t : Trie) (key : Nat) : TM (List Elem) := do
  let i ← trieBucket c t key
  onN (walkLoop i [])

/-- Execution of a call on the model. -/
def step (c : TrieCfg) : Op → StateT St Option Out
  | .init v => fun s => call [] s (trieInit c (s.var v)) (fun _ => .unit) (fun t => upd s.var v t)
  | .insert v p d k supply => fun s =>
      call supply s (trieInsert c (s.var v) p d k) (fun _ => .unit) (fun t => upd s.var v t)
  | .remove v k => fun s => call [] s (trieRemove c (s.var v) k) (fun r => .val r.2) (fun r => upd s.var v r.1)
  | .removeExisting v p => fun s =>
      call [] s (trieRemoveExisting c (s.var v) p) (fun r => .val r.2) (fun r => upd s.var v r.1)
  | .search v k => fun s => call [] s (trieSearch c (s.var v) k) .val (fun _ => s.var)
  | .bucket v k => fun s => call [] s (walkBucket c (s.var v) k) .elems (fun _ => s.var)
  | .count v => fun s => some (⟨.val (trieCount (s.var v)), [], []⟩, s)
  | .memoryUsage v => fun s => some (⟨.val (trieMemoryUsage c (s.var v)), [], []⟩, s)
  | .alloc p => fun s => some (⟨.unit, [], []⟩, { s with mem := { s.mem with heap := { s.mem.heap with
      valid := upd s.mem.heap.valid p true } } })
  | .free p => fun s => some (⟨.unit, [], []⟩, { s with mem := { s.mem with heap := { s.mem.heap with
      valid := upd s.mem.heap.valid p false } } })
  | .scribble p n q d i => fun s =>
      some (⟨.unit, [], []⟩, { s with mem := { s.mem with heap := { s.mem.heap with
        next := upd s.mem.heap.next p n, prev := upd s.mem.heap.prev p q,
        data := upd s.mem.heap.data p d, index := upd s.mem.heap.index p i } } })
  | .junk b f => fun s => some (⟨.unit, [], []⟩, { s with mem := { s.mem with cell := upd s.mem.cell b f } })

/-- The number of levels of blocks. -/
def levels (c : TrieCfg) : Nat := c.bit / c.treeBit

/-- What the client and the allocator may do. -/
def legal (c : TrieCfg) (a : Ab) : Op → Prop
  | .init _ => True
  | .insert v p _ k supply => (a.val v).isSome ∧ a.live p = true ∧ ¬ a.stored p ∧ p % 2 = 0 ∧ k < 2 ^ c.bit ∧
      levels c ≤ supply.length ∧ supply.Nodup ∧
      ∀ b ∈ supply, a.unused b ∧ b % 2 = 0 ∧ b ≠ 0 ∧ b < 2 ^ sizeBit
  | .remove v k | .search v k | .bucket v k => (a.val v).isSome ∧ k < 2 ^ c.bit
  | .count v | .memoryUsage v => (a.val v).isSome
  | .removeExisting v p => ∃ es, a.val v = some es ∧ p ∈ es.map Elem.node
  | .alloc p => Fits a.live p
  | .free p => a.live p = true ∧ ¬ a.stored p
  | .scribble p _ _ _ _ => a.live p = true ∧ ¬ a.stored p
  | .junk b _ => a.unused b

/-- The first element with the key. -/
def first (es : List Elem) (k : Nat) : Option Elem := es.find? fun e => e.hash = k

/-- Only `insert` gets blocks, and not more than the levels; only the removals give back blocks, which
    are different blocks owned by the trie. -/
def allowed (c : TrieCfg) (a : Ab) : Op → Out → Prop
  | .init _, r | .alloc _, r | .free _, r | .scribble _ _ _ _ _, r | .junk _ _, r => r = ⟨.unit, [], []⟩
  | .insert _ _ _ _ supply, r => ∃ n, n ≤ levels c ∧ r = ⟨.unit, supply.take n, []⟩
  | .remove v k, r => ∀ es, a.val v = some es → ∃ F, F.Nodup ∧ (∀ b ∈ F, b ∈ a.owned v) ∧
      r = ⟨.val (((first es k).map Elem.data).getD 0), [], F⟩
  | .removeExisting v p, r => ∀ es, a.val v = some es → ∃ F, F.Nodup ∧ (∀ b ∈ F, b ∈ a.owned v) ∧
      ∃ e ∈ es, e.node = p ∧ r = ⟨.val e.data, [], F⟩
  | .search v k, r => ∀ es, a.val v = some es → r = ⟨.val (((first es k).map Elem.data).getD 0), [], []⟩
  | .bucket v k, r => ∀ es, a.val v = some es → r = ⟨.elems (es.filter fun e => e.hash = k), [], []⟩
  | .count v, r => ∀ es, a.val v = some es → r = ⟨.val es.length, [], []⟩
  | .memoryUsage v, r => ∀ es, a.val v = some es →
      r = ⟨.val ((es.length * nodeSize + (a.owned v).length * (c.treeMax * ptrSize)) % 2 ^ sizeBit), [], []⟩

/-- Change the elements of a trie, which got and gave back some blocks. -/
def Ab.onTrie (a : Ab) (v : Nat) (r : Out) (f : List Elem → List Elem) : Ab :=
  { a with
    val := upd a.val v ((a.val v).map f)
    owned := upd a.owned v ((a.owned v ++ r.got).filter fun b => b ∉ r.freed) }

/-- `init` forgets the elements and the blocks of the trie. -/
def next (a : Ab) : Op → Out → Ab
  | .init v, _ => { a with
      val := upd a.val v (some [])
      owned := upd a.owned v []
      busy := fun b => a.busy b || decide (b ∈ a.owned v) }
  | .insert v p d k _, r => a.onTrie v r fun es => es ++ [⟨p, d, k⟩]
  | .remove v k, r => a.onTrie v r fun es => es.eraseP fun e => e.hash = k
  | .removeExisting v p, r => a.onTrie v r fun es => es.filter fun e => e.node ≠ p
  | .alloc p, _ => { a with live := upd a.live p true }
  | .free p, _ => { a with live := upd a.live p false }
  | _, _ => a

/-- Initially no trie is initialised; the memory has any content, any set of nodes and objects is live,
    between which the structs of the tries. -/
def sys (c : TrieCfg) : Sys St Ab Op Out where
  init s a := (∀ v, a.val v = none ∧ a.owned v = []) ∧ a.live = s.mem.heap.valid ∧ LiveOk a.live ∧
    (∀ b, a.busy b = true ↔ s.mem.csize b ≠ 0) ∧ (∀ v, s.mem.csize (s.var v).base = c.bucketMax) ∧
    ∀ v w, (s.var v).base = (s.var w).base → v = w
  step := step c
  legal := legal c
  allowed := allowed c
  next := next

/-- The calls (not the client actions). -/
def isCall : Op → Prop
  | .alloc _ | .free _ | .scribble _ _ _ _ _ | .junk _ _ => False
  | _ => True

/-- The nodes which a call may write. -/
def mayNode (a : Ab) : Op → Ptr → Prop
  | .insert v p _ k _, q => q = p ∨ ∃ es, a.val v = some es ∧ ∃ e ∈ es, e.hash = k ∧ e.node = q
  | .remove v k, q => ∃ es, a.val v = some es ∧ ∃ e ∈ es, e.hash = k ∧ e.node = q
  | .removeExisting v p, q => ∃ es, a.val v = some es ∧ ∃ e ∈ es, ∃ f ∈ es, f.node = p ∧ e.hash = f.hash ∧ e.node = q
  | _, _ => False

/-- The objects with cells which a call may write, or allocate and release: the struct of the trie, its
    blocks, and the ones it gets from the allocator. -/
def mayObj (s : St) (a : Ab) : Op → Out → Ptr → Prop
  | .init v, _, b => b = (s.var v).base
  | .insert v _ _ _ _, r, b | .remove v _, r, b | .removeExisting v _, r, b =>
      b = (s.var v).base ∨ b ∈ a.owned v ∨ b ∈ r.got
  | _, _, _ => False

/-- The trie variables which a call may write. -/
def mayVar : Op → Nat → Prop
  | .init v, w | .insert v _ _ _ _, w | .remove v _, w | .removeExisting v _, w => w = v
  | _, _ => False

end TrieSpec
end Tommy
