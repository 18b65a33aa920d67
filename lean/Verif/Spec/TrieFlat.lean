import Verif.Model.TrieFlat
import Verif.Spec.Alloc
import Verif.Spec.Trie
/-
  Specification of tommytrie and tommyalloc together, in one memory of bytes.

  A program has any number of allocators and tries, calls malloc() and free() and writes in its memory.  The nodes
  and the trie structs are anywhere in its memory: in the regions obtained from malloc() or in the blocks obtained from
  an allocator, also the same one used by the tries.  The tries get their blocks from the allocators, which get their
  segments from malloc().
-/
set_option autoImplicit false
namespace Tommy

variable [Arch]
namespace FlatSpec
open HashSpec (Elem)
open TrieSpec (Res first levels)

/-- Concrete state: the memory, the allocator structs, and the tries with their `alloc` field. -/
structure St where
  mem : AMem
  al : Nat → Option Alloc
  var : Nat → Trie × Nat

/-- A trie as seen by the user: address of the struct, allocator, elements, and the blocks got from the allocator and
    not given back. -/
structure TrieAb where
  base : Nat
  id : Nat
  es : List Elem
  owned : List Nat

/-- Abstract state: the allocators and the regions of the program, and the tries in use. -/
structure Ab where
  al : AllocSpec.Ab
  val : Nat → Option TrieAb

/-- The `n` bytes from `p` are the user's, in the same region or block. -/
def Inside (a : AllocSpec.Ab) (p n : Nat) : Prop :=
  (∃ b k, a.env b = some k ∧ b ≤ p ∧ p + n ≤ b + k) ∨
  ∃ id P q, a.pool id = some P ∧ q ∈ P.used ∧ q ≤ p ∧ p + n ≤ q + P.bs

/-- The size of a trie struct: the buckets, `count`, `node_count` and `alloc`. -/
def structSize (c : TrieCfg) : Nat := ptrSize * c.bucketMax + 3 * ptrSize

/-- The bytes of a trie: the struct, the blocks, the nodes stored. -/
def TrieAb.Byte (c : TrieCfg) (T : TrieAb) (x : Nat) : Prop :=
  (T.base ≤ x ∧ x < T.base + structSize c) ∨ (∃ b ∈ T.owned, b ≤ x ∧ x < b + ptrSize * c.treeMax) ∨
  ∃ e ∈ T.es, e.node ≤ x ∧ x < e.node + nodeSize

/-- The bytes of the tries in use. -/
def Ab.Busy (c : TrieCfg) (a : Ab) (x : Nat) : Prop := ∃ v T, a.val v = some T ∧ T.Byte c x

/-- No byte from `p` to `p + n` is of a trie in use. -/
def Ab.Clear (c : TrieCfg) (a : Ab) (p n : Nat) : Prop := ∀ x, p ≤ x → x < p + n → ¬ a.Busy c x

/-- Not used anymore. -/
def Ab.forget (a : Ab) (v : Nat) : Ab := { a with val := upd a.val v none }

inductive Op
  /-- a call of an allocator, or something that the rest of the program does -/
  | al (op : AllocSpec.Op)
  /-- `tommy_trie_init` of the struct at `base`, with the allocator `id` -/
  | init (v base id : Nat)
  /-- `mallocs` is what malloc() returns, if it is called -/
  | insert (v p data key : Nat) (mallocs : List (Nat × (Nat → Nat)))
  | remove (v key : Nat)
  | removeExisting (v p : Nat)
  | search (v key : Nat)
  | bucket (v key : Nat)
  | count (v : Nat)
  | memoryUsage (v : Nat)
  /-- the trie `v` is not going to be used anymore: its memory can be reused -/
  | forget (v : Nat)

/-- The result of a call; for a trie also the calls it did to the allocator. -/
inductive Out
  | al (r : AllocSpec.Out)
  | trie (res : Res) (log : List AEvent)

/-- The client loop of the documentation, tommytrie.h:91-100. -/
def fwalkLoop (i : Nat) (acc : List Elem) : FM (List Elem) := do
  if i = 0 then
    return acc.reverse
  let d ← fget (i + offData)
  let x ← fget (i + offIndex)
  let n ← fget (i + offNext)
  fwalkLoop n (⟨i, d, x⟩ :: acc)
partial_fixpoint

def fwalkBucket (c : TrieCfg) (t : Trie) (key : Nat) : FM (List Elem) := do
  let i ← ftrieBucket c t key
  fwalkLoop i []

/-- Execution of a function of a trie using the allocator `id`. -/
def call {α : Type} (s : St) (id : Nat) (mallocs : List (Nat × (Nat → Nat))) (x : FM α) (res : α → Res)
    (var : α → Nat → Trie × Nat) : Option (Out × St) := do
  let t ← s.al id
  let r ← x ⟨s.mem, t, mallocs, []⟩
  return (.trie (res r.1) r.2.log, ⟨r.2.mem, upd s.al id (some r.2.al), var r.1⟩)

/-- Execution of a call on the model. -/
def step (slack : Nat) (c : TrieCfg) : Op → StateT St Option Out
  | .al op => fun s => (AllocSpec.step slack op ⟨s.mem, s.al⟩).map fun r => (.al r.1, { s with mem := r.2.mem, al := r.2.al })
  | .init v base id => fun s => call s id [] (ftrieInit c ⟨base, (s.var v).1.count, (s.var v).1.nodeCount⟩)
      (fun _ => .unit) (fun t => upd s.var v (t, id))
  | .insert v p d k mallocs => fun s => call s (s.var v).2 mallocs (ftrieInsert slack c (s.var v).1 p d k)
      (fun _ => .unit) (fun t => upd s.var v (t, (s.var v).2))
  | .remove v k => fun s => call s (s.var v).2 [] (ftrieRemove c (s.var v).1 k)
      (fun r => .val r.2) (fun r => upd s.var v (r.1, (s.var v).2))
  | .removeExisting v p => fun s => call s (s.var v).2 [] (ftrieRemoveExisting c (s.var v).1 p)
      (fun r => .val r.2) (fun r => upd s.var v (r.1, (s.var v).2))
  | .search v k => fun s => call s (s.var v).2 [] (ftrieSearch c (s.var v).1 k) .val (fun _ => s.var)
  | .bucket v k => fun s => call s (s.var v).2 [] (fwalkBucket c (s.var v).1 k) .elems (fun _ => s.var)
  | .count v => fun s => some (.trie (.val (trieCount (s.var v).1)) [], s)
  | .memoryUsage v => fun s => some (.trie (.val (trieMemoryUsage c (s.var v).1)) [], s)
  | .forget _ => fun s => some (.trie .unit [], s)

/-- What malloc() may return when it is called many times for segments: different fresh regions. -/
def MallocsOk (slack : Nat) (u : AllocSpec.Use) (a : AllocSpec.Ab) (size : Nat) (ms : List (Nat × (Nat → Nat))) : Prop :=
  (∀ m ∈ ms, u.base m.1 ∧ a.Fresh slack m.1 size ∧ ∀ x, m.2 x < 256) ∧
  ms.Pairwise fun m m' => m.1 + size + slack ≤ m'.1 ∨ m'.1 + size + slack ≤ m.1

/-- What the program must respect, besides the rules of malloc() and of the allocators: the memory of the tries in use
    is neither written nor released. -/
def legal (slack : Nat) (u : AllocSpec.Use) (c : TrieCfg) (a : Ab) : Op → Prop
  | .al op => AllocSpec.legal slack u a.al op ∧ match op with
      | .alloc _ _ content | .emalloc _ _ content => ∀ x, content x < 256
      | .ewrite x v => v < 256 ∧ ¬ a.Busy c x
      | .free id p => ∀ P, a.al.pool id = some P → a.Clear c p P.bs
      | .done id => ∀ P, a.al.pool id = some P → ∀ p ∈ P.used, a.Clear c p P.bs
      | .efree b => ∀ n, a.al.env b = some n → a.Clear c b n
      | _ => True
  | .init v base id => (∃ P, a.al.pool id = some P ∧ P.bs = c.blockSize) ∧ Inside a.al base (structSize c) ∧
      (a.forget v).Clear c base (structSize c)
  | .insert v p d k mallocs => ∃ T P, a.val v = some T ∧ a.al.pool T.id = some P ∧ Inside a.al p nodeSize ∧ a.Clear c p nodeSize ∧
      p % 2 = 0 ∧ d < 2 ^ sizeBit ∧ k < 2 ^ c.bit ∧ levels c ≤ mallocs.length ∧
      MallocsOk slack u a.al (AllocSpec.segSize P.bs P.al) mallocs
  | .remove v k | .search v k | .bucket v k => (a.val v).isSome ∧ k < 2 ^ c.bit
  | .removeExisting v p => ∃ T, a.val v = some T ∧ p ∈ T.es.map Elem.node
  | .count v | .memoryUsage v => (a.val v).isSome
  | .forget _ => True

/-- An event of a log as a call of the allocator. -/
def event (id : Nat) (a : AllocSpec.Ab) : AEvent → AllocSpec.Ab
  | .got p seg => AllocSpec.next a (.alloc id (seg.getD 0) fun _ => 0) (.block p seg.isSome)
  | .gave p => AllocSpec.next a (.free id p) .unit

def replay (id : Nat) (a : AllocSpec.Ab) (l : List AEvent) : AllocSpec.Ab := l.foldl (event id) a

/-- The blocks returned by the allocator are right; the ones given back are in use. -/
def eventOk (id : Nat) (a : AllocSpec.Ab) : AEvent → Prop
  | .got p seg => AllocSpec.allowed a (.alloc id (seg.getD 0) fun _ => 0) (.block p seg.isSome)
  | .gave p => ∃ P, a.pool id = some P ∧ p ∈ P.used

def Trace (id : Nat) : AllocSpec.Ab → List AEvent → Prop
  | _, [] => True
  | a, e :: l => eventOk id a e ∧ Trace id (event id a e) l

def gots : List AEvent → List Nat
  | [] => []
  | .got p _ :: l => p :: gots l
  | .gave _ :: l => gots l

def gaves : List AEvent → List Nat
  | [] => []
  | .got _ _ :: l => gaves l
  | .gave p :: l => p :: gaves l

/-- An insertion gets at most a block for each level and gives back nothing; a removal gets nothing and gives back
    blocks of the trie, at most once. The other functions do not call the allocator. -/
def allowed (c : TrieCfg) (a : Ab) : Op → Out → Prop
  | .al op, r => ∃ o, r = .al o ∧ AllocSpec.allowed a.al op o
  | .init _ _ _, r | .forget _, r => r = .trie .unit []
  | .insert v _ _ _ mallocs, r => ∀ T, a.val v = some T → ∃ log, r = .trie .unit log ∧ Trace T.id a.al log ∧
      gaves log = [] ∧ log.length ≤ levels c ∧
      ∀ p b, AEvent.got p (some b) ∈ log → b ∈ mallocs.map Prod.fst
  | .remove v k, r => ∀ T, a.val v = some T → ∃ log, r = .trie (.val (((first T.es k).map Elem.data).getD 0)) log ∧
      Trace T.id a.al log ∧ gots log = [] ∧ (gaves log).Nodup ∧ ∀ b ∈ gaves log, b ∈ T.owned
  | .removeExisting v p, r => ∀ T, a.val v = some T → ∃ log, ∃ e ∈ T.es, e.node = p ∧ r = .trie (.val e.data) log ∧
      Trace T.id a.al log ∧ gots log = [] ∧ (gaves log).Nodup ∧ ∀ b ∈ gaves log, b ∈ T.owned
  | .search v k, r => ∀ T, a.val v = some T → r = .trie (.val (((first T.es k).map Elem.data).getD 0)) []
  | .bucket v k, r => ∀ T, a.val v = some T → r = .trie (.elems (T.es.filter fun e => e.hash = k)) []
  | .count v, r => ∀ T, a.val v = some T → r = .trie (.val T.es.length) []
  | .memoryUsage v, r => ∀ T, a.val v = some T →
      r = .trie (.val ((T.es.length * nodeSize + T.owned.length * (c.treeMax * ptrSize)) % 2 ^ sizeBit)) []

/-- The elements of a trie change, and the trie and the allocator exchange some blocks. -/
def Ab.onTrie (a : Ab) (v : Nat) (log : List AEvent) (f : List Elem → List Elem) : Ab :=
  match a.val v with
  | none => a
  | some T => ⟨replay T.id a.al log, upd a.val v (some { T with
      es := f T.es, owned := (T.owned ++ gots log).filter fun b => b ∉ gaves log })⟩

def next (a : Ab) : Op → Out → Ab
  | .al op, .al r => { a with al := AllocSpec.next a.al op r }
  | .init v base id, _ => { a with val := upd a.val v (some ⟨base, id, [], []⟩) }
  | .insert v p d k _, .trie _ log => a.onTrie v log fun es => es ++ [⟨p, d, k⟩]
  | .remove v k, .trie _ log => a.onTrie v log fun es => es.eraseP fun e => e.hash = k
  | .removeExisting v p, .trie _ log => a.onTrie v log fun es => es.filter fun e => e.node ≠ p
  | .forget v, _ => a.forget v
  | _, _ => a

/-- The start: no allocator, no trie, and any memory without live regions. -/
def sys (slack : Nat) (u : AllocSpec.Use) (c : TrieCfg) : Sys St Ab Op Out where
  init s a := (∀ b, s.mem.live b = none) ∧ (∀ x, s.mem.byte x < 256) ∧ (∀ id, s.al id = none) ∧
    (∀ id, a.al.pool id = none) ∧ (∀ b, a.al.env b = none) ∧ ∀ v, a.val v = none
  step := step slack c
  legal := legal slack u c
  allowed := allowed c
  next := next

/-- The calls (not what the rest of the program does). -/
def isCall : Op → Prop
  | .al op => AllocSpec.isCall op
  | _ => True

/-- The bytes of the user that a call may write: for a trie, its struct, its blocks, the nodes with the same key, and
    the node inserted. A block given back by the user to the allocator is not of the user anymore. -/
def mayByte (c : TrieCfg) (a : Ab) : Op → Nat → Prop
  | .init _ base _, x => base ≤ x ∧ x < base + structSize c
  | .insert v p _ k _, x => (p ≤ x ∧ x < p + nodeSize) ∨ ∃ T, a.val v = some T ∧
      TrieAb.Byte c { T with es := T.es.filter fun e => e.hash = k } x
  | .remove v k, x => ∃ T, a.val v = some T ∧ TrieAb.Byte c { T with es := T.es.filter fun e => e.hash = k } x
  | .removeExisting v p, x => ∃ T, a.val v = some T ∧ ∃ f ∈ T.es, f.node = p ∧
      TrieAb.Byte c { T with es := T.es.filter fun e => e.hash = f.hash } x
  | _, _ => False

end FlatSpec
end Tommy
