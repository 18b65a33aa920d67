import Verif.Spec.List
import Verif.Spec.Tree
import Verif.Spec.HashImpl
import Verif.Spec.Trie
import Mathlib.Logic.Function.Basic
/-
  Specification of the containers together: a program with any number of lists, trees, hashtables and
  tries, of all the kinds, with all the nodes in one memory.  An object that contains more nodes can be in more
  containers at the same time, one for each node (tommy.h:71-82).

  Each container keeps its own memory for the rest (the variables, the vectors of the hashtables, the
  structs and the blocks of the tries): that malloc() and the allocator of the tries return memory not used by others is
  assumed here (see Spec/TrieFlat.lean for tries and allocators in one memory).
-/
set_option autoImplicit false
namespace Tommy

variable [Arch]
namespace World
open HashSpec (Elem Fits LiveOk)

/-- A container seen as a part of a program: the system of its specification, with the state split in the
    memory of the nodes and in the rest, which is private; the same for the abstract state. -/
structure Part where
  S : Type
  A : Type
  Op : Type
  Out : Type
  sys : Sys S A Op Out
  /-- the private part of the state -/
  P : Type
  mkS : Heap → P → S
  heap : S → Heap
  priv : S → P
  /-- the private part of the abstract state -/
  B : Type
  mkA : (Ptr → Bool) → B → A
  privA : A → B
  /-- the nodes in the container -/
  stored : B → Ptr → Prop
  /-- the calls of the library, not the actions of the program on the nodes -/
  own : Op → Prop
  /-- the node that the program passes to a call to be inserted -/
  given : Op → Option Ptr

/-- Any number of lists (Spec/List.lean). -/
def listPart : Part where
  S := ListSpec.St
  A := ListSpec.Ab
  Op := ListSpec.Op
  Out := ListSpec.Out
  sys := ListSpec.sys
  P := Nat → Ptr
  mkS h x := ⟨h, x⟩
  heap := ListSpec.St.heap
  priv := ListSpec.St.var
  B := Nat → Option (List (Ptr × Nat))
  mkA l b := ⟨b, l⟩
  privA := ListSpec.Ab.val
  stored b p := ∃ v l, b v = some l ∧ p ∈ l.map Prod.fst
  own := ListSpec.isCall
  given
    | .insertHead _ p _ | .insertTail _ p _ => some p
    | _ => none

/-- Any number of trees, with different comparison functions (Spec/Tree.lean). -/
def treePart : Part where
  S := TreeSpec.St
  A := TreeSpec.Ab
  Op := TreeSpec.Op
  Out := TreeSpec.Out
  sys := TreeSpec.sys
  P := Nat → Tree
  mkS h x := ⟨h, x⟩
  heap := TreeSpec.St.heap
  priv := TreeSpec.St.var
  B := Nat → Option TreeSpec.OSet
  mkA l b := ⟨b, l⟩
  privA := TreeSpec.Ab.val
  stored b p := ∃ v o, b v = some o ∧ p ∈ o.elems.map Prod.fst
  own := TreeSpec.isCall
  given
    | .insert _ p _ => some p
    | _ => none

/-- What is private of a hashtable: the vectors and the struct. -/
structure HashPriv (T : Type) where
  vlen : Nat → Option Nat
  vcell : Nat → Nat → Option Ptr
  vnext : Nat
  tbl : T

/-- The system of a hashtable initialised in any memory. -/
def hashSys {T : Type} (I : HashSpec.Impl T) (start : MM T) : Sys (HashSpec.St T) HashSpec.Ab HashSpec.Op HashSpec.Out where
  init s a := ∃ m0, (HashSpec.sys I start m0).init s a
  step := HashSpec.step I
  legal := HashSpec.legal
  allowed := HashSpec.allowed
  next := HashSpec.next

/-- A hashtable (Spec/Hash.lean). -/
def hashPart {T : Type} (I : HashSpec.Impl T) (start : MM T) : Part where
  S := HashSpec.St T
  A := HashSpec.Ab
  Op := HashSpec.Op
  Out := HashSpec.Out
  sys := hashSys I start
  P := HashPriv T
  mkS h x := ⟨⟨h, x.vlen, x.vcell, x.vnext⟩, x.tbl⟩
  heap s := s.mem.heap
  priv s := ⟨s.mem.vlen, s.mem.vcell, s.mem.vnext, s.tbl⟩
  B := List Elem
  mkA l b := ⟨b, l⟩
  privA := HashSpec.Ab.elems
  stored b p := p ∈ b.map Elem.node
  own := HashSpec.isCall
  given
    | .insert p _ _ => some p
    | _ => none

/-- What is private of the tries: the structs, the blocks, the allocator, and the variables. -/
structure TriePriv where
  cell : Ptr → Nat → Ptr
  csize : Ptr → Nat
  supply : List Ptr
  freed : List Ptr
  var : Nat → Trie

/-- The abstract state of the tries, without the nodes. -/
structure TrieAb where
  val : Nat → Option (List Elem)
  owned : Nat → List Ptr
  busy : Ptr → Bool

/-- Any number of tries (Spec/Trie.lean). The writes to the free blocks are private of the part. -/
def triePart (c : TrieCfg) : Part where
  S := TrieSpec.St
  A := TrieSpec.Ab
  Op := TrieSpec.Op
  Out := TrieSpec.Out
  sys := TrieSpec.sys c
  P := TriePriv
  mkS h x := ⟨⟨h, x.cell, x.csize, x.supply, x.freed⟩, x.var⟩
  heap s := s.mem.heap
  priv s := ⟨s.mem.cell, s.mem.csize, s.mem.supply, s.mem.freed, s.var⟩
  B := TrieAb
  mkA l b := ⟨b.val, b.owned, l, b.busy⟩
  privA a := ⟨a.val, a.owned, a.busy⟩
  stored b p := ∃ v es, b.val v = some es ∧ p ∈ es.map Elem.node
  own op := TrieSpec.isCall op ∨ ∃ b f, op = .junk b f
  given
    | .insert _ p _ _ _ => some p
    | _ => none

/-- The kinds of containers with nodes of type `tommy_node`. A `tommy_hashtable` has at most `maxBuckets` buckets (see C18). -/
inductive Kind
  | list
  | tree
  | hashtable (buckets : Nat) (h : buckets ≤ HashSpec.maxBuckets)
  | hashdyn
  | hashlin
  | trie (c : TrieCfg) (h : TrieSpec.CfgOk c)

def Kind.part : Kind → Part
  | .list => listPart
  | .tree => treePart
  | .hashtable n _ => hashPart HashSpec.hashtableImpl (hashtableInit n)
  | .hashdyn => hashPart HashSpec.hashdynImpl hashdynInit
  | .hashlin => hashPart HashSpec.hashlinImpl hashlinInit
  | .trie c _ => triePart c

/-- What the program does to the nodes. -/
inductive Action
  | alloc (p : Ptr)
  | free (p : Ptr)
  | scribble (p : Ptr) (next prev : Ptr) (data index : Nat)

/-- The effect on the memory. -/
def Action.run : Action → Heap → Heap
  | .alloc p, h => { h with valid := upd h.valid p true }
  | .free p, h => { h with valid := upd h.valid p false }
  | .scribble p n q d i, h => { h with
      next := upd h.next p n, prev := upd h.prev p q, data := upd h.data p d, index := upd h.index p i }

/-- The effect on the set of the live nodes. -/
def Action.live : Action → (Ptr → Bool) → Ptr → Bool
  | .alloc p, l => upd l p true
  | .free p, l => upd l p false
  | .scribble _ _ _ _ _, l => l

/-- A node can be allocated where there is room, and written and deallocated when it is in no container. -/
def Action.legal (live : Ptr → Bool) (stored : Ptr → Prop) : Action → Prop
  | .alloc p => Fits live p
  | .free p | .scribble p _ _ _ _ => live p = true ∧ ¬ stored p

/-! The program: the containers are numbered, the number `i` is `ks i`. -/

variable (ks : Nat → Part)

/-- Concrete state: the memory of the nodes, and what each container has of its own. -/
structure St where
  heap : Heap
  priv : ∀ i, (ks i).P

/-- Abstract state: the live nodes, and the content of each container. -/
structure Ab where
  live : Ptr → Bool
  val : ∀ i, (ks i).B

inductive Op
  | call (i : Nat) (op : (ks i).Op)
  | act (c : Action)

inductive Out
  | call (i : Nat) (out : (ks i).Out)
  | act

variable {ks}

/-- The state that the container `i` sees. -/
def St.at (s : St ks) (i : Nat) : (ks i).S := (ks i).mkS s.heap (s.priv i)

/-- The abstract state of the container `i`, as if it were alone. -/
def Ab.at (a : Ab ks) (i : Nat) : (ks i).A := (ks i).mkA a.live (a.val i)

/-- The node is in the container `i`. -/
def Ab.stored (a : Ab ks) (i : Nat) (p : Ptr) : Prop := (ks i).stored (a.val i) p

variable (ks)

/-- Execution: a call of the container `i` is executed in the common memory. -/
def step : Op ks → StateT (St ks) Option (Out ks)
  | .call i op => fun s => ((ks i).sys.step op (s.at i)).map fun r =>
      (.call i r.1, ⟨(ks i).heap r.2, Function.update s.priv i ((ks i).priv r.2)⟩)
  | .act c => fun s => some (.act, { s with heap := c.run s.heap })

/-- A call is legal as if the container were alone, but the node to insert must not be in another container. -/
def legal (a : Ab ks) : Op ks → Prop
  | .call i op => (ks i).own op ∧ (ks i).sys.legal (a.at i) op ∧
      ∀ p, (ks i).given op = some p → ∀ j, j ≠ i → ¬ a.stored j p
  | .act c => c.legal a.live fun p => ∃ i, a.stored i p

/-- The result is the one of the container as if it were alone. -/
def allowed (a : Ab ks) : Op ks → Out ks → Prop
  | .call i op, r => ∃ out, r = .call i out ∧ (ks i).sys.allowed (a.at i) op out
  | .act _, r => r = .act

/-- A call changes only its container. -/
def next (a : Ab ks) : Op ks → Out ks → Ab ks
  | .call i op, .call j out => if h : j = i then
      { a with val := Function.update a.val i ((ks i).privA ((ks i).sys.next (a.at i) op (h ▸ out))) } else a
  | .act c, _ => { a with live := c.live a.live }
  | _, _ => a

/-- Initially the containers are initialised, and empty, in a memory with any content. -/
def sys : Sys (St ks) (Ab ks) (Op ks) (Out ks) where
  init s a := a.live = s.heap.valid ∧ LiveOk a.live ∧ ∀ i, (ks i).sys.init (s.at i) (a.at i)
  step := step ks
  legal := legal ks
  allowed := allowed ks
  next := next ks

end World
end Tommy
