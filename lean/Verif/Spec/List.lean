import Verif.Model.List
import Verif.Spec.Sys
/-
  Specification of tommylist: sequences of (node, payload).

  Any number of list variables (numbered by `Nat`) share one memory.  The history can
  contain, between the list calls, arbitrary writes to the nodes which are in no list and to
  the `index` field of any node, and allocation and deallocation of the nodes in no list.
-/
set_option autoImplicit false
namespace Tommy

variable [Arch]
namespace ListSpec

/-- The comparison functions described by the documentation (tommytypes.h:223-236): a total
    preorder, with consistent signs. -/
structure TotalPreorder (cmp : Nat → Nat → Int) : Prop where
  sign : ∀ a b, cmp a b < 0 ↔ cmp b a > 0
  trans : ∀ a b c, cmp a b ≤ 0 → cmp b c ≤ 0 → cmp a c ≤ 0

/-- `out` is `l` sorted by `cmp`: no element is greater than a later one. -/
def Sorted (cmp : Nat → Nat → Int) (out : List (Ptr × Nat)) : Prop :=
  out.Pairwise (fun x y => cmp x.2 y.2 ≤ 0)

/-- The elements equal to any `d` are in the same order in `l` and in `out`. -/
def Stable (cmp : Nat → Nat → Int) (l out : List (Ptr × Nat)) : Prop :=
  ∀ d, out.filter (fun x => cmp d x.2 = 0) = l.filter (fun x => cmp d x.2 = 0)

/-- Concrete state: the node memory and the list variables. -/
structure St where
  heap : Heap
  var : Nat → Ptr

/-- Abstract state. `val v = none` means that the variable `v` does not hold a list (not
    initialised, or consumed by a concat). `live p` means that there is a node object at `p`. -/
structure Ab where
  val : Nat → Option (List (Ptr × Nat))
  live : Ptr → Bool

def Ab.inList (a : Ab) (p : Ptr) : Prop := ∃ v l, a.val v = some l ∧ p ∈ l.map Prod.fst

inductive Op
  | init (v : Nat)
  | insertHead (v : Nat) (p : Ptr) (d : Nat)
  | insertTail (v : Nat) (p : Ptr) (d : Nat)
  | removeExisting (v : Nat) (p : Ptr)
  | concat (v w : Nat)
  | sort (v : Nat) (cmp : Nat → Nat → Int)
  | head (v : Nat)
  | tail (v : Nat)
  | empty (v : Nat)
  | count (v : Nat)
  | walk (v : Nat)
  /- things that the client does to the memory -/
  | alloc (p : Ptr)
  | free (p : Ptr)
  | scribble (p : Ptr) (next prev : Ptr) (data index : Nat)
  | setIndex (p : Ptr) (index : Nat)

inductive Out
  | unit
  | val (n : Nat)
  | seq (l : List (Ptr × Nat))

/-- The client loop of the documentation, tommylist.h:77-84: visits the nodes from the head
    through `next`, reading the payloads. -/
def walkLoop (i : Ptr) (acc : List (Ptr × Nat)) : HM (List (Ptr × Nat)) := do
  if i = 0 then
    return acc.reverse
  let d ← getData i
  let n ← getNext i
  walkLoop n ((i, d) :: acc)
partial_fixpoint

def walk (list : Ptr) : HM (List (Ptr × Nat)) := walkLoop (listHead list) []

abbrev LM := StateT St Option

/-- Run heap code. -/
def onHeap {α : Type} (m : HM α) : LM α := zoom St.heap (fun s h => { s with heap := h }) m

def getVar (v : Nat) : LM Ptr := fun s => some (s.var v, s)
def setVar (v : Nat) (p : Ptr) : LM Unit := fun s => some ((), { s with var := upd s.var v p })

/-- Execution of a call on the model. -/
def step : Op → LM Out
  | .init v => do setVar v listInit; return .unit
  | .insertHead v p d => do
      let l ← getVar v
      let l' ← onHeap (listInsertHead l p d)
      setVar v l'
      return .unit
  | .insertTail v p d => do
      let l ← getVar v
      let l' ← onHeap (listInsertTail l p d)
      setVar v l'
      return .unit
  | .removeExisting v p => do
      let l ← getVar v
      let r ← onHeap (listRemoveExisting l p)
      setVar v r.1
      return .val r.2
  | .concat v w => do
      let l ← getVar v
      let m ← getVar w
      let l' ← onHeap (listConcat l m)
      setVar v l'
      return .unit
  | .sort v cmp => do
      let l ← getVar v
      let l' ← onHeap (listSort l cmp)
      setVar v l'
      let r ← onHeap (walk l')
      return .seq r
  | .head v => do let l ← getVar v; return .val (listHead l)
  | .tail v => do
      let l ← getVar v
      let t ← onHeap (listTail l)
      return .val t
  | .empty v => do let l ← getVar v; return .val (if listEmpty l then 1 else 0)
  | .count v => do
      let l ← getVar v
      let n ← onHeap (listCount l)
      return .val n
  | .walk v => do
      let l ← getVar v
      let r ← onHeap (walk l)
      return .seq r
  | .alloc p => fun s => some (.unit, { s with heap := { s.heap with valid := upd s.heap.valid p true } })
  | .free p => fun s => some (.unit, { s with heap := { s.heap with valid := upd s.heap.valid p false } })
  | .scribble p n q d i => fun s =>
      some (.unit, { s with heap := { s.heap with
        next := upd s.heap.next p n, prev := upd s.heap.prev p q,
        data := upd s.heap.data p d, index := upd s.heap.index p i } })
  | .setIndex p i => fun s =>
      some (.unit, { s with heap := { s.heap with index := upd s.heap.index p i } })

/-- What the client may do. -/
def legal (a : Ab) : Op → Prop
  | .init _ => True
  | .insertHead v p _ | .insertTail v p _ =>
      (a.val v).isSome ∧ a.live p = true ∧ ¬ a.inList p
  | .removeExisting v p => ∃ l, a.val v = some l ∧ p ∈ l.map Prod.fst
  | .concat v w => v ≠ w ∧ (a.val v).isSome ∧ (a.val w).isSome
  | .sort v _ | .head v | .tail v | .empty v | .count v | .walk v => (a.val v).isSome
  | .alloc p => p ≠ 0 ∧ p < 2 ^ sizeBit ∧ a.live p = false
  | .free p => a.live p = true ∧ ¬ a.inList p
  | .scribble p _ _ _ _ => a.live p = true ∧ ¬ a.inList p
  | .setIndex p _ => a.live p = true

/-- The contents of the list `v` (`[]` when undefined). -/
def Ab.get (a : Ab) (v : Nat) : List (Ptr × Nat) := (a.val v).getD []

def allowed (a : Ab) : Op → Out → Prop
  | .init _, r | .insertHead _ _ _, r | .insertTail _ _ _, r | .concat _ _, r
  | .alloc _, r | .free _, r | .scribble _ _ _ _ _, r | .setIndex _ _, r => r = .unit
  | .removeExisting v p, r => ∃ d, r = .val d ∧ (p, d) ∈ a.get v
  | .sort v cmp, r => ∃ l', r = .seq l' ∧ l'.Perm (a.get v) ∧
      (TotalPreorder cmp → Sorted cmp l' ∧ Stable cmp (a.get v) l')
  | .head v, r => r = .val (((a.get v).map Prod.fst).headD 0)
  | .tail v, r => r = .val (((a.get v).map Prod.fst).getLastD 0)
  | .empty v, r => r = .val (if a.get v = [] then 1 else 0)
  | .count v, r => r = .val (a.get v).length
  | .walk v, r => r = .seq (a.get v)

def next (a : Ab) : Op → Out → Ab
  | .init v, _ => { a with val := upd a.val v (some []) }
  | .insertHead v p d, _ => { a with val := upd a.val v (some ((p, d) :: a.get v)) }
  | .insertTail v p d, _ => { a with val := upd a.val v (some (a.get v ++ [(p, d)])) }
  | .removeExisting v p, _ =>
      { a with val := upd a.val v (some ((a.get v).filter (fun x => x.1 ≠ p))) }
  | .concat v w, _ => { a with val := upd (upd a.val v (some (a.get v ++ a.get w))) w none }
  | .sort v _, .seq l' => { a with val := upd a.val v (some l') }
  | .alloc p, _ => { a with live := upd a.live p true }
  | .free p, _ => { a with live := upd a.live p false }
  | _, _ => a

/-- Lists with any number of variables. Initially no variable holds a list; the memory has any
    content, and any set of nodes is live. -/
def sys : Sys St Ab Op Out where
  init s a := (∀ v, a.val v = none) ∧ a.live = s.heap.valid ∧ a.live 0 = false ∧
    ∀ p, a.live p = true → p < 2 ^ sizeBit
  step := step
  legal := legal
  allowed := allowed
  next := next

/-- In the memory `h` the list `head` is made of the distinct live nodes `xs`, in this order,
    with matching `next` and `prev`, circular `prev` and 0 terminated `next`. -/
structure WellLinked (h : Heap) (head : Ptr) (xs : List Ptr) : Prop where
  live : ∀ x ∈ xs, x ≠ 0 ∧ h.valid x = true
  distinct : xs.Nodup
  empty : xs = [] → head = 0
  first : ∀ x, xs.head? = some x → head = x
  next_prev : ∀ i x y, xs[i]? = some x → xs[i + 1]? = some y → h.next x = y ∧ h.prev y = x
  circular : ∀ x y, xs.head? = some x → xs.getLast? = some y → h.prev x = y
  terminated : ∀ y, xs.getLast? = some y → h.next y = 0

/-- The list calls (not the client actions). -/
def isCall : Op → Prop
  | .alloc _ | .free _ | .scribble _ _ _ _ _ | .setIndex _ _ => False
  | _ => True

/-- The nodes whose links a call may change. -/
def mayLink (a : Ab) : Op → Ptr → Prop
  | .insertHead v p _, q | .insertTail v p _, q => q = p ∨ q ∈ (a.get v).map Prod.fst
  | .removeExisting v _, q | .sort v _, q => q ∈ (a.get v).map Prod.fst
  | .concat v w, q => q ∈ (a.get v).map Prod.fst ∨ q ∈ (a.get w).map Prod.fst
  | _, _ => False

/-- The node whose payload a call may change. -/
def mayData : Op → Ptr → Prop
  | .insertHead _ p _, q | .insertTail _ p _, q => q = p
  | _, _ => False

/-- The list variable which a call may change. -/
def mayVar : Op → Nat → Prop
  | .init v, w | .insertHead v _ _, w | .insertTail v _ _, w | .removeExisting v _, w
  | .sort v _, w | .concat v _, w => w = v
  | _, _ => False

/-- The nodes `xs` are the same in the memories `h` and `h'`. -/
def SameNodes (h h' : Heap) (xs : List Ptr) : Prop :=
  ∀ x ∈ xs, (h.ok x ↔ h'.ok x) ∧ h'.next x = h.next x ∧ h'.data x = h.data x

/-- Calls `func` on each payload, in order. -/
def callAll (func : Nat → HM Unit) : List Nat → HM Unit
  | [] => pure ()
  | d :: ds => do func d; callAll func ds

end ListSpec
end Tommy
