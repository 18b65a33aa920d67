import Verif.Model.Tree
import Verif.Spec.List
import Verif.Spec.Hash
import Mathlib.Data.Nat.Fib.Basic
/-
  Specification of tommytree: sets without equal elements.

  Any number of trees (variables numbered by `Nat`), with different comparison functions, share one
  memory.  The history can contain, between the calls, arbitrary writes to the nodes in no tree, and
  allocation and deallocation of them.
-/
set_option autoImplicit false
namespace Tommy

variable [Arch]
namespace TreeSpec
open ListSpec (TotalPreorder)
open HashSpec (Fits LiveOk)

/-- A set: its order and its elements (node, payload), in insertion order. -/
structure OSet where
  cmp : Nat → Nat → Int
  elems : List (Ptr × Nat)

/-- The element of the set equal to `d`. -/
def OSet.find (o : OSet) (d : Nat) : Option (Ptr × Nat) := o.elems.find? fun e => o.cmp d e.2 = 0

/-- Concrete state: the node memory and the `tommy_tree` variables. -/
structure St where
  heap : Heap
  var : Nat → Tree

/-- Abstract state. `val v = none` when the variable `v` is not initialised; `live p` when there is a
    node object at `p`. -/
structure Ab where
  val : Nat → Option OSet
  live : Ptr → Bool

def Ab.stored (a : Ab) (p : Ptr) : Prop := ∃ v o, a.val v = some o ∧ p ∈ o.elems.map Prod.fst

inductive Op
  | init (v : Nat) (cmp : Nat → Nat → Int)
  | insert (v : Nat) (p : Ptr) (d : Nat)
  | remove (v : Nat) (d : Nat)
  | removeExisting (v : Nat) (p : Ptr)
  | search (v : Nat) (d : Nat)
  | searchCompare (v : Nat) (cmp : Nat → Nat → Int) (arg : Nat)
  | count (v : Nat)
  | memoryUsage (v : Nat)
  /- things that the client does to the memory -/
  | alloc (p : Ptr)
  | free (p : Ptr)
  | scribble (p : Ptr) (next prev : Ptr) (data index : Nat)

inductive Out
  | unit
  | val (n : Nat)

/-- Execution of a call on the model. -/
def step : Op → StateT St Option Out
  | .init v cmp => fun s => some (.unit, { s with var := upd s.var v (treeInit cmp) })
  | .insert v p d => fun s => (treeInsert (s.var v) p d s.heap).map fun r =>
      (.val r.1.2, ⟨r.2, upd s.var v r.1.1⟩)
  | .remove v d => fun s => (treeRemove (s.var v) d s.heap).map fun r =>
      (.val r.1.2, ⟨r.2, upd s.var v r.1.1⟩)
  | .removeExisting v p => fun s => (treeRemoveExisting (s.var v) p s.heap).map fun r =>
      (.val r.1.2, ⟨r.2, upd s.var v r.1.1⟩)
  | .search v d => fun s => (treeSearch (s.var v) d s.heap).map fun r => (.val r.1, { s with heap := r.2 })
  | .searchCompare v cmp arg => fun s =>
      (treeSearchCompare (s.var v) cmp arg s.heap).map fun r => (.val r.1, { s with heap := r.2 })
  | .count v => fun s => some (.val (treeCount (s.var v)), s)
  | .memoryUsage v => fun s => some (.val (treeMemoryUsage (s.var v)), s)
  | .alloc p => fun s => some (.unit, { s with heap := { s.heap with valid := upd s.heap.valid p true } })
  | .free p => fun s => some (.unit, { s with heap := { s.heap with valid := upd s.heap.valid p false } })
  | .scribble p n q d i => fun s => some (.unit, { s with heap := { s.heap with
      next := upd s.heap.next p n, prev := upd s.heap.prev p q,
      data := upd s.heap.data p d, index := upd s.heap.index p i } })

/-- The function `f` goes from positive, to zero, to negative along the order of the set. -/
def Monotone (o : OSet) (f : Nat → Int) : Prop :=
  ∀ x ∈ o.elems, ∀ y ∈ o.elems, o.cmp x.2 y.2 < 0 → (f x.2 < 0 → f y.2 < 0) ∧ (f y.2 > 0 → f x.2 > 0)

/-- What the client may do. -/
def legal (a : Ab) : Op → Prop
  | .init _ cmp => TotalPreorder cmp
  | .insert v p _ => (a.val v).isSome ∧ a.live p = true ∧ ¬ a.stored p
  | .remove v _ | .search v _ | .count v | .memoryUsage v => (a.val v).isSome
  | .removeExisting v p => ∃ o e, a.val v = some o ∧ e ∈ o.elems ∧ e.1 = p ∧ e.2 ≠ 0
  | .searchCompare v cmp arg => ∃ o, a.val v = some o ∧ Monotone o (cmp arg)
  | .alloc p => Fits a.live p
  | .free p => a.live p = true ∧ ¬ a.stored p
  | .scribble p _ _ _ _ => a.live p = true ∧ ¬ a.stored p

def allowed (a : Ab) : Op → Out → Prop
  | .init _ _, r | .alloc _, r | .free _, r | .scribble _ _ _ _ _, r => r = .unit
  | .insert v _ d, r => ∀ o, a.val v = some o → r = .val (((o.find d).map Prod.snd).getD d)
  | .remove v d, r | .search v d, r => ∀ o, a.val v = some o → r = .val (((o.find d).map Prod.snd).getD 0)
  | .removeExisting v p, r => ∀ o, a.val v = some o → ∃ e ∈ o.elems, e.1 = p ∧ r = .val e.2
  | .searchCompare v cmp arg, r => ∀ o, a.val v = some o →
      (∃ e ∈ o.elems, cmp arg e.2 = 0 ∧ r = .val e.2) ∨ ((∀ e ∈ o.elems, cmp arg e.2 ≠ 0) ∧ r = .val 0)
  | .count v, r => ∀ o, a.val v = some o → r = .val o.elems.length
  | .memoryUsage v, r => ∀ o, a.val v = some o → r = .val (nodeSize * o.elems.length)

/-- Change a set. -/
def Ab.onSet (a : Ab) (v : Nat) (f : OSet → List (Ptr × Nat)) : Ab :=
  { a with val := upd a.val v ((a.val v).map fun o => { o with elems := f o }) }

def next (a : Ab) : Op → Out → Ab
  | .init v cmp, _ => { a with val := upd a.val v (some ⟨cmp, []⟩) }
  | .insert v p d, _ => a.onSet v fun o => if (o.find d).isSome then o.elems else o.elems ++ [(p, d)]
  | .remove v d, _ => a.onSet v fun o => o.elems.filter fun e => o.cmp d e.2 ≠ 0
  | .removeExisting v p, _ => a.onSet v fun o => o.elems.filter fun e => e.1 ≠ p
  | .alloc p, _ => { a with live := upd a.live p true }
  | .free p, _ => { a with live := upd a.live p false }
  | _, _ => a

/-- Initially no tree; the memory has any content, and any set of nodes is live. -/
def sys : Sys St Ab Op Out where
  init s a := (∀ v, a.val v = none) ∧ a.live = s.heap.valid ∧ LiveOk a.live
  step := step
  legal := legal
  allowed := allowed
  next := next

/-! Observations of the memory. -/

/-- In the memory `h` there is a path of `n` nodes going down from `p`. -/
inductive Path (h : Heap) : Ptr → Nat → Prop
  | nil {p} : Path h p 0
  | prev {p n} : p ≠ 0 → Path h (h.prev p) n → Path h p (n + 1)
  | next {p n} : p ≠ 0 → Path h (h.next p) n → Path h p (n + 1)

/-- The height of the tree at `p` is `n`. -/
inductive HeightIs (h : Heap) : Ptr → Nat → Prop
  | nil : HeightIs h 0 0
  | node {p m n} : p ≠ 0 → HeightIs h (h.prev p) m → HeightIs h (h.next p) n → HeightIs h p (max m n + 1)

/-- The search of tommytree.c:197-213 that fails after `n` calls of the comparison function. -/
def searchWithin (cmp : Nat → Nat → Int) : Nat → Ptr → Nat → HM Ptr
  | 0, root, _ => if root = 0 then return 0 else failure
  | n + 1, root, data => do
    if root = 0 then
      return 0
    let b ← getData root
    if cmp data b < 0 then
      let prev ← getPrev root
      searchWithin cmp n prev data
    else if cmp data b > 0 then
      let next ← getNext root
      searchWithin cmp n next data
    else
      return root

/-- The nodes `xs` are the same in the memories `h` and `h'`. -/
def SameNodes (h h' : Heap) (xs : List Ptr) : Prop :=
  ∀ x ∈ xs, (h.ok x ↔ h'.ok x) ∧ h'.next x = h.next x ∧ h'.prev x = h.prev x ∧ h'.data x = h.data x

/-- The calls (not the client actions). -/
def isCall : Op → Prop
  | .alloc _ | .free _ | .scribble _ _ _ _ _ => False
  | _ => True

/-- The nodes whose links and index a call may change. -/
def mayLink (a : Ab) : Op → Ptr → Prop
  | .insert v p _, q => q = p ∨ ∃ o, a.val v = some o ∧ q ∈ o.elems.map Prod.fst
  | .remove v _, q | .removeExisting v _, q => ∃ o, a.val v = some o ∧ q ∈ o.elems.map Prod.fst
  | _, _ => False

/-- The node whose payload a call may change. -/
def mayData : Op → Ptr → Prop
  | .insert _ p _, q => q = p
  | _, _ => False

/-- The tree variable which a call may change. -/
def mayVar : Op → Nat → Prop
  | .init v _, w | .insert v _ _, w | .remove v _, w | .removeExisting v _, w => w = v
  | _, _ => False

end TreeSpec
end Tommy
