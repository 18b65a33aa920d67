import Verif.C.Prog
import Verif.Spec.Tree
/-!
  Specification of a program which uses any number of trees of tommytree as they are written in C (C78), in one memory of bytes: the calls
  execute the text of the functions, translated in `Verif/C/SrcTree.lean`, with the meaning of `Verif/C/Sem.lean`.

  The program puts the structs of the trees and the nodes at any place of its memory. Between the calls it does anything with the rest of it:
  it writes the other bytes, and it allocates and deallocates memory.
-/
set_option autoImplicit false
namespace Tommy

variable [Arch]
namespace CTreeSpec
open TreeSpec (OSet Monotone)
open ListSpec (TotalPreorder)
open C (Val Ext)

/-- The comparison functions of the program: `K c x y` is what the function at the address `c` returns. -/
abbrev Cmps := Nat → Nat → Nat → Int

/-- The calls by pointer. -/
def ext (K : Cmps) : Ext := fun c vs =>
  match vs with
  | [x, y] => if x.ty = .ptr .void ∧ y.ty = .ptr .void then pure ⟨.s32, (K c x.v y.v % (2 ^ 32 : Nat)).toNat⟩ else C.fail
  | _ => C.fail

/-- The pointers given to the functions. -/
def pTree (t : Nat) : Val := ⟨.ptr (.struct "tommy_tree_struct"), t⟩
def pNode (p : Nat) : Val := ⟨.ptr (.struct "tommy_node_struct"), p⟩
def pVoid (p : Nat) : Val := ⟨.ptr .void, p⟩
def pFunc (p : Nat) : Val := ⟨.ptr .fn, p⟩

/-- Abstract state: the memory, and the sets by address of the struct. -/
structure Ab where
  mem : AMem
  tab : Nat → Option OSet

/-- sizeof(tommy_tree), tommytree.h:118-122. -/
def treeSize : Nat := 3 * ptrSize

/-- The memory of a tree (address, bytes): the struct and the nodes. -/
def blocks (t : Nat) (o : OSet) : List (Nat × Nat) := (t, treeSize) :: o.elems.map fun e => (e.1, nodeSize)

/-- The tree `t` uses the byte `x`. -/
def Ab.uses (a : Ab) (t x : Nat) : Prop := ∃ o, a.tab t = some o ∧ ∃ b ∈ blocks t o, b.1 ≤ x ∧ x < b.1 + b.2

/-- The `n` bytes from `p` are in one region. -/
def InReg (w : AMem) (p n : Nat) : Prop := ∃ b k, w.live b = some k ∧ b ≤ p ∧ p + n ≤ b + k

/-- The program can use the `n` bytes from `p`. -/
def Ab.Avail (a : Ab) (p n : Nat) : Prop := InReg a.mem p n ∧ ∀ x, p ≤ x → x < p + n → ∀ t, ¬ a.uses t x

/-- A memory: bytes, and disjoint regions in the address space. -/
structure Ok (w : AMem) : Prop where
  byte : ∀ x, w.byte x < 256
  pos : ∀ b n, w.live b = some n → 0 < b ∧ b + n < 2 ^ sizeBit
  reg : ∀ b n b' n', w.live b = some n → w.live b' = some n' → b ≠ b' → b + n ≤ b' ∨ b' + n' ≤ b

/-- The place of the variable of the call whose address is taken: `s`, not in use, with any content. -/
structure Ab.Stack (a : Ab) (s : Nat) (content : Nat → Nat) : Prop where
  pos : 0 < s
  lt : s + ptrSize < 2 ^ sizeBit
  none : a.mem.live s = none
  sep : ∀ b n, a.mem.live b = some n → s + ptrSize ≤ b ∨ b + n ≤ s
  byte : ∀ x, content x < 256

/-- The function returns an int. -/
def IsInt (cmp : Nat → Nat → Int) : Prop := ∀ x y, -2 ^ 31 ≤ cmp x y ∧ cmp x y < 2 ^ 31

inductive Op
  | init (t c : Nat)
  /- `s` and `content` are the place of the local variable -/
  | insert (t p d s : Nat) (content : Nat → Nat)
  | remove (t d s : Nat) (content : Nat → Nat)
  | removeExisting (t p s : Nat) (content : Nat → Nat)
  | search (t d : Nat)
  | searchCompare (t c arg : Nat)
  | count (t : Nat)
  | usage (t : Nat)
  /- the rest of the program: a tree is not used any more; the memory becomes `w` -/
  | drop (t : Nat)
  | foreign (w : AMem)

/-- The result of a call, the calls of malloc() and free() that it did, and the memory after it. -/
structure Out where
  res : Nat
  log : List BEvent
  mem : AMem

/-- Execution of a function. -/
def call (K : Cmps) (f : String) (vs : List Val) (ms : List (Nat × (Nat → Nat))) : StateT AMem Option Out := fun w =>
  (C.run (ext K) f vs ⟨w, ms, []⟩).map fun r => (⟨r.1.v, r.2.log, r.2.mem⟩, r.2.mem)

/-- Execution. -/
def step (K : Cmps) : Op → StateT AMem Option Out
  | .init t c => call K "tommy_tree_init" [pTree t, pFunc c] []
  | .insert t p d s ct => call K "tommy_tree_insert" [pTree t, pNode p, pVoid d] [(s, ct)]
  | .remove t d s ct => call K "tommy_tree_remove" [pTree t, pVoid d] [(s, ct)]
  | .removeExisting t p s ct => call K "tommy_tree_remove_existing" [pTree t, pNode p] [(s, ct)]
  | .search t d => call K "tommy_tree_search" [pTree t, pVoid d] []
  | .searchCompare t c arg => call K "tommy_tree_search_compare" [pTree t, pFunc c, pVoid arg] []
  | .count t => call K "tommy_tree_count" [pTree t] []
  | .usage t => call K "tommy_tree_memory_usage" [pTree t] []
  | .drop _ => fun w => some (⟨0, [], w⟩, w)
  | .foreign w' => fun _ => some (⟨0, [], w'⟩, w')

/-- What the program may do. -/
def legal (K : Cmps) (a : Ab) : Op → Prop
  | .init t c => a.Avail t treeSize ∧ TotalPreorder (K c) ∧ IsInt (K c) ∧ c < 2 ^ sizeBit
  | .insert t p d s ct => (a.tab t).isSome ∧ a.Avail p nodeSize ∧ d < 2 ^ sizeBit ∧ a.Stack s ct
  | .remove t _ s ct => (a.tab t).isSome ∧ a.Stack s ct
  | .removeExisting t p s ct => (∃ o e, a.tab t = some o ∧ e ∈ o.elems ∧ e.1 = p ∧ e.2 ≠ 0) ∧ a.Stack s ct
  | .search t _ | .count t | .usage t | .drop t => (a.tab t).isSome
  | .searchCompare t c arg => ∃ o, a.tab t = some o ∧ Monotone o (K c arg) ∧ IsInt (K c)
  | .foreign w => Ok w ∧ ∀ t o, a.tab t = some o → ∀ b ∈ blocks t o, InReg w b.1 b.2 ∧ ∀ x, b.1 ≤ x → x < b.1 + b.2 → w.byte x = a.mem.byte x

/-- What a call returns. -/
def result (a : Ab) : Op → Nat → Prop
  | .insert t _ d _ _, r => ∀ o, a.tab t = some o → r = ((o.find d).map Prod.snd).getD d
  | .remove t d _ _, r | .search t d, r => ∀ o, a.tab t = some o → r = ((o.find d).map Prod.snd).getD 0
  | .removeExisting t p _ _, r => ∀ o, a.tab t = some o → ∃ e ∈ o.elems, e.1 = p ∧ r = e.2
  | .count t, r => ∀ o, a.tab t = some o → r = o.elems.length
  | .usage t, r => ∀ o, a.tab t = some o → r = nodeSize * o.elems.length
  | _, _ => True

/-- A custom search returns an equal element. -/
def resultCompare (K : Cmps) (a : Ab) : Op → Nat → Prop
  | .searchCompare t c arg, r => ∀ o, a.tab t = some o →
      (∃ e ∈ o.elems, K c arg e.2 = 0 ∧ r = e.2) ∨ ((∀ e ∈ o.elems, K c arg e.2 ≠ 0) ∧ r = 0)
  | _, _ => True

/-- The tree of a call which can change it. -/
def Op.writes : Op → Option Nat
  | .insert t _ _ _ _ | .remove t _ _ _ | .removeExisting t _ _ _ => some t
  | _ => none

/-- The new memory given to a call. -/
def Op.given : Op → Nat → Prop
  | .init t _, x => t ≤ x ∧ x < t + treeSize
  | .insert _ p _ _ _, x => p ≤ x ∧ x < p + nodeSize
  | _, _ => False

def Op.isForeign : Op → Prop
  | .foreign _ => True
  | _ => False

/-- The set after a call. -/
def after (o : OSet) : Op → OSet
  | .insert _ p d _ _ => { o with elems := if (o.find d).isSome then o.elems else o.elems ++ [(p, d)] }
  | .remove _ d _ _ => { o with elems := o.elems.filter fun e => o.cmp d e.2 ≠ 0 }
  | .removeExisting _ p _ _ => { o with elems := o.elems.filter fun e => e.1 ≠ p }
  | _ => o

def next (K : Cmps) (a : Ab) (op : Op) (r : Out) : Ab where
  mem := r.mem
  tab := match op with
    | .init t c => upd a.tab t (some ⟨K c, []⟩)
    | .drop t => upd a.tab t none
    | .insert t _ _ _ _ | .remove t _ _ _ | .removeExisting t _ _ _ => upd a.tab t ((a.tab t).map fun o => after o op)
    | _ => a.tab

/-- The payloads are in the nodes. -/
def Ab.payloads (a : Ab) : Prop := ∀ t o, a.tab t = some o → ∀ e ∈ o.elems, rdN a.mem.byte (e.1 + nodData) ptrSize = e.2

/-- What a call does: the result, no allocation, the payloads of all the trees in their nodes, and no other change of the memory: the regions
    are the same, and in them only the bytes of the tree and of the memory given to the call can change. -/
def allowed (K : Cmps) (a : Ab) (op : Op) (r : Out) : Prop :=
  result a op r.res ∧ resultCompare K a op r.res ∧ (next K a op r).payloads ∧ r.log = [] ∧ (¬ op.isForeign → r.mem.live = a.mem.live ∧
    ∀ x, InReg a.mem x 1 → (∀ t, op.writes = some t → ¬ a.uses t x) → ¬ op.given x → r.mem.byte x = a.mem.byte x)

/-- Calls of the function of the client, one after the other. -/
def callAll (func : Nat → BM Unit) : List Nat → BM Unit
  | [] => pure ()
  | d :: ds => do func d; callAll func ds

/-- The nodes `xs` of the memory `w` are the same in `w'`. -/
def Same (w w' : AMem) (xs : List Nat) : Prop :=
  ∀ x ∈ xs, InReg w' x nodeSize ∧ ∀ y, x ≤ y → y < x + nodeSize → w'.byte y = w.byte y

/-- The program starts without trees, in any memory. -/
def sys (K : Cmps) : Sys AMem Ab Op Out where
  init s a := a.mem = s ∧ Ok s ∧ ∀ t, a.tab t = none
  step := step K
  legal := legal K
  allowed := allowed K
  next := next K

end CTreeSpec
end Tommy
