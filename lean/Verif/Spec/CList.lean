import Verif.C.Prog
import Verif.Spec.CArray
/-!
  Specification of a program which uses any number of lists, as they are written in C (C81), in one memory of bytes: the calls execute the text of
  the functions, translated in `Verif/C/SrcList.lean`, with the meaning of `Verif/C/Sem.lean`.

  The program puts the lists and the nodes at any place of its memory. Between the calls it does anything with the rest of the memory, the
  field `data` of the nodes included: it writes it, and it allocates and deallocates memory.

  tommy_list_sort() is not here (see C03–C05).
-/
set_option autoImplicit false
namespace Tommy

variable [Arch]
namespace CListSpec
open C (Val Ext)
open CArraySpec (Ok InReg)

/-- The functions of `Op` call no function by a pointer. -/
def ext : Ext := fun _ _ => C.fail

/-- tommytypes.h:195-221: sizeof() of the node, and the offset of the field `data`. -/
def nodeSize : Nat := 4 * ptrSize
def datOff : Nat := 2 * ptrSize

/-- tommylist.h:107: the list is a pointer to a node. The values given to the functions. -/
def pList (t : Nat) : Val := ⟨.ptr (.ptr (.struct "tommy_node_struct")), t⟩
def pNode (p : Nat) : Val := ⟨.ptr (.struct "tommy_node_struct"), p⟩
def pVoid (d : Nat) : Val := ⟨.ptr .void, d⟩
def pFunc (f : Nat) : Val := ⟨.ptr .fn, f⟩

/-- Abstract state: the memory, and the lists by address: the nodes in order. -/
structure Ab where
  mem : AMem
  tab : Nat → Option (List Nat)

/-- The byte `x` is only for the library: in the list at `t`, or in the fields `next` and `prev` of a node. -/
def links (t : Nat) (l : List Nat) (x : Nat) : Prop :=
  (t ≤ x ∧ x < t + ptrSize) ∨ ∃ p ∈ l, p ≤ x ∧ x < p + 2 * ptrSize

/-- The byte `x` is of the list at `t`: the same, with the field `data`. -/
def internal (t : Nat) (l : List Nat) (x : Nat) : Prop :=
  (t ≤ x ∧ x < t + ptrSize) ∨ ∃ p ∈ l, p ≤ x ∧ x < p + 3 * ptrSize

/-- No list uses the `n` bytes from `p`. -/
def Ab.Free (a : Ab) (p n : Nat) : Prop := ∀ x, p ≤ x → x < p + n → ∀ t l, a.tab t = some l → ¬ internal t l x

inductive Op
  | init (t : Nat)
  | head (t : Nat)
  | tail (t : Nat)
  | insertHead (t node data : Nat)
  | insertTail (t node data : Nat)
  | remove (t node : Nat)
  | concat (first second : Nat)
  | empty (t : Nat)
  | count (t : Nat)
  /- the rest of the program: a list is not used any more; the memory becomes `w` -/
  | drop (t : Nat)
  | foreign (w : AMem)

/-- The result of a call, the calls of malloc() and free() that it did, and the memory after it. -/
structure Out where
  res : Nat
  log : List BEvent
  mem : AMem

/-- Execution of a function. -/
def call (f : String) (vs : List Val) : StateT AMem Option Out := fun w =>
  (C.run ext f vs ⟨w, [], []⟩).map fun r => (⟨r.1.v, r.2.log, r.2.mem⟩, r.2.mem)

/-- Execution. -/
def step : Op → StateT AMem Option Out
  | .init t => call "tommy_list_init" [pList t]
  | .head t => call "tommy_list_head" [pList t]
  | .tail t => call "tommy_list_tail" [pList t]
  | .insertHead t node data => call "tommy_list_insert_head" [pList t, pNode node, pVoid data]
  | .insertTail t node data => call "tommy_list_insert_tail" [pList t, pNode node, pVoid data]
  | .remove t node => call "tommy_list_remove_existing" [pList t, pNode node]
  | .concat t u => call "tommy_list_concat" [pList t, pList u]
  | .empty t => call "tommy_list_empty" [pList t]
  | .count t => call "tommy_list_count" [pList t]
  | .drop _ => fun w => some (⟨0, [], w⟩, w)
  | .foreign w' => fun _ => some (⟨0, [], w'⟩, w')

/-- What the program may do. -/
def legal (a : Ab) : Op → Prop
  | .init t => InReg a.mem t ptrSize ∧ a.Free t ptrSize
  | .head t | .tail t | .empty t | .count t | .drop t => ∃ l, a.tab t = some l
  /- the node is not in a list -/
  | .insertHead t node data | .insertTail t node data => (∃ l, a.tab t = some l) ∧ InReg a.mem node nodeSize ∧ a.Free node (3 * ptrSize) ∧
      data < 2 ^ sizeBit
  | .remove t node => ∃ l, a.tab t = some l ∧ node ∈ l
  | .concat t u => t ≠ u ∧ (∃ l, a.tab t = some l) ∧ ∃ l, a.tab u = some l
  | .foreign w => Ok w ∧ ∀ t l, a.tab t = some l → InReg w t ptrSize ∧ (∀ p ∈ l, InReg w p nodeSize) ∧ ∀ x, links t l x → w.byte x = a.mem.byte x

def next (a : Ab) (op : Op) (r : Out) : Ab where
  mem := r.mem
  tab := match op with
    | .init t => upd a.tab t (some [])
    | .insertHead t node _ => upd a.tab t ((a.tab t).map fun l => node :: l)
    | .insertTail t node _ => upd a.tab t ((a.tab t).map fun l => l ++ [node])
    | .remove t node => upd a.tab t ((a.tab t).map fun l => l.erase node)
    /- the second list is not to be used any more (tommylist.h:260-261) -/
    | .concat t u => upd (upd a.tab u none) t ((a.tab t).map fun l => l ++ (a.tab u).getD [])
    | .drop t => upd a.tab t none
    | _ => a.tab

/-- What a call returns, and the field `data` of the node inserted. -/
def result (a : Ab) : Op → Out → Prop
  | .head t, r => ∀ l, a.tab t = some l → r.res = l.head?.getD 0
  | .tail t, r => ∀ l, a.tab t = some l → r.res = l.getLast?.getD 0
  | .insertHead _ node data, r | .insertTail _ node data, r => rdN r.mem.byte (node + datOff) ptrSize = data
  | .remove _ node, r => r.res = rdN a.mem.byte (node + datOff) ptrSize
  | .empty t, r => ∀ l, a.tab t = some l → r.res = if l = [] then 1 else 0
  | .count t, r => ∀ l, a.tab t = some l → r.res = l.length
  | _, _ => True

/-- The bytes that a call can change: no byte of the rest of the nodes. -/
def touched (a : Ab) : Op → Nat → Prop
  | .init t, x => t ≤ x ∧ x < t + ptrSize
  | .insertHead t node _, x | .insertTail t node _, x => (∃ l, a.tab t = some l ∧ links t l x) ∨ (node ≤ x ∧ x < node + 3 * ptrSize)
  | .remove t _, x => ∃ l, a.tab t = some l ∧ links t l x
  | .concat t u, x => (∃ l, a.tab t = some l ∧ links t l x) ∨ ∃ l, a.tab u = some l ∧ links u l x
  | _, _ => False

def Op.isForeign : Op → Prop
  | .foreign _ => True
  | _ => False

/-- What a call does: the result, no call of malloc() and free(), and no other change of the memory. -/
def allowed (a : Ab) (op : Op) (r : Out) : Prop :=
  result a op r ∧ r.log = [] ∧ (¬ op.isForeign → r.mem.live = a.mem.live ∧ ∀ x, ¬ touched a op x → r.mem.byte x = a.mem.byte x)

/-- The program starts without lists, in any memory. -/
def sys : Sys AMem Ab Op Out where
  init s a := a.mem = s ∧ Ok s ∧ ∀ t, a.tab t = none
  step := step
  legal := legal
  allowed := allowed
  next := next

/-- The list at `t` as any code can walk on it: by `next` from the list, and by `prev` from the node to the tail of which the head has the address. -/
def Walk (w : AMem) (t : Nat) (l : List Nat) : Prop :=
  rdN w.byte t ptrSize = l.head?.getD 0 ∧
  (∀ i, (h : i < l.length) → rdN w.byte l[i] ptrSize = (l[i + 1]?).getD 0) ∧
  (∀ i, (h : i + 1 < l.length) → rdN w.byte (l[i + 1] + ptrSize) ptrSize = l[i]) ∧
  ∀ p, l.head? = some p → rdN w.byte (p + ptrSize) ptrSize = l.getLast?.getD 0

/-- The fields `next` and `data` of the nodes in `l` are the same. -/
def Same (s w : AMem) (l : List Nat) : Prop :=
  ∀ p ∈ l, InReg w p nodeSize ∧ rdN w.byte p ptrSize = rdN s.byte p ptrSize ∧
    rdN w.byte (p + datOff) ptrSize = rdN s.byte (p + datOff) ptrSize

/-- The function called once for each one. -/
def callAll (func : Nat → BM Unit) : List Nat → BM Unit
  | [] => pure ()
  | d :: ds => do func d; callAll func ds

end CListSpec
end Tommy
