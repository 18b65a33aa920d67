import Verif.Model.Heap
import Verif.Model.Arch
/-
  Model of tommylist.h, tommylist.c and tommychain.h.

  A `tommy_list` is a `tommy_node*`.  A C function which takes a `tommy_list* list` and
  assigns `*list` becomes a function which takes the value of `*list` and returns its new
  value.  A function which does not assign `*list` just takes the value.
  `tommy_compare_func` is a pure function `Nat → Nat → Int` of the two `data` pointers.
-/
set_option autoImplicit false
namespace Tommy

variable [Arch]

/-- tommylist.h:114-117 `tommy_list_init` (the new value of `*list`). -/
def listInit : Ptr := 0

/-- tommylist.h:123-126 `tommy_list_head`. -/
def listHead (list : Ptr) : Ptr := list

/-- tommylist.h:132-140 `tommy_list_tail`. -/
def listTail (list : Ptr) : HM Ptr := do
  let head := listHead list
  if head = 0 then
    return 0
  getPrev head

/-- tommylist.h:147-156 `tommy_list_insert_first`. Returns the new `*list`. -/
def listInsertFirst (node : Ptr) : HM Ptr := do
  setPrev node node
  setNext node 0
  return node

/-- tommylist.h:164-176 `tommy_list_insert_head_not_empty`. Returns the new `*list`. -/
def listInsertHeadNotEmpty (list node : Ptr) : HM Ptr := do
  let head := listHead list
  let hp ← getPrev head
  setPrev node hp
  setPrev head node
  setNext node head
  return node

/-- tommylist.h:184-193 `tommy_list_insert_tail_not_empty`. -/
def listInsertTailNotEmpty (head node : Ptr) : HM Unit := do
  let hp ← getPrev head
  setPrev node hp
  setPrev head node
  setNext node 0
  let np ← getPrev node
  setNext np node

/-- tommylist.h:200-210 `tommy_list_insert_head`. Returns the new `*list`. -/
def listInsertHead (list node : Ptr) (data : Nat) : HM Ptr := do
  let head := listHead list
  let list' ← if head ≠ 0 then listInsertHeadNotEmpty list node else listInsertFirst node
  setData node data
  return list'

/-- tommylist.h:217-227 `tommy_list_insert_tail`. Returns the new `*list`. -/
def listInsertTail (list node : Ptr) (data : Nat) : HM Ptr := do
  let head := listHead list
  let list' ←
    if head ≠ 0 then do
      listInsertTailNotEmpty head node
      pure list
    else listInsertFirst node
  setData node data
  return list'

/-- tommylist.h:237-254 `tommy_list_remove_existing`. Returns the new `*list` and `node->data`. -/
def listRemoveExisting (list node : Ptr) : HM (Ptr × Nat) := do
  let head := listHead list
  let nn ← getNext node
  if nn ≠ 0 then do
    let np ← getPrev node
    setPrev nn np
  else do
    let np ← getPrev node
    setPrev head np
  let list' ←
    if head = node then getNext node
    else do
      let np ← getPrev node
      let nn ← getNext node
      setNext np nn
      pure list
  let d ← getData node
  return (list', d)

/-- tommylist.h:263-290 `tommy_list_concat`. Returns the new `*first`. -/
def listConcat (first second : Ptr) : HM Ptr := do
  let secondHead := listHead second
  if secondHead = 0 then
    return first
  let firstHead := listHead first
  if firstHead = 0 then
    return second
  let firstTail ← getPrev firstHead
  let sp ← getPrev secondHead
  setPrev firstHead sp
  setPrev secondHead firstTail
  setNext firstTail secondHead
  return first

/-- tommylist.h:305-308 `tommy_list_empty`. -/
def listEmpty (list : Ptr) : Bool := listHead list == 0

/-- tommylist.h:319-322, the loop of `tommy_list_count`. -/
def listCountLoop (i count : Nat) : HM Nat := do
  if i = 0 then
    return count
  let n ← getNext i
  listCountLoop n (count + 1)
partial_fixpoint

/-- tommylist.h:314-325 `tommy_list_count`. The counter is an unbounded `Nat`. -/
def listCount (list : Ptr) : HM Nat := listCountLoop (listHead list) 0

/-- tommylist.h:359-363, the loop of `tommy_list_foreach`. The callback is a state
    transformer: it receives `data` and can change (or free) any memory. -/
def listForeachLoop (func : Nat → HM Unit) (node : Ptr) : HM Unit := do
  if node = 0 then
    return ()
  let data ← getData node
  let node' ← getNext node
  func data
  listForeachLoop func node'
partial_fixpoint

/-- tommylist.h:355-364 `tommy_list_foreach`. -/
def listForeach (list : Ptr) (func : Nat → HM Unit) : HM Unit :=
  listForeachLoop func (listHead list)

/-! ### tommychain.h -/

/-- tommychain.h:52-55 `tommy_chain`. -/
structure Chain where
  head : Ptr
  tail : Ptr

/-- tommychain.h:60-69 `tommy_chain_splice`. -/
def chainSplice (firstBefore firstAfter secondHead secondTail : Ptr) : HM Unit := do
  setPrev firstAfter secondTail
  setPrev secondHead firstBefore
  setNext firstBefore secondHead
  setNext secondTail firstAfter

/-- tommychain.h:74-81 `tommy_chain_concat`. -/
def chainConcat (firstTail secondHead : Ptr) : HM Unit := do
  setPrev secondHead firstTail
  setNext firstTail secondHead

/-- tommychain.h:92-112, the loop of `tommy_chain_merge`. `fi`, `si` are `first_i`,
    `second_i`. Returns the new `*first`. -/
def chainMergeLoop (cmp : Nat → Nat → Int) (first second : Chain) (fi si : Ptr) : HM Chain := do
  let fd ← getData fi
  let sd ← getData si
  if cmp fd sd > 0 then
    let next ← getNext si
    let first' ←
      if fi = first.head then do
        chainConcat si fi
        pure { first with head := si }
      else do
        let fp ← getPrev fi
        chainSplice fp fi si si
        pure first
    if si = second.tail then
      return first'
    chainMergeLoop cmp first' second fi next
  else
    if fi = first.tail then
      chainConcat fi si
      return { first with tail := second.tail }
    let fn ← getNext fi
    chainMergeLoop cmp first second fn si
partial_fixpoint

/-- tommychain.h:86-113 `tommy_chain_merge`. Returns the new `*first`. -/
def chainMerge (cmp : Nat → Nat → Int) (first second : Chain) : HM Chain :=
  chainMergeLoop cmp first second first.head second.head

/-- tommychain.h:119-137 `tommy_chain_merge_degenerated`. Returns the new `*first`. -/
def chainMergeDegenerated (cmp : Nat → Nat → Int) (first second : Chain) : HM Chain := do
  let ft ← getData first.tail
  let sh ← getData second.head
  if cmp ft sh ≤ 0 then
    chainConcat first.tail second.head
    return { first with tail := second.tail }
  let st ← getData second.tail
  let fh ← getData first.head
  if cmp st fh < 0 then
    chainConcat second.tail first.head
    return { first with head := second.head }
  chainMerge cmp first second

/-- tommychain.h:159, the array `bit[TOMMY_SIZE_BIT + 1]` `none` is a not
    initialised element. -/
abbrev Bits := Nat → Option Chain

/-- Read of `bit[i]`: out of bounds or not initialised is UB. -/
def bitGet (bit : Bits) (i : Nat) : HM Chain := fun h =>
  if i < sizeBit + 1 then (bit i).map (fun c => (c, h)) else none

/-- Write of `bit[i]`: out of bounds is UB. -/
def bitSet (bit : Bits) (i : Nat) (c : Chain) : HM Bits := fun h =>
  if i < sizeBit + 1 then some (upd bit i (some c), h) else none

/-- tommychain.h:185-190, carry propagation. `last` is a pointer to an element of `bit`
    which is only read: it is modelled by the pointed value. -/
def chainCarryLoop (cmp : Nat → Nat → Int) (bit : Bits) (mask i : Nat) (last : Chain) :
    HM (Bits × Nat × Chain) := do
  if mask &&& 1 ≠ 0 then
    let bi ← bitGet bit i
    let bi' ← chainMergeDegenerated cmp bi last
    let bit' ← bitSet bit i bi'
    chainCarryLoop cmp bit' (mask >>> 1) (i + 1) bi'
  else
    return (bit, i, last)
partial_fixpoint

/-- tommychain.h:172-201, the main loop of `tommy_chain_mergesort`.
    `counter` is an unbounded `Nat` (it counts the nodes). -/
def chainSortLoop (cmp : Nat → Nat → Int) (tail : Ptr) (bit : Bits) (counter : Nat) (node : Ptr) :
    HM (Bits × Nat) := do
  let bit ← bitSet bit sizeBit ⟨node, node⟩
  let next ← getNext node
  let (bit, i, last) ← chainCarryLoop cmp bit counter 0 ⟨node, node⟩
  let bit ← bitSet bit i last
  let counter := counter + 1
  if node = tail then
    return (bit, counter)
  chainSortLoop cmp tail bit counter next
partial_fixpoint

/-- tommytypes.h:414-455 `tommy_ctz` on a non zero argument: number of trailing zeros.
    (The portable implementation is modelled in `Verif.Model.Bits`.) -/
def ctz (n : Nat) : Nat :=
  if h : n = 0 then 0 else if n % 2 = 1 then 0 else 1 + ctz (n / 2)
termination_by n

/-- tommychain.h:206-213, final merge of the buckets. Returns `bit[i]`. -/
def chainFinalLoop (cmp : Nat → Nat → Int) (bit : Bits) (mask i : Nat) : HM Chain := do
  if mask ≠ 1 then
    let mask := mask >>> 1
    let bi ← bitGet bit i
    if mask &&& 1 ≠ 0 then
      let bi1 ← bitGet bit (i + 1)
      let c ← chainMergeDegenerated cmp bi1 bi
      let bit ← bitSet bit (i + 1) c
      chainFinalLoop cmp bit mask (i + 1)
    else
      let bit ← bitSet bit (i + 1) bi
      chainFinalLoop cmp bit mask (i + 1)
  else
    bitGet bit i
partial_fixpoint

/-- tommychain.h:151-216 `tommy_chain_mergesort`. Returns the new `*chain`. -/
def chainMergesort (cmp : Nat → Nat → Int) (chain : Chain) : HM Chain := do
  let (bit, counter) ← chainSortLoop cmp chain.tail (fun _ => none) 0 chain.head
  let i := ctz counter
  let mask := counter >>> i
  chainFinalLoop cmp bit mask i

/-- tommylist.c:34-39 `tommy_list_set`. Returns the new `*list`. -/
def listSet (head tail : Ptr) : HM Ptr := do
  setPrev head tail
  setNext tail 0
  return head

/-- tommylist.c:41-59 `tommy_list_sort`. Returns the new `*list`. -/
def listSort (list : Ptr) (cmp : Nat → Nat → Int) : HM Ptr := do
  if listEmpty list then
    return list
  let head := listHead list
  let tail ← getPrev head
  let chain ← chainMergesort cmp ⟨head, tail⟩
  listSet chain.head chain.tail

end Tommy
