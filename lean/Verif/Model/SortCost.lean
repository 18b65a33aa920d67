import Verif.Model.List
/-
  The sort of tommychain.h and tommylist.c with a counter of the calls of the comparison function.

  Each function is the one of `Verif.Model.List` with the additional argument `k`, the number of calls before, and the
  additional result, the number of calls after; the counter is incremented at each call of `cmp`.
  `Verif.Proof.SortCost` proves that without the counter they are the same functions.
-/
set_option autoImplicit false
namespace Tommy

variable [Arch]

/-- tommychain.h:92-112, the loop of `tommy_chain_merge`. -/
def chainMergeLoopC (cmp : Nat → Nat → Int) (first second : Chain) (fi si : Ptr) (k : Nat) : HM (Chain × Nat) := do
  let fd ← getData fi
  let sd ← getData si
  if cmp fd sd > 0 then
    let next ← getNext si
    let first' ←
      if fi = first.head then do
        chainConcat si fi
        pure { first with head := si }
      else do
        let fp ← getPrev fi
        chainSplice fp fi si si
        pure first
    if si = second.tail then
      return (first', k + 1)
    chainMergeLoopC cmp first' second fi next (k + 1)
  else
    if fi = first.tail then
      chainConcat fi si
      return ({ first with tail := second.tail }, k + 1)
    let fn ← getNext fi
    chainMergeLoopC cmp first second fn si (k + 1)
partial_fixpoint

/-- tommychain.h:86-113 `tommy_chain_merge`. -/
def chainMergeC (cmp : Nat → Nat → Int) (first second : Chain) (k : Nat) : HM (Chain × Nat) :=
  chainMergeLoopC cmp first second first.head second.head k

/-- tommychain.h:119-137 `tommy_chain_merge_degenerated`. -/
def chainMergeDegeneratedC (cmp : Nat → Nat → Int) (first second : Chain) (k : Nat) : HM (Chain × Nat) := do
  let ft ← getData first.tail
  let sh ← getData second.head
  if cmp ft sh ≤ 0 then
    chainConcat first.tail second.head
    return ({ first with tail := second.tail }, k + 1)
  let st ← getData second.tail
  let fh ← getData first.head
  if cmp st fh < 0 then
    chainConcat second.tail first.head
    return ({ first with head := second.head }, k + 2)
  chainMergeC cmp first second (k + 2)

/-- tommychain.h:185-190, carry propagation. -/
def chainCarryLoopC (cmp : Nat → Nat → Int) (bit : Bits) (mask i : Nat) (last : Chain) (k : Nat) :
    HM ((Bits × Nat × Chain) × Nat) := do
  if mask &&& 1 ≠ 0 then
    let bi ← bitGet bit i
    let r ← chainMergeDegeneratedC cmp bi last k
    let bit' ← bitSet bit i r.1
    chainCarryLoopC cmp bit' (mask >>> 1) (i + 1) r.1 r.2
  else
    return ((bit, i, last), k)
partial_fixpoint

/-- tommychain.h:172-201, the main loop of `tommy_chain_mergesort`. -/
def chainSortLoopC (cmp : Nat → Nat → Int) (tail : Ptr) (bit : Bits) (counter : Nat) (node : Ptr) (k : Nat) :
    HM ((Bits × Nat) × Nat) := do
  let bit ← bitSet bit sizeBit ⟨node, node⟩
  let next ← getNext node
  let r ← chainCarryLoopC cmp bit counter 0 ⟨node, node⟩ k
  let bit ← bitSet r.1.1 r.1.2.1 r.1.2.2
  let counter := counter + 1
  if node = tail then
    return ((bit, counter), r.2)
  chainSortLoopC cmp tail bit counter next r.2
partial_fixpoint

/-- tommychain.h:206-213, final merge of the buckets. -/
def chainFinalLoopC (cmp : Nat → Nat → Int) (bit : Bits) (mask i : Nat) (k : Nat) : HM (Chain × Nat) := do
  if mask ≠ 1 then
    let mask := mask >>> 1
    let bi ← bitGet bit i
    if mask &&& 1 ≠ 0 then
      let bi1 ← bitGet bit (i + 1)
      let r ← chainMergeDegeneratedC cmp bi1 bi k
      let bit ← bitSet bit (i + 1) r.1
      chainFinalLoopC cmp bit mask (i + 1) r.2
    else
      let bit ← bitSet bit (i + 1) bi
      chainFinalLoopC cmp bit mask (i + 1) k
  else
    let c ← bitGet bit i
    return (c, k)
partial_fixpoint

/-- tommychain.h:151-216 `tommy_chain_mergesort`. -/
def chainMergesortC (cmp : Nat → Nat → Int) (chain : Chain) (k : Nat) : HM (Chain × Nat) := do
  let r ← chainSortLoopC cmp chain.tail (fun _ => none) 0 chain.head k
  let i := ctz r.1.2
  let mask := r.1.2 >>> i
  chainFinalLoopC cmp r.1.1 mask i r.2

/-- tommylist.c:41-59 `tommy_list_sort`. Returns the new `*list` and the number of calls of `cmp`. -/
def listSortC (list : Ptr) (cmp : Nat → Nat → Int) : HM (Ptr × Nat) := do
  if listEmpty list then
    return (list, 0)
  let head := listHead list
  let tail ← getPrev head
  let r ← chainMergesortC cmp ⟨head, tail⟩ 0
  let l ← listSet r.1.head r.1.tail
  return (l, r.2)

end Tommy
