import Verif.Model.Mem
import Verif.Model.List
/-
  Code which is textually the same in tommyhashtbl, tommyhashdyn and tommyhashlin.
  `cmp` is the partial application `cmp(cmp_arg, ·)` of the `tommy_search_func`.
-/
set_option autoImplicit false
namespace Tommy

variable [Arch]

/-- tommyhashtbl.h:211-217, tommyhashdyn.h:227-233, tommyhashlin.h:276-282: the search loop.
    Returns `i->data` or 0. -/
def hashSearchLoop (cmp : Nat → Int) (hash : Nat) (i : Ptr) : HM Nat := do
  if i = 0 then
    return 0
  let idx ← getIndex i
  if idx = hash then
    let d ← getData i
    if cmp d = 0 then
      return d
    let n ← getNext i
    hashSearchLoop cmp hash n
  else
    let n ← getNext i
    hashSearchLoop cmp hash n
partial_fixpoint

/-- tommyhashtbl.c:88-98, tommyhashdyn.c:168-180, tommyhashlin.c:274-286: the loop of remove up to
    the test. Returns the node to remove, or 0. -/
def hashFindLoop (cmp : Nat → Int) (hash : Nat) (node : Ptr) : HM Ptr := do
  if node = 0 then
    return 0
  let idx ← getIndex node
  if idx = hash then
    let d ← getData node
    if cmp d = 0 then
      return node
    let n ← getNext node
    hashFindLoop cmp hash n
  else
    let n ← getNext node
    hashFindLoop cmp hash n
partial_fixpoint

/-- `tommy_list_insert_tail(r, node, data)` on the list in a cell. The cell is always written back
    (the C code writes it only when it changes). -/
def cellInsertTail (r : Ref) (node : Ptr) (data : Nat) : MM Unit := do
  let l ← readRef r
  let l' ← onNodes (listInsertTail l node data)
  writeRef r l'

/-- `tommy_list_remove_existing(r, node)` on the list in a cell. -/
def cellRemoveExisting (r : Ref) (node : Ptr) : MM Unit := do
  let l ← readRef r
  let x ← onNodes (listRemoveExisting l node)
  writeRef r x.1

/-- `tommy_list_concat(r, q)` on the lists in two cells. -/
def cellConcat (r q : Ref) : MM Unit := do
  let l ← readRef r
  let k ← readRef q
  let l' ← onNodes (listConcat l k)
  writeRef r l'

/-- tommyhashdyn.c:85-93, tommyhashlin.c:154-162: moves the nodes of a detached bucket into the cells
    `dest (j->index)`. The result is a ghost: the number of nodes moved. -/
def flushLoop (dest : Nat → Ref) (j : Ptr) : MM Nat := do
  if j = 0 then
    return 0
  let jNext ← onNodes (getNext j)
  let idx ← onNodes (getIndex j)
  let l ← readRef (dest idx)
  if l ≠ 0 then
    onNodes (listInsertTailNotEmpty l j)
    let moved ← flushLoop dest jNext
    return moved + 1
  else
    let l' ← onNodes (listInsertFirst j)
    writeRef (dest idx) l'
    let moved ← flushLoop dest jNext
    return moved + 1
partial_fixpoint

/-- The callback of a foreach is a memory transformer. The loop on a bucket,
    tommyhashtbl.c:112-116, tommyhashdyn.c:194-198, tommyhashlin.c:302-306. -/
def bucketForeachLoop (func : Nat → MM Unit) (node : Ptr) : MM Unit := do
  if node = 0 then
    return ()
  let data ← onNodes (getData node)
  let node' ← onNodes (getNext node)
  func data
  bucketForeachLoop func node'
partial_fixpoint

/-- The loop on the positions of a foreach, tommyhashtbl.c:109-117, tommyhashdyn.c:191-199,
    tommyhashlin.c:299-307. `ref pos` gives the cell of the bucket. The last argument is `bucket_max - pos`. -/
def posForeachLoop (func : Nat → MM Unit) (ref : Nat → MM Ref) (pos : Nat) : Nat → MM Unit
  | 0 => pure ()
  | k + 1 => do
    let r ← ref pos
    let node ← readRef r
    bucketForeachLoop func node
    posForeachLoop func ref (pos + 1) k

end Tommy
