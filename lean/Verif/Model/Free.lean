import Verif.Model.Hashtable
import Verif.Model.Hashdyn
import Verif.Model.Hashlin
import Verif.Model.List
import Verif.Model.Tree
/-!
  The documented deallocation of the containers: `foreach` with the function `free()` of the C library, then
  the `done` function for the containers that have one.
-/
set_option autoImplicit false
namespace Tommy

variable [Arch]

/-- The nodes of the object of address `obj` are at the offsets `offs` (tommyhashdyn.h:244-248: the `struct object`
    with the node, and any other node for other containers). -/
def nodeIn (offs : List Nat) (obj : Nat) (p : Ptr) : Bool := offs.any fun o => p == obj + o

/-- `free(obj)` of the C library (tommytypes.h:113, used as callback at tommyhashdyn.h:268). Undefined if the
    object is not allocated. The nodes in the object don't exist any more, and in their memory remains the
    content of `junk`. -/
def objFree (offs : List Nat) (junk : Heap) (obj : Nat) : HM Unit := fun h =>
  if obj ≠ 0 ∧ offs.all (fun o => h.valid (obj + o)) then
    some ((), {
      valid := fun p => !nodeIn offs obj p && h.valid p
      next := fun p => if nodeIn offs obj p then junk.next p else h.next p
      prev := fun p => if nodeIn offs obj p then junk.prev p else h.prev p
      data := fun p => if nodeIn offs obj p then junk.data p else h.data p
      index := fun p => if nodeIn offs obj p then junk.index p else h.index p })
  else none

/-- tommyhashtbl.h:251-255. -/
def hashtableFreeAll (offs : List Nat) (junk : Heap) (t : Hashtable) : MM Unit := do
  hashtableForeach t fun obj => onNodes (objFree offs junk obj)
  hashtableDone t

/-- tommyhashdyn.h:267-271. -/
def hashdynFreeAll (offs : List Nat) (junk : Heap) (t : Hashdyn) : MM Unit := do
  hashdynForeach t fun obj => onNodes (objFree offs junk obj)
  hashdynDone t

/-- tommyhashlin.h:316-320. -/
def hashlinFreeAll (offs : List Nat) (junk : Heap) (t : Hashlin) : MM Unit := do
  hashlinForeach t fun obj => onNodes (objFree offs junk obj)
  hashlinDone t

/-- tommylist.h:351-352. -/
def listFreeAll (offs : List Nat) (junk : Heap) (list : Ptr) : HM Unit := listForeach list (objFree offs junk)

/-- tommytree.h:202-203. -/
def treeFreeAll (offs : List Nat) (junk : Heap) (t : Tree) : HM Unit := treeForeach t (objFree offs junk)

end Tommy
