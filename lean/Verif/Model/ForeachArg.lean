import Verif.Model.Tree
import Verif.Model.Hashtable
import Verif.Model.Hashdyn
import Verif.Model.Hashlin
/-
  The `foreach_arg` functions of all the containers.
-/
set_option autoImplicit false
namespace Tommy

variable [Arch]

/-- tommylist.h:373-377, the loop of `tommy_list_foreach_arg`. -/
def listForeachArgLoop (func : Nat → Nat → HM Unit) (arg : Nat) (node : Ptr) : HM Unit := do
  if node = 0 then
    return ()
  let data ← getData node
  let node' ← getNext node
  func arg data
  listForeachArgLoop func arg node'
partial_fixpoint

/-- tommylist.h:369-378 `tommy_list_foreach_arg`. -/
def listForeachArg (list : Ptr) (func : Nat → Nat → HM Unit) (arg : Nat) : HM Unit :=
  listForeachArgLoop func arg (listHead list)

/-- The loop on a bucket, tommyhashtbl.c:129-133, tommyhashdyn.c:211-215, tommyhashlin.c:321-325. -/
def bucketForeachArgLoop (func : Nat → Nat → MM Unit) (arg : Nat) (node : Ptr) : MM Unit := do
  if node = 0 then
    return ()
  let data ← onNodes (getData node)
  let node' ← onNodes (getNext node)
  func arg data
  bucketForeachArgLoop func arg node'
partial_fixpoint

/-- The loop on the positions, tommyhashtbl.c:126-134, tommyhashdyn.c:208-216, tommyhashlin.c:318-326.
    The last argument is `bucket_max - pos`. -/
def posForeachArgLoop (func : Nat → Nat → MM Unit) (arg : Nat) (ref : Nat → MM Ref) (pos : Nat) : Nat → MM Unit
  | 0 => pure ()
  | k + 1 => do
    let r ← ref pos
    let node ← readRef r
    bucketForeachArgLoop func arg node
    posForeachArgLoop func arg ref (pos + 1) k

/-- tommyhashtbl.c:120-135 `tommy_hashtable_foreach_arg`. -/
def hashtableForeachArg (t : Hashtable) (func : Nat → Nat → MM Unit) (arg : Nat) : MM Unit :=
  posForeachArgLoop func arg (fun pos => pure (t.bucket.add pos)) 0 t.bucketMax

/-- tommyhashdyn.c:202-217 `tommy_hashdyn_foreach_arg`. -/
def hashdynForeachArg (t : Hashdyn) (func : Nat → Nat → MM Unit) (arg : Nat) : MM Unit :=
  posForeachArgLoop func arg (fun pos => pure (t.bucket.add pos)) 0 t.bucketMax

/-- tommyhashlin.c:310-327 `tommy_hashlin_foreach_arg`. -/
def hashlinForeachArg (t : Hashlin) (func : Nat → Nat → MM Unit) (arg : Nat) : MM Unit :=
  posForeachArgLoop func arg (hashlinPos t) 0 (sizeT (t.lowMax + t.split))

/-- tommytree.c:266-281 `tommy_tree_foreach_arg_node`. -/
def treeForeachArgNode (func : Nat → Nat → HM Unit) (arg : Nat) (root : Ptr) : HM Unit := do
  if root = 0 then
    return ()
  let prev ← getPrev root
  treeForeachArgNode func arg prev
  let next ← getNext root
  let d ← getData root
  func arg d
  treeForeachArgNode func arg next
partial_fixpoint

/-- tommytree.c:283-286 `tommy_tree_foreach_arg`. -/
def treeForeachArg (tree : Tree) (func : Nat → Nat → HM Unit) (arg : Nat) : HM Unit :=
  treeForeachArgNode func arg tree.root

end Tommy
