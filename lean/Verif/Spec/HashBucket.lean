import Verif.Spec.Hash
import Verif.Model.Hashtable
import Verif.Model.Hashdyn
import Verif.Model.Hashlin
/-
  Specification of what a search in the hashtables looks at: the elements that collide with the hash, and the loops of
  search and remove with a limit on the nodes they may read.
-/
set_option autoImplicit false
namespace Tommy

variable [Arch]
namespace HashSpec

/-- The elements in the same bucket as `h`, if there are `M` buckets. -/
def collide (es : List Elem) (M h : Nat) : List Elem := es.filter (fun e => e.hash % M = h % M)

/-- The loop of `hashSearchLoop`, not defined if it reads more than `n` nodes. -/
def searchWithin (cmp : Nat → Int) (hash : Nat) : Nat → Ptr → HM Nat
  | 0, i => if i = 0 then pure 0 else fun _ => none
  | n + 1, i => do
    if i = 0 then
      return 0
    let idx ← getIndex i
    if idx = hash then
      let d ← getData i
      if cmp d = 0 then
        return d
      let j ← getNext i
      searchWithin cmp hash n j
    else
      let j ← getNext i
      searchWithin cmp hash n j

/-- The loop of `hashFindLoop`, not defined if it reads more than `n` nodes. -/
def findWithin (cmp : Nat → Int) (hash : Nat) : Nat → Ptr → HM Ptr
  | 0, i => if i = 0 then pure 0 else fun _ => none
  | n + 1, i => do
    if i = 0 then
      return 0
    let idx ← getIndex i
    if idx = hash then
      let d ← getData i
      if cmp d = 0 then
        return i
      let j ← getNext i
      findWithin cmp hash n j
    else
      let j ← getNext i
      findWithin cmp hash n j

/-- tommyhashtbl.h:207-218, tommyhashdyn.h:223-234, tommyhashlin.h:272-283: search, reading at most `n` nodes. -/
def searchIn {T : Type} (I : Impl T) (n : Nat) (t : T) (cmp : Nat → Int) (hash : Nat) : MM Nat := do
  let i ← I.bucket t hash
  onNodes (searchWithin cmp hash n i)

/-- tommyhashtbl.c:83-101: remove, where the loop reads at most `n` nodes. -/
def hashtableRemoveIn (n : Nat) (t : Hashtable) (cmp : Nat → Int) (hash : Nat) : MM (Hashtable × Nat) := do
  let pos := hash &&& t.bucketMask
  let head ← readRef (t.bucket.add pos)
  let node ← onNodes (findWithin cmp hash n head)
  if node ≠ 0 then
    cellRemoveExisting (t.bucket.add pos) node
    let d ← onNodes (getData node)
    return ({ t with count := decT t.count }, d)
  else
    return (t, 0)

/-- tommyhashdyn.c:163-183: remove, where the loop reads at most `n` nodes. -/
def hashdynRemoveIn (n : Nat) (t : Hashdyn) (cmp : Nat → Int) (hash : Nat) : MM (Hashdyn × Nat) := do
  let pos := hash &&& t.bucketMask
  let head ← readRef (t.bucket.add pos)
  let node ← onNodes (findWithin cmp hash n head)
  if node ≠ 0 then
    cellRemoveExisting (t.bucket.add pos) node
    let t' ← hashdynShrinkStep { t with count := decT t.count }
    let d ← onNodes (getData node)
    return (t', d)
  else
    return (t, 0)

/-- tommyhashlin.c:269-289: remove, where the loop reads at most `n` nodes. -/
def hashlinRemoveIn (n : Nat) (t : Hashlin) (cmp : Nat → Int) (hash : Nat) : MM (Hashlin × Nat) := do
  let r ← hashlinBucketRef t hash
  let head ← readRef r
  let node ← onNodes (findWithin cmp hash n head)
  if node ≠ 0 then
    cellRemoveExisting r node
    let t' ← hashlinShrinkStep { t with count := decT t.count }
    let d ← onNodes (getData node)
    return (t', d)
  else
    return (t, 0)

/-- The node `p` is the same in the two heaps. -/
def SameAt (h h' : Heap) (p : Ptr) : Prop :=
  h'.valid p = h.valid p ∧ h'.next p = h.next p ∧ h'.prev p = h.prev p ∧ h'.data p = h.data p ∧ h'.index p = h.index p

/-- In the state `s`, `bucket(h)` holds exactly the elements that collide with `h` in a table of `M` buckets, and the
    searches and the removes with the hash `h` read at most their nodes. The field `only` says that a search reads no
    other node: the others can be changed, or deallocated. -/
structure OnlyCollide {T : Type} (I : Impl T) (removeIn : Nat → T → (Nat → Int) → Nat → MM (T × Nat)) (s : St T) (a : Ab)
    (h M : Nat) : Prop where
  bucket : ∃ l, walkBucket I s.tbl h s.mem = some (l, s.mem) ∧ l.Perm (collide a.elems M h)
  same : ∀ e ∈ collide a.elems M h, I.bucket s.tbl e.hash s.mem = I.bucket s.tbl h s.mem
  only : ∀ cmp hp, (∀ e ∈ collide a.elems M h, SameAt s.mem.heap hp e.node) →
    I.search s.tbl cmp h { s.mem with heap := hp } =
      some (((a.elems.find? (hit cmp h)).map Elem.data).getD 0, { s.mem with heap := hp })
  search : ∀ cmp n, (collide a.elems M h).length ≤ n → searchIn I n s.tbl cmp h s.mem = I.search s.tbl cmp h s.mem
  remove : ∀ cmp n, (collide a.elems M h).length ≤ n → removeIn n s.tbl cmp h s.mem = I.remove s.tbl cmp h s.mem

end HashSpec
end Tommy
