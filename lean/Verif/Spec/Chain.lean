import Verif.Spec.List
/-
  Chains of nodes, as documented in tommychain.h:45-50.
-/
set_option autoImplicit false
namespace Tommy
namespace ChainSpec

/-- The chain `c` has the nodes `xs`: at least one, and the inner `prev` and `next` are set. Nothing is said of the `prev` of the head and
    of the `next` of the tail. -/
structure ChainOf (h : Heap) (c : Chain) (xs : List Ptr) : Prop where
  head : xs.head? = some c.head
  tail : xs.getLast? = some c.tail
  live : ∀ x ∈ xs, x ≠ 0 ∧ h.valid x = true
  once : xs.Nodup
  links : ∀ i (hi : i + 1 < xs.length), h.next xs[i] = xs[i + 1] ∧ h.prev xs[i + 1] = xs[i]

/-- Only the links of the nodes `xs` are changed. -/
structure OnlyLinks (h h' : Heap) (xs : List Ptr) : Prop where
  valid : h'.valid = h.valid
  data : h'.data = h.data
  index : h'.index = h.index
  next : ∀ q, q ∉ xs → h'.next q = h.next q
  prev : ∀ q, q ∉ xs → h'.prev q = h.prev q

/-- The payloads of the nodes are ordered. -/
def Ordered (cmp : Nat → Nat → Int) (d : Ptr → Nat) (xs : List Ptr) : Prop := xs.Pairwise (fun x y => cmp (d x) (d y) ≤ 0)

/-- `ys` is `xs` sorted, and the elements that compare equal keep their order. -/
structure SortOf (cmp : Nat → Nat → Int) (d : Ptr → Nat) (xs ys : List Ptr) : Prop where
  perm : ys.Perm xs
  ordered : Ordered cmp d ys
  stable : ∀ k, ys.filter (fun x => cmp k (d x) = 0) = xs.filter (fun x => cmp k (d x) = 0)

end ChainSpec
end Tommy
