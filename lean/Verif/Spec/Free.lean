import Verif.Spec.Hash
import Verif.Spec.List
import Verif.Spec.Tree
/-!
  Specification of the documented deallocation (C64).
-/
set_option autoImplicit false
namespace Tommy

variable [Arch]
namespace FreeSpec

/-- The elements, as pairs of node and payload, are allocated objects: the payload is the address of the object, which
    has nodes at the offsets `offs`, one of them (`off`) is the node in the container, and the nodes of different
    objects are different. -/
structure Objects (live : Ptr → Bool) (offs : List Nat) (off : Nat) (elems : List (Ptr × Nat)) : Prop where
  has : off ∈ offs
  node : ∀ e ∈ elems, e.1 = e.2 + off
  nonzero : ∀ e ∈ elems, e.2 ≠ 0
  alive : ∀ e ∈ elems, ∀ o ∈ offs, live (e.2 + o) = true
  apart : ∀ e ∈ elems, ∀ e' ∈ elems, ∀ o ∈ offs, ∀ o' ∈ offs, e.2 + o = e'.2 + o' → e.2 = e'.2

/-- The node `p` is in one of the objects `ds`. -/
def Inside (offs : List Nat) (ds : List Nat) (p : Ptr) : Prop := ∃ d ∈ ds, ∃ o ∈ offs, p = d + o

/-- From `h` to `h'` the objects `ds` are deallocated and nothing else changed. -/
def Freed (offs : List Nat) (ds : List Nat) (h h' : Heap) : Prop :=
  (∀ p, Inside offs ds p → h'.valid p = false) ∧
  ∀ p, ¬ Inside offs ds p → h'.valid p = h.valid p ∧ h'.next p = h.next p ∧ h'.prev p = h.prev p ∧
    h'.data p = h.data p ∧ h'.index p = h.index p

end FreeSpec
end Tommy
