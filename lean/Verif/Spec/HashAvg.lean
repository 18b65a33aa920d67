import Verif.Spec.HashBucket
/-
  The number of nodes read by a search in a hashtable.
-/
set_option autoImplicit false
namespace Tommy

variable [Arch]
namespace HashSpec

/-- The search with the hash `h` reads exactly `n` nodes: the one limited to `n` nodes gives the result, with less it is not
    defined. -/
def Reads {T : Type} (I : Impl T) (s : St T) (cmp : Nat → Int) (h n : Nat) : Prop :=
  (∃ r, I.search s.tbl cmp h s.mem = some r ∧ searchIn I n s.tbl cmp h s.mem = some r) ∧
    ∀ k, k < n → searchIn I k s.tbl cmp h s.mem = none

/-- No element is found by a search with the hash `h`. -/
def Misses (a : Ab) (cmp : Nat → Int) (h : Nat) : Prop := ∀ e ∈ a.elems, hit cmp h e = false

/-- An assignment of hash values to `n` objects. -/
abbrev Assign (n : Nat) := Fin n → Fin (2 ^ sizeBit)

/-- The table has `n` elements, in any order: the object `i` has the node `node i`, the payload `data i` and the hash value
    `H i`. -/
def Holds {n : Nat} (a : Ab) (node : Fin n → Ptr) (data : Fin n → Nat) (H : Assign n) : Prop :=
  a.elems.Perm (List.ofFn fun i => ⟨node i, data i, (H i).val⟩)

/-- The compare function of the object `i` recognizes only that object. -/
def Selects {n : Nat} (data : Fin n → Nat) (cmp : Fin n → Nat → Int) : Prop := ∀ i j, cmp i (data j) = 0 ↔ i = j

end HashSpec
end Tommy
