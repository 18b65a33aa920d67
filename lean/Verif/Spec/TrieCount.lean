import Verif.Spec.Trie
import Mathlib.Algebra.BigOperators.Group.Finset.Basic
/-
  How many inner blocks a trie uses, as a function of the set of its keys only.
-/
set_option autoImplicit false
namespace Tommy

variable [Arch]
namespace TrieSpec
open HashSpec (Elem)

/-- The values of `k >> s` common to two different keys. -/
def crowded (K : Finset Nat) (s : Nat) : Finset Nat :=
  (K.filter fun k => ∃ k' ∈ K, k' ≠ k ∧ k' >>> s = k >>> s).image fun k => k >>> s

/-- One block for each crowded bucket, and one for each crowded prefix of the keys at every level. -/
def blocksFor (c : TrieCfg) (K : Finset Nat) : Nat :=
  (crowded K c.bucketShift).card + ∑ j ∈ Finset.range (levels c - 1), (crowded K (c.treeBit * (j + 1))).card

/-- The set of the keys of the elements. -/
def keySet (es : List Elem) : Finset Nat := (es.map Elem.hash).toFinset

end TrieSpec
end Tommy
