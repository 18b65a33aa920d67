import Verif.Spec.TrieInp
/-!
  Specification of C65: the elements of a trie in the order of the memory.
-/
set_option autoImplicit false
namespace Tommy

variable [Arch]
namespace TrieSpec
open HashSpec (Elem walkLoop)

/-- Reads the cells of the object `base` from the index `i`, `k` of them, from the first to the last. -/
def walkCells {α : Type} (cell : Ptr → TM (List α)) (base : Ptr) (i : Nat) : Nat → TM (List α)
  | 0 => pure []
  | k + 1 => do
    let p ← cellGet ⟨base, i⟩
    let l ← cell p
    let r ← walkCells cell base (i + 1) k
    return l ++ r

/-- Reads what is at the pointer `p` in a cell (tommytrie.c:53-59): nothing, a list, or a block of cells.
    Undefined after `n` levels of blocks. -/
def walkCell (c : TrieCfg) : Nat → Ptr → TM (List Elem)
  | 0, p => if p = 0 then pure [] else if p % 2 = 1 then fun _ => none else onN (walkLoop p [])
  | n + 1, p => if p = 0 then pure [] else if p % 2 = 1 then walkCells (walkCell c n) (p - 1) 0 c.treeMax
      else onN (walkLoop p [])

/-- Reads all the trie, from the first bucket to the last. -/
def walkTrie (c : TrieCfg) (t : Trie) : TM (List Elem) := walkCells (walkCell c (levels c)) t.base 0 c.bucketMax

/-- `l` contains the elements `es` in the order of the keys, and in the order of `es` for the same key. -/
def InKeyOrder (es l : List Elem) : Prop :=
  l.Pairwise (fun x y => x.hash ≤ y.hash) ∧ ∀ k, l.filter (fun e => e.hash = k) = es.filter (fun e => e.hash = k)

end TrieSpec

namespace InpSpec
open HashSpec (Elem walkLoop)
open TrieSpec (walkCells)

/-- Reads what is at the pointer `p` in a cell of a tommy_trie_inplace (tommytrieinp.h:160-167): nothing, or a list of
    nodes and then the branches of the first one. With each element there is if its list has a branch, that is if it is
    an inner node of the trie. Undefined after `n` levels of branches. -/
def walkCell (c : TrieCfg) : Nat → Ptr → TM (List (Bool × Elem))
  | 0, p => if p = 0 then pure [] else do
      let l ← onN (walkLoop p [])
      let r ← walkCells (fun q => if q = 0 then pure [] else fun _ => none) p 0 c.treeMax
      return l.map (fun e => (!r.isEmpty, e)) ++ r
  | n + 1, p => if p = 0 then pure [] else do
      let l ← onN (walkLoop p [])
      let r ← walkCells (walkCell c n) p 0 c.treeMax
      return l.map (fun e => (!r.isEmpty, e)) ++ r

/-- Reads all the trie, from the first bucket to the last. -/
def walkTrie (c : TrieCfg) (t : InpTrie) : TM (List (Bool × Elem)) :=
  walkCells (walkCell c (c.bit / c.treeBit - 2)) t.base 0 (inpBucketMax c)

/-- The elements which are not inner nodes. -/
def leaves (l : List (Bool × Elem)) : List Elem := (l.filter fun x => !x.1).map Prod.snd

end InpSpec
end Tommy
