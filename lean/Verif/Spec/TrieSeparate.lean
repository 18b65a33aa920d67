import Verif.Spec.TrieCost
/-
  The two ways to remove the first element with a key: `remove`, and `bucket` followed by `remove_existing`.
-/
set_option autoImplicit false
namespace Tommy

variable [Arch]

namespace TrieSpec

/-- tommytrie.h:216: `tommy_trie_bucket()` and `tommy_trie_remove_existing()` called separately, with the accesses to the memory. -/
def bucketRemoveC (c : TrieCfg) (t : Trie) (key : Nat) : TC (Trie × Nat) := do
  let i ← trieBucketC c t key
  if i = 0 then
    return (t, 0)
  trieRemoveExistingC c t i

/-- The same, from a state of a history. -/
def separately (c : TrieCfg) (v key : Nat) (s : St) : Option ((Out × St) × Nat) :=
  callC [] s (bucketRemoveC c (s.var v) key) (fun r => .val r.2) (fun r => upd s.var v r.1)

end TrieSpec

namespace InpSpec

/-- tommytrieinp.h:195: `tommy_trie_inplace_bucket()` and `tommy_trie_inplace_remove_existing()` called separately. -/
def bucketRemoveC (c : TrieCfg) (t : InpTrie) (key : Nat) : TC (InpTrie × Nat) := do
  let i ← inpBucketC c t key
  if i = 0 then
    return (t, 0)
  inpRemoveExistingC c t i

/-- The same, from a state of a history. -/
def separately (c : TrieCfg) (v key : Nat) (s : St) : Option ((Out × St) × Nat) :=
  callC s (bucketRemoveC c (s.var v) key) (fun r => .val r.2) (fun r => upd s.var v r.1)

end InpSpec
end Tommy
