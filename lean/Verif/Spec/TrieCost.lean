import Verif.Model.TrieCost
import Verif.Spec.TrieInp
/-
  The calls of the histories of the tries, with the number of words of the memory read and written, and their bounds.
-/
set_option autoImplicit false
namespace Tommy

variable [Arch]

namespace TrieSpec

/-- Execution of a function of the trie `v`, with the counter. -/
def callC {α : Type} (supply : List Ptr) (s : St) (x : TC α) (res : α → Res) (var : α → Nat → Trie) :
    Option ((Out × St) × Nat) :=
  (x ({ s.mem with supply := supply, freed := [] }, 0)).map fun r =>
    ((⟨res r.1, supply.take (supply.length - r.2.1.supply.length), r.2.1.freed⟩, ⟨r.2.1, var r.1⟩), r.2.2)

/-- The calls and the accesses to the memory that they do. The loop of the client, after `tommy_trie_bucket()`, is not
    counted. -/
def stepC (c : TrieCfg) (op : Op) (s : St) : Option ((Out × St) × Nat) :=
  match op with
  | .init v => callC [] s (trieInitC c (s.var v)) (fun _ => .unit) (fun t => upd s.var v t)
  | .insert v p d k supply => callC supply s (trieInsertC c (s.var v) p d k) (fun _ => .unit) (fun t => upd s.var v t)
  | .remove v k => callC [] s (trieRemoveC c (s.var v) k) (fun r => .val r.2) (fun r => upd s.var v r.1)
  | .removeExisting v p => callC [] s (trieRemoveExistingC c (s.var v) p) (fun r => .val r.2) (fun r => upd s.var v r.1)
  | .search v k => callC [] s (trieSearchC c (s.var v) k) .val (fun _ => s.var)
  | .bucket v k => callC [] s (trieBucketC c (s.var v) k >>= fun i => tick 0 (onN (HashSpec.walkLoop i []))) .elems
      (fun _ => s.var)
  | op => (step c op s).map fun r => (r, 0)

/-- The bounds: they depend on the branches and on the bits of the keys, not on the elements. -/
def bound (c : TrieCfg) : Op → Nat
  | .init _ => c.bucketMax
  | .insert _ _ _ _ _ => (c.treeMax + 3) * levels c + 10
  | .remove _ _ => (c.treeMax + 4) * levels c + 13
  | .removeExisting _ _ => (c.treeMax + 4) * levels c + 14
  | .search _ _ => levels c + 3
  | .bucket _ _ => levels c + 2
  | _ => 0

end TrieSpec

namespace InpSpec

/-- Execution of a function, with the counter. -/
def callC {α : Type} (s : St) (x : TC α) (res : α → Out) (var : α → Nat → InpTrie) : Option ((Out × St) × Nat) :=
  (x (s.mem, 0)).map fun r => ((res r.1, ⟨r.2.1, var r.1⟩), r.2.2)

/-- The calls and the accesses to the memory that they do. The loop of the client, after `tommy_trie_inplace_bucket()`,
    is not counted. -/
def stepC (c : TrieCfg) (op : Op) (s : St) : Option ((Out × St) × Nat) :=
  match op with
  | .init v => callC s (inpInitC c (s.var v)) (fun _ => .unit) (fun t => upd s.var v t)
  | .insert v p d k => callC s (inpInsertC c (s.var v) p d k) (fun _ => .unit) (fun t => upd s.var v t)
  | .remove v k => callC s (inpRemoveC c (s.var v) k) (fun r => .val r.2) (fun r => upd s.var v r.1)
  | .removeExisting v p => callC s (inpRemoveExistingC c (s.var v) p) (fun r => .val r.2) (fun r => upd s.var v r.1)
  | .search v k => callC s (inpSearchC c (s.var v) k) .val (fun _ => s.var)
  | .bucket v k => callC s (inpBucketC c (s.var v) k >>= fun i => tick 0 (onN (HashSpec.walkLoop i []))) .elems
      (fun _ => s.var)
  | op => (step c op s).map fun r => (r, 0)

/-- The maximum number of nodes with different keys in a path. -/
def path (c : TrieCfg) : Nat := c.bit / c.treeBit - 1

/-- The bounds: they depend on the branches and on the bits of the keys, not on the elements. -/
def bound (c : TrieCfg) : Op → Nat
  | .init _ => inpBucketMax c
  | .insert _ _ _ _ => 2 * path c + c.treeMax + 9
  | .remove _ _ => (c.treeMax + 3) * path c + 2 * c.treeMax + 11
  | .removeExisting _ _ => (c.treeMax + 3) * path c + 2 * c.treeMax + 12
  | .search _ _ => 2 * path c + 2
  | .bucket _ _ => 2 * path c + 1
  | _ => 0

end InpSpec
end Tommy
