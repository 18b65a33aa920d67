import Verif.Proof.TrieOrder
import Verif.Props.Trie
import Verif.Props.TrieInp
/-!
  Property C65: the order of the elements in the tries.
-/
set_option autoImplicit false
namespace Tommy

variable [Arch]
open HashSpec (Elem)

/-- **C65** Reading the memory of a `tommy_trie`, from the first cell of the buckets to the last, and in the same way the
    blocks, all the elements are found, in the order of the key, and in insertion order for the same key. -/
theorem C65_trie_order (c : TrieCfg) (hc : TrieSpec.CfgOk c) (s : TrieSpec.St) (a : TrieSpec.Ab)
    (hr : (TrieSpec.sys c).Reach s a) (v : Nat) (es : List Elem) (hv : a.val v = some es) :
    ∃ l, TrieSpec.walkTrie c (s.var v) s.mem = some (l, s.mem) ∧ TrieSpec.InKeyOrder es l := by
  obtain ⟨ch, T⟩ := ((TrieSpec.reach_inv hc s a hr).trie v es hv).top
  exact ⟨_, TrieSpec.walkTrie_spec T, T.inOrder hc⟩

omit [Arch] in
/-- There is only one such list. -/
theorem C65_order_unique (es l l' : List Elem) (h : TrieSpec.InKeyOrder es l) (h' : TrieSpec.InKeyOrder es l') : l = l' :=
  h.unique h'

/-- **C65** for `tommy_trie_inplace`: all the elements are found, in insertion order for the same key, and the ones that
    are not used as inner nodes of the trie are in the order of the key. -/
theorem C65_trieinp_order (c : TrieCfg) (hc : InpSpec.CfgOk c) (s : InpSpec.St) (a : InpSpec.Ab)
    (hr : (InpSpec.sys c).Reach s a) (v : Nat) (es : List Elem) (hv : a.val v = some es) :
    ∃ l, InpSpec.walkTrie c (s.var v) s.mem = some (l, s.mem) ∧
      (∀ k, (l.map Prod.snd).filter (fun e => e.hash = k) = es.filter (fun e => e.hash = k)) ∧
      (InpSpec.leaves l).Pairwise fun x y => x.hash ≤ y.hash := by
  obtain ⟨ch, T⟩ := ((InpSpec.reach_inv hc s a hr).trie v es hv).top
  exact ⟨_, InpSpec.walkTrie_spec T, T.sameKey hc, T.leafOrder hc⟩

/-! ### Non vacuity -/

/-- C65 on the example: the keys inserted are 6, 7, 6 and 2^32-1. -/
example : ∃ s a, (TrieSpec.sys trieCfg64).Reach s a ∧
    a.val 0 = some [⟨32, 10, 6⟩, ⟨64, 20, 7⟩, ⟨96, 30, 6⟩, ⟨128, 40, 2 ^ 32 - 1⟩] ∧
    TrieSpec.walkTrie trieCfg64 (s.var 0) s.mem =
      some ([⟨32, 10, 6⟩, ⟨96, 30, 6⟩, ⟨64, 20, 7⟩, ⟨128, 40, 2 ^ 32 - 1⟩], s.mem) := by
  obtain ⟨s, a, lo, hlo, h⟩ := trieReach
  refine ⟨s, a, h.reach, h.a0, ?_⟩
  obtain ⟨l, e, o⟩ := C65_trie_order trieCfg64 trieCfg64_ok s a h.reach 0 _ h.a0
  rw [e]
  congr 2
  refine C65_order_unique _ _ _ o ⟨by simp, fun k => ?_⟩
  by_cases h6 : 6 = k
  · subst h6; rfl
  · by_cases h7 : 7 = k
    · subst h7; rfl
    · simp [List.filter_cons, h6, h7]

/-- C65 on the example of the inplace trie: the five elements are found. -/
example : ∃ s a l, (InpSpec.sys inpCfg).Reach s a ∧ InpSpec.walkTrie inpCfg (s.var 0) s.mem = some (l, s.mem) ∧
    (l.map Prod.snd).filter (fun e => e.hash = 6) = [⟨64, 10, 6⟩, ⟨192, 30, 6⟩] ∧
    (InpSpec.leaves l).Pairwise fun x y => x.hash ≤ y.hash := by
  obtain ⟨s, a, h⟩ := inpReach
  obtain ⟨l, e, o, q⟩ := C65_trieinp_order inpCfg inpCfg_ok s a h.reach 0 _ h.a0
  exact ⟨s, a, l, h.reach, e, o 6, q⟩

end Tommy
