import Verif.Proof.TrieSeparate
import Verif.Props.Trie
import Verif.Props.TrieInp
/-
  C71: `remove` against `bucket` followed by `remove_existing`.
-/
set_option autoImplicit false
namespace Tommy

variable [Arch]
open HashSpec (Elem)

/-- **C71** `tommy_trie_remove()` returns the same value and leaves the same memory, the same trie and the same allocator of
    `tommy_trie_bucket()` and `tommy_trie_remove_existing()` called separately, which access the memory `b` times more, the accesses of
    `tommy_trie_bucket()`. If no element has the key, the accesses are the same. -/
theorem C71_trie (c : TrieCfg) (hc : TrieSpec.CfgOk c) (s : TrieSpec.St) (a : TrieSpec.Ab) (hr : (TrieSpec.sys c).Reach s a)
    (v k : Nat) (es : List Elem) (hv : a.val v = some es) (hk : k < 2 ^ c.bit) : ∃ r n r' b,
      TrieSpec.stepC c (.remove v k) s = some (r, n) ∧ TrieSpec.stepC c (.bucket v k) s = some (r', b) ∧ 0 < b ∧
      (k ∈ es.map Elem.hash → TrieSpec.separately c v k s = some (r, n + b)) ∧
      (k ∉ es.map Elem.hash → TrieSpec.separately c v k s = some (r, n) ∧ n = b) :=
  TrieCost.trie_separately hc hr hv hk

/-- **C71** The same for `tommy_trie_inplace`, where one more access is saved. -/
theorem C71_trieinp (c : TrieCfg) (hc : InpSpec.CfgOk c) (s : InpSpec.St) (a : InpSpec.Ab) (hr : (InpSpec.sys c).Reach s a)
    (v k : Nat) (es : List Elem) (hv : a.val v = some es) (hk : k < 2 ^ c.bit) : ∃ r n r' b,
      InpSpec.stepC c (.remove v k) s = some (r, n) ∧ InpSpec.stepC c (.bucket v k) s = some (r', b) ∧ 0 < b ∧
      (k ∈ es.map Elem.hash → InpSpec.separately c v k s = some (r, n + b + 1)) ∧
      (k ∉ es.map Elem.hash → InpSpec.separately c v k s = some (r, n) ∧ n = b) :=
  TrieCost.inp_separately hc hr hv hk

/-! ### Non vacuity -/

/-- Four elements in a `tommy_trie`, a key stored and a key not stored. -/
example : ∃ s a, (TrieSpec.sys trieCfg64).Reach s a ∧
    (∃ r n b, TrieSpec.stepC trieCfg64 (.remove 0 7) s = some (r, n) ∧ 0 < b ∧ TrieSpec.separately trieCfg64 0 7 s = some (r, n + b)) ∧
    (∃ r n, TrieSpec.stepC trieCfg64 (.remove 0 9) s = some (r, n) ∧ TrieSpec.separately trieCfg64 0 9 s = some (r, n)) := by
  obtain ⟨s, a, lo, hlo, h⟩ := trieReach
  refine ⟨s, a, h.reach, ?_, ?_⟩
  · obtain ⟨r, n, _, b, e, _, hb, h1, _⟩ := C71_trie _ trieCfg64_ok s a h.reach 0 7 _ h.a0 (by decide)
    exact ⟨r, n, b, e, hb, h1 (by simp)⟩
  · obtain ⟨r, n, _, b, e, _, _, _, h1⟩ := C71_trie _ trieCfg64_ok s a h.reach 0 9 _ h.a0 (by decide)
    exact ⟨r, n, e, (h1 (by simp)).1⟩

/-- Five elements in a `tommy_trie_inplace`. -/
example : ∃ s a, (InpSpec.sys inpCfg).Reach s a ∧
    (∃ r n b, InpSpec.stepC inpCfg (.remove 0 6) s = some (r, n) ∧ 0 < b ∧ InpSpec.separately inpCfg 0 6 s = some (r, n + b + 1)) := by
  obtain ⟨s, a, h⟩ := inpReach
  refine ⟨s, a, h.reach, ?_⟩
  obtain ⟨r, n, _, b, e, _, hb, h1, _⟩ := C71_trieinp _ inpCfg_ok s a h.reach 0 6 _ h.a0 (by decide)
  exact ⟨r, n, b, e, hb, h1 (by simp)⟩

end Tommy
