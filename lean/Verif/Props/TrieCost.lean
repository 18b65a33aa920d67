import Verif.Proof.TrieCost
import Verif.Props.Trie
import Verif.Props.TrieInp
/-
  C60: the calls of the tries read and write a number of words which depends on the configuration only.
  The words are counted by the functions of `Verif.Model.TrieCost`, which do the same of the ones of the model.
-/
set_option autoImplicit false
namespace Tommy

variable [Arch]
open HashSpec (Elem)
open TrieSpec (levels)

/-- **C60** In every state of every history, each call of `tommy_trie` terminates with the result of the model after at
    most `bound` accesses to the memory, whatever the number of elements, their keys and the content of the memory. -/
theorem C60_trie_cost (c : TrieCfg) (hc : TrieSpec.CfgOk c) (s : TrieSpec.St) (a : TrieSpec.Ab) (hr : (TrieSpec.sys c).Reach s a)
    (op : TrieSpec.Op) (hl : TrieSpec.legal c a op) : ∃ r n, TrieSpec.step c op s = some r ∧
      TrieSpec.stepC c op s = some (r, n) ∧ n ≤ TrieSpec.bound c op :=
  TrieCost.trie_step hc hr op hl

/-- **C60** The same for `tommy_trie_inplace`. -/
theorem C60_trieinp_cost (c : TrieCfg) (hc : InpSpec.CfgOk c) (s : InpSpec.St) (a : InpSpec.Ab) (hr : (InpSpec.sys c).Reach s a)
    (op : InpSpec.Op) (hl : InpSpec.legal c a op) : ∃ r n, InpSpec.step c op s = some r ∧
      InpSpec.stepC c op s = some (r, n) ∧ n ≤ InpSpec.bound c op :=
  TrieCost.inp_step hc hr op hl

omit [Arch] in
/-- **C60** The numbers of the default configurations of the 64 bit build: 8 branches for `tommy_trie`, 4 for `tommy_trie_inplace`, keys of
    32 bits. -/
theorem C60_trie_default_bounds (v p d k : Nat) (supply : List Ptr) :
    TrieSpec.bound trieCfg64 (.search v k) = 13 ∧ TrieSpec.bound trieCfg64 (.insert v p d k supply) = 120 ∧
    TrieSpec.bound trieCfg64 (.remove v k) = 133 ∧ TrieSpec.bound trieCfg64 (.removeExisting v p) = 134 ∧
    InpSpec.bound inpCfg (.search v k) = 32 ∧ InpSpec.bound inpCfg (.insert v p d k) = 43 ∧
    InpSpec.bound inpCfg (.remove v k) = 124 ∧ InpSpec.bound inpCfg (.removeExisting v p) = 125 := by
  refine ⟨?_, ?_, ?_, ?_, ?_, ?_, ?_, ?_⟩ <;> (simp only [TrieSpec.bound, InpSpec.bound]; decide)

omit [Arch] in
/-- **C60** The numbers of the default configuration of `tommy_trie` in the 32 bit build: 16 branches, keys of 32 bits. -/
theorem C60_trie_default_bounds32 (v p d k : Nat) (supply : List Ptr) :
    TrieSpec.bound (@trieCfg .w32) (.search v k) = 11 ∧ TrieSpec.bound (@trieCfg .w32) (.insert v p d k supply) = 162 ∧
    TrieSpec.bound (@trieCfg .w32) (.remove v k) = 173 ∧ TrieSpec.bound (@trieCfg .w32) (.removeExisting v p) = 174 := by
  refine ⟨?_, ?_, ?_, ?_⟩ <;> (simp only [TrieSpec.bound]; decide)

/-- **C60** The bound of the search does not decrease when the elements are few: if the trie contains two keys which
    differ in the last digit only, then the search of one of them does exactly the accesses of the bound. -/
theorem C60_trie_search_exact (c : TrieCfg) (hc : TrieSpec.CfgOk c) (h2 : 2 ≤ levels c) (s : TrieSpec.St) (a : TrieSpec.Ab)
    (hr : (TrieSpec.sys c).Reach s a) (v : Nat) (es : List Elem) (hv : a.val v = some es) (e f : Elem) (he : e ∈ es) (hf : f ∈ es)
    (hne : f.hash ≠ e.hash) (hd : e.hash / c.treeMax = f.hash / c.treeMax) :
    ∃ r, TrieSpec.stepC c (.search v e.hash) s = some (r, TrieSpec.bound c (.search v e.hash)) :=
  TrieCost.search_exact hc hr hv he hf hne hd h2

/-- **C60** With two elements only, in the default configuration, a search does 13 accesses. -/
theorem C60_trie_two : ∃ s a, (TrieSpec.sys trieCfg64).Reach s a ∧ a.val 0 = some [⟨32, 10, 6⟩, ⟨64, 20, 7⟩] ∧
    ∃ r, TrieSpec.stepC trieCfg64 (.search 0 6) s = some (r, 13) := by
  obtain ⟨_, _, h⟩ := TrieEx.start
  obtain ⟨_, _, h⟩ := h.insert0 32 10 6 (by decide) (by decide) (by decide) (by decide) (by simp) (by simp)
  obtain ⟨s, a, h⟩ := h.insert0 64 20 7 (by decide) (by decide) (by decide) (by decide) (by simp) (by simp)
  exact ⟨s, a, h.reach, h.a0, C60_trie_search_exact trieCfg64 trieCfg64_ok (by decide) s a h.reach 0 _ h.a0 ⟨32, 10, 6⟩ ⟨64, 20, 7⟩
    (by simp) (by simp) (by decide) (by decide)⟩

/-! ### Non vacuity -/

/-- `tommy_trie`, four elements: the search of a key, the remove of another one. -/
example : ∃ s a, (TrieSpec.sys trieCfg64).Reach s a ∧
    (∃ s' n, TrieSpec.stepC trieCfg64 (.search 0 6) s = some ((⟨.val 10, [], []⟩, s'), n) ∧ n ≤ 13) ∧
    (∃ F s' n, TrieSpec.stepC trieCfg64 (.remove 0 7) s = some ((⟨.val 20, [], F⟩, s'), n) ∧ n ≤ 133) := by
  obtain ⟨s, a, lo, hlo, h⟩ := trieReach
  have so : (a.val 0).isSome := by rw [h.a0]; rfl
  refine ⟨s, a, h.reach, ?_, ?_⟩
  · obtain ⟨out, s', e, al⟩ := C36_trie_multimap _ trieCfg64_ok s a h.reach (.search 0 6) ⟨so, by decide⟩
    obtain ⟨r, n, e1, e2, hn⟩ := C60_trie_cost trieCfg64 trieCfg64_ok s a h.reach (.search 0 6) ⟨so, by decide⟩
    obtain rfl := Option.some.inj (e1.symm.trans e)
    exact ⟨s', n, (show out = _ from al _ h.a0) ▸ e2, (C60_trie_default_bounds 0 0 0 6 []).1 ▸ hn⟩
  · obtain ⟨out, s', e, al⟩ := C36_trie_multimap _ trieCfg64_ok s a h.reach (.remove 0 7) ⟨so, by decide⟩
    obtain ⟨r, n, e1, e2, hn⟩ := C60_trie_cost trieCfg64 trieCfg64_ok s a h.reach (.remove 0 7) ⟨so, by decide⟩
    obtain rfl := Option.some.inj (e1.symm.trans e)
    obtain ⟨F, _, _, rfl⟩ := al _ h.a0
    exact ⟨F, s', n, e2, (C60_trie_default_bounds 0 0 0 7 []).2.2.1 ▸ hn⟩

/-- `tommy_trie_inplace`, five elements: the search of a key, the remove of another one. -/
example : ∃ s a, (InpSpec.sys inpCfg).Reach s a ∧
    (∃ s' n, InpSpec.stepC inpCfg (.search 0 6) s = some ((.val 10, s'), n) ∧ n ≤ 32) ∧
    (∃ r s' n, InpSpec.stepC inpCfg (.remove 0 6) s = some ((.val r, s'), n) ∧ n ≤ 124) := by
  obtain ⟨s, a, h⟩ := inpReach
  have so : (a.val 0).isSome := by rw [h.a0]; rfl
  refine ⟨s, a, h.reach, ?_, ?_⟩
  · obtain ⟨out, s', e, al⟩ := C39_trieinp_default s a h.reach (.search 0 6) ⟨so, by decide⟩
    obtain ⟨r, n, e1, e2, hn⟩ := C60_trieinp_cost inpCfg inpCfg_ok s a h.reach (.search 0 6) ⟨so, by decide⟩
    obtain rfl := Option.some.inj (e1.symm.trans e)
    exact ⟨s', n, (show out = _ from al _ h.a0) ▸ e2, (C60_trie_default_bounds 0 0 0 6 []).2.2.2.2.1 ▸ hn⟩
  · obtain ⟨out, s', e, al⟩ := C39_trieinp_default s a h.reach (.remove 0 6) ⟨so, by decide⟩
    obtain ⟨r, n, e1, e2, hn⟩ := C60_trieinp_cost inpCfg inpCfg_ok s a h.reach (.remove 0 6) ⟨so, by decide⟩
    obtain rfl := Option.some.inj (e1.symm.trans e)
    exact ⟨_, s', n, (show out = _ from al _ h.a0) ▸ e2, (C60_trie_default_bounds 0 0 0 6 []).2.2.2.2.2.2.1 ▸ hn⟩

/-- Keys of 64 bits and 16 branches: at most 19 accesses for a search. -/
example (v k : Nat) : TrieSpec.bound ⟨64, 16⟩ (.search v k) = 19 := by simp only [TrieSpec.bound]; decide

end Tommy
