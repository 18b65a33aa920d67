import Verif.Props.List
import Verif.Proof.SortCost
import Verif.Proof.SortErase
/-!
  Properties C53 and C54: the number of comparisons of the sort (tommylist.h:293-300, tommychain.h:139-150).

  `listSortC` is the sort with a counter of the calls of the comparison function. Each theorem says also that the
  run without the counter gives the same result.
-/
set_option autoImplicit false
namespace Tommy

variable [Arch]
open ListSpec

/-- Both the models of the sort give the list `p'` and the memory `h'`, with `k` comparisons. -/
def SortRun (p : Ptr) (cmp : Nat → Nat → Int) (h : Heap) (p' : Ptr) (h' : Heap) (k : Nat) : Prop :=
  listSortC p cmp h = some ((p', k), h') ∧ listSort p cmp h = some (p', h')

/-- **C53** The sort of `n` elements calls the comparison function at most `n * (log2 n + 3)` times, for any function,
    also not an order. -/
theorem C53_sort_cost (s : St) (a : Ab) (hr : ListSpec.sys.Reach s a) (v : Nat) (l) (hl : a.val v = some l)
    (cmp : Nat → Nat → Int) :
    ∃ p' h' k, SortRun (s.var v) cmp s.heap p' h' k ∧ k ≤ l.length * (Nat.log2 l.length + 3) := by
  have i := reach_inv hr
  have hlen := i.length_lt hl
  obtain ⟨p', h', ys, k, e, _, _, hk, _⟩ := listSortC_bound cmp (i.rep v l hl).1 hlen
  exact ⟨p', h', k, ⟨e, listSortC_erase cmp _ _ _ _ e⟩, by simpa using hk⟩

/-- **C54** If the list is already ordered the sort makes exactly `n - 1` comparisons, and the list has the same
    sequence of nodes. The comparison function has only to say that each element is not after the following ones. -/
theorem C54_sort_ordered (s : St) (a : Ab) (hr : ListSpec.sys.Reach s a) (v : Nat) (l) (hl : a.val v = some l)
    (cmp : Nat → Nat → Int) (ho : l.Pairwise (fun x y => cmp x.2 y.2 ≤ 0)) :
    ∃ p' h', SortRun (s.var v) cmp s.heap p' h' (l.length - 1) ∧ WellLinked h' p' (l.map Prod.fst) := by
  have i := reach_inv hr
  have hlen := i.length_lt hl
  have hR := i.rep v l hl
  have ho' : (l.map Prod.fst).Pairwise (fun x y => cmp (s.heap.data x) (s.heap.data y) ≤ 0) := by
    rw [hR.2, List.pairwise_map] at ho
    exact ho
  obtain ⟨p', h', e, il, _⟩ := listSortC_ordered cmp hR.1 hlen ho'
  rw [List.length_map] at e
  exact ⟨p', h', ⟨e, listSortC_erase cmp _ _ _ _ e⟩, IsList.wellLinked il⟩

/-- C54, for the opposite order: `2 * (n - 1)` comparisons, and the list is reversed. -/
theorem C54_sort_decreasing (s : St) (a : Ab) (hr : ListSpec.sys.Reach s a) (v : Nat) (l) (hl : a.val v = some l)
    (cmp : Nat → Nat → Int) (ho : l.Pairwise (fun x y => cmp x.2 y.2 > 0 ∧ cmp y.2 x.2 < 0)) :
    ∃ p' h', SortRun (s.var v) cmp s.heap p' h' (2 * (l.length - 1)) ∧
      WellLinked h' p' (l.map Prod.fst).reverse := by
  have i := reach_inv hr
  have hlen := i.length_lt hl
  have hR := i.rep v l hl
  have ho' : (l.map Prod.fst).Pairwise (fun x y => cmp (s.heap.data x) (s.heap.data y) > 0 ∧
      cmp (s.heap.data y) (s.heap.data x) < 0) := by
    rw [hR.2, List.pairwise_map] at ho
    exact ho
  obtain ⟨p', h', e, il, _⟩ := listSortC_decreasing cmp hR.1 hlen ho'
  rw [List.length_map] at e
  exact ⟨p', h', ⟨e, listSortC_erase cmp _ _ _ _ e⟩, IsList.wellLinked il⟩

/-- C53 on the list of four elements of the examples of C01. -/
example : ∃ s a p' h' k, ListSpec.sys.Reach s a ∧
    SortRun (s.var 0) (fun a b => (a : Int) - (b : Int)) s.heap p' h' k ∧ k ≤ 20 := by
  obtain ⟨s, a, hr, hl, _⟩ := exReach
  obtain ⟨p', h', k, h1, h2⟩ := C53_sort_cost s a hr 0 _ hl (fun a b => (a : Int) - (b : Int))
  exact ⟨s, a, p', h', k, hr, h1, h2.trans (by decide)⟩

/-- C54 on a list of three elements 10, 20, 30: 2 comparisons. -/
example : ∃ s a p' h', ListSpec.sys.Reach s a ∧
    SortRun (s.var 0) (fun a b => (a : Int) - (b : Int)) s.heap p' h' 2 ∧ WellLinked h' p' [2, 4, 9] := by
  have hc := C01_list_sequence
  have r0 : ListSpec.sys.Reach exSt exAb := .init exInit
  obtain ⟨_, _, r1, _⟩ := hc.extend r0 (.init 0) trivial
  obtain ⟨_, _, r3, _⟩ := hc.extend r1 (.insertTail 0 9 30)
    ⟨rfl, rfl, by rintro ⟨v, l, hl, hp⟩; simp [sys, next, upd, exAb] at hl; grind⟩
  obtain ⟨_, _, r4, _⟩ := hc.extend r3 (.insertHead 0 4 20)
    ⟨rfl, rfl, by rintro ⟨v, l, hl, hp⟩; simp [sys, next, upd, exAb, Ab.get] at hl; grind⟩
  obtain ⟨_, _, r5, _⟩ := hc.extend r4 (.insertHead 0 2 10)
    ⟨rfl, rfl, by rintro ⟨v, l, hl, hp⟩; simp [sys, next, upd, exAb, Ab.get] at hl; grind⟩
  obtain ⟨p', h', h1, h2⟩ := C54_sort_ordered _ _ r5 0 [(2, 10), (4, 20), (9, 30)] rfl
    (fun a b => (a : Int) - (b : Int)) (by simp)
  exact ⟨_, _, p', h', r5, h1, h2⟩

/-- C54 in the opposite order: a list of three elements 30, 20, 10 takes 4 comparisons. -/
example : ∃ s a p' h', ListSpec.sys.Reach s a ∧
    SortRun (s.var 0) (fun a b => (a : Int) - (b : Int)) s.heap p' h' 4 ∧ WellLinked h' p' [2, 4, 9] := by
  have hc := C01_list_sequence
  have r0 : ListSpec.sys.Reach exSt exAb := .init exInit
  obtain ⟨_, _, r1, _⟩ := hc.extend r0 (.init 0) trivial
  obtain ⟨_, _, r3, _⟩ := hc.extend r1 (.insertTail 0 9 30)
    ⟨rfl, rfl, by rintro ⟨v, l, hl, hp⟩; simp [sys, next, upd, exAb] at hl; grind⟩
  obtain ⟨_, _, r4, _⟩ := hc.extend r3 (.insertTail 0 4 20)
    ⟨rfl, rfl, by rintro ⟨v, l, hl, hp⟩; simp [sys, next, upd, exAb, Ab.get] at hl; grind⟩
  obtain ⟨_, _, r5, _⟩ := hc.extend r4 (.insertTail 0 2 10)
    ⟨rfl, rfl, by rintro ⟨v, l, hl, hp⟩; simp [sys, next, upd, exAb, Ab.get] at hl; grind⟩
  obtain ⟨p', h', h1, h2⟩ := C54_sort_decreasing _ _ r5 0 [(9, 30), (4, 20), (2, 10)] rfl
    (fun a b => (a : Int) - (b : Int)) (by simp)
  exact ⟨_, _, p', h', r5, h1, h2⟩

end Tommy
