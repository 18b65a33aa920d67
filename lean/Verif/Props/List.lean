import Verif.Proof.ListFrame
/-!
  Properties C01 - C07 (tommylist.h, tommylist.c, tommychain.h).
-/
set_option linter.unusedSimpArgs false
set_option autoImplicit false
namespace Tommy

variable [Arch]
open ListSpec

/-- **C01** Every history of list calls, on any number of lists, with any foreign write between the
    calls, has no undefined behaviour, terminates, and gives the results of the sequences. -/
theorem C01_list_sequence : ListSpec.sys.Correct :=
  Sys.correct_of_inv (Inv := Inv) init_inv step_inv

/-- C01, said on a sequence of calls from an initial state. -/
theorem C01_list_history (s : St) (a : Ab) (h : ListSpec.sys.init s a) (ops : List Op) :
    ListSpec.sys.Runs s a ops :=
  C01_list_sequence.runs ops s a (.init h)

/-- **C02** In every reachable state every list is well linked in both directions. -/
theorem C02_list_links (s : St) (a : Ab) (hr : ListSpec.sys.Reach s a) (v : Nat) (l) (hl : a.val v = some l) :
    WellLinked s.heap (s.var v) (l.map Prod.fst) :=
  IsList.wellLinked ((reach_inv hr).rep v l hl).1

/-- **C03** Sort gives a sorted permutation. -/
theorem C03_list_sort_sorted (s : St) (a : Ab) (hr : ListSpec.sys.Reach s a) (v : Nat) (l)
    (hl : a.val v = some l) (cmp : Nat → Nat → Int) (hcmp : TotalPreorder cmp) :
    ∃ l' s', step (.sort v cmp) s = some (.seq l', s') ∧ l'.Perm l ∧
      l'.Pairwise (fun x y => cmp x.2 y.2 ≤ 0) := by
  obtain ⟨l', s', e, pm, so, _⟩ := sortOp (reach_inv hr) v cmp hl
  exact ⟨l', s', e, pm, (so hcmp).1⟩

/-- **C04** Sort is stable: for each key `d` the subsequence of the elements equal to `d` is the
    same before and after the sort. -/
theorem C04_list_sort_stable (s : St) (a : Ab) (hr : ListSpec.sys.Reach s a) (v : Nat) (l)
    (hl : a.val v = some l) (cmp : Nat → Nat → Int) (hcmp : TotalPreorder cmp) :
    ∃ l' s', step (.sort v cmp) s = some (.seq l', s') ∧
      ∀ d, l'.filter (fun x => cmp d x.2 = 0) = l.filter (fun x => cmp d x.2 = 0) := by
  obtain ⟨l', s', e, pm, so, _⟩ := sortOp (reach_inv hr) v cmp hl
  exact ⟨l', s', e, (so hcmp).2⟩

/-- **C05** Sort with *any* function as comparator returns, and leaves a well linked list with
    the same nodes and payloads, each exactly once. -/
theorem C05_list_sort_any_cmp (s : St) (a : Ab) (hr : ListSpec.sys.Reach s a) (v : Nat) (l)
    (hl : a.val v = some l) (cmp : Nat → Nat → Int) :
    ∃ l' s', step (.sort v cmp) s = some (.seq l', s') ∧ l'.Perm l ∧
      WellLinked s'.heap (s'.var v) (l'.map Prod.fst) := by
  obtain ⟨l', s', e, pm, _, inv⟩ := sortOp (reach_inv hr) v cmp hl
  exact ⟨l', s', e, pm, IsList.wellLinked (inv.rep v l' (by simp)).1⟩

/-- **C06** foreach is the same as calling the callback on each payload in order, for any callback
    (which may write anywhere and deallocate, seen as a memory transformer) that leaves alone
    the elements not yet visited. If the callback itself fails, both sides fail. -/
theorem C06_list_foreach (s : St) (a : Ab) (hr : ListSpec.sys.Reach s a) (v : Nat) (l)
    (hl : a.val v = some l) (func : Nat → HM Unit)
    (hf : ∀ as x bs, l = as ++ x :: bs → ∀ h1 h2, SameNodes s.heap h1 (bs.map Prod.fst) →
      func x.2 h1 = some ((), h2) → SameNodes s.heap h2 (bs.map Prod.fst)) :
    listForeach (s.var v) func s.heap = callAll func (l.map Prod.snd) s.heap := by
  have hR := (reach_inv hr).rep v l hl
  rw [listForeach, listHead, hR.1.head]
  exact foreach_spec func l s.heap hR.1.seg.fwd hR.1.ok (fun x hx => rep_data hR hx)
    (fun x _ => ⟨Iff.rfl, rfl, rfl⟩) hf

/-- **C07** A list call changes only the links of the nodes of the lists passed to it and of the
    inserted node, the payload of the inserted node, and the list variable; never `index`. -/
theorem C07_list_frame (s : St) (a : Ab) (hr : ListSpec.sys.Reach s a) (op : Op) (hleg : legal a op)
    (hc : isCall op) (out : Out) (s' : St) (e : step op s = some (out, s')) :
    (∀ q, ¬ mayLink a op q → s'.heap.next q = s.heap.next q ∧ s'.heap.prev q = s.heap.prev q) ∧
    (∀ q, ¬ mayData op q → s'.heap.data q = s.heap.data q) ∧
    s'.heap.index = s.heap.index ∧ s'.heap.valid = s.heap.valid ∧
    (∀ w, ¬ mayVar op w → s'.var w = s.var w) :=
  step_frame (reach_inv hr) hleg hc e

/-! ### Non vacuity -/

/-- A memory with nodes 1 ... 99 and garbage everywhere. -/
def exHeap : Heap where
  valid p := decide (0 < p ∧ p < 100)
  next p := p * 7
  prev p := p + 1
  data p := p
  index p := p
def exSt : St := { heap := exHeap, var := fun v => v + 5 }
def exAb : Ab := { val := fun _ => none, live := fun p => decide (0 < p ∧ p < 100) }

theorem exInit : ListSpec.sys.init exSt exAb := by
  refine ⟨fun _ => rfl, rfl, rfl, ?_⟩
  intro p hp
  simp [exAb] at hp
  exact Nat.lt_trans hp.2 (by arch)

/-- A reachable state with a list of four elements, two of them equal. -/
theorem exReach : ∃ s a, ListSpec.sys.Reach s a ∧ a.val 0 = some [(4, 20), (9, 30), (2, 10), (7, 20)] ∧
    a.val 1 = some [] := by
  have hc := C01_list_sequence
  have r0 : ListSpec.sys.Reach exSt exAb := .init exInit
  obtain ⟨_, _, r1, _⟩ := hc.extend r0 (.init 0) trivial
  obtain ⟨_, _, r2, _⟩ := hc.extend r1 (.init 1) trivial
  obtain ⟨_, _, r3, _⟩ := hc.extend r2 (.insertTail 0 2 10)
    ⟨rfl, rfl, by rintro ⟨v, l, hl, hp⟩; simp [sys, next, upd, exAb] at hl; grind⟩
  obtain ⟨_, _, r4, _⟩ := hc.extend r3 (.insertHead 0 9 30)
    ⟨rfl, rfl, by rintro ⟨v, l, hl, hp⟩; simp [sys, next, upd, exAb, Ab.get] at hl; grind⟩
  obtain ⟨_, _, r5, _⟩ := hc.extend r4 (.insertHead 0 4 20)
    ⟨rfl, rfl, by rintro ⟨v, l, hl, hp⟩; simp [sys, next, upd, exAb, Ab.get] at hl; grind⟩
  obtain ⟨_, _, r6, _⟩ := hc.extend r5 (.insertTail 0 7 20)
    ⟨rfl, rfl, by rintro ⟨v, l, hl, hp⟩; simp [sys, next, upd, exAb, Ab.get] at hl; grind⟩
  exact ⟨_, _, r6, rfl, rfl⟩

omit [Arch] in
/-- The usual comparison of numbers is a total preorder. -/
theorem exCmp : TotalPreorder (fun a b => (a : Int) - (b : Int)) :=
  ⟨by intros; omega, by intros; omega⟩

example : ∃ s a l, ListSpec.sys.Reach s a ∧ a.val 0 = some l ∧ l.length = 4 ∧
    ∃ l' s', step (.sort 0 (fun a b => (a : Int) - (b : Int))) s = some (.seq l', s') ∧ l'.Perm l ∧
      l'.Pairwise (fun x y => (x.2 : Int) - y.2 ≤ 0) := by
  obtain ⟨s, a, hr, hl, _⟩ := exReach
  exact ⟨s, a, _, hr, hl, rfl, C03_list_sort_sorted s a hr 0 _ hl _ exCmp⟩

/-- C02 on the example: four nodes. -/
example : ∃ s a, ListSpec.sys.Reach s a ∧ WellLinked s.heap (s.var 0) [4, 9, 2, 7] := by
  obtain ⟨s, a, hr, hl, _⟩ := exReach
  exact ⟨s, a, hr, C02_list_links s a hr 0 _ hl⟩

/-- C05: a function which is not an order. -/
example : ¬ TotalPreorder (fun _ _ => 1) := fun t => by
  have := t.sign 0 0; simp at this

/-- C06: the callback which deallocates the node whose payload is given satisfies the hypothesis
    when the payloads are distinct (here payload `10 * node`). -/
example (s : St) (l : List (Ptr × Nat)) (hd : (l.map Prod.fst).Nodup) (hl : ∀ x ∈ l, x.2 = 10 * x.1) :
    ∀ as x bs, l = as ++ x :: bs → ∀ h1 h2, SameNodes s.heap h1 (bs.map Prod.fst) →
      (fun d : Nat => ((fun h => some ((),
        { h with valid := upd h.valid (d / 10) false, next := upd h.next (d / 10) 666 })) : HM Unit))
        x.2 h1 = some ((), h2) →
      SameNodes s.heap h2 (bs.map Prod.fst) := by
  intro as x bs e h1 h2 same hf y hy
  have hx : x.2 / 10 = x.1 := by rw [hl x (by simp [e])]; omega
  simp only [hx, Option.some.injEq, Prod.mk.injEq, true_and] at hf
  subst hf
  have hyx : y ≠ x.1 := by
    rintro rfl
    rw [e] at hd
    simp only [List.map_append, List.map_cons] at hd
    exact (List.nodup_cons.1 (List.nodup_append.1 hd).2.1).1 hy
  have := same y hy
  simp only [Heap.ok, upd_ne hyx] at *
  exact this

/-- C07: a legal call that changes something, in a reachable state. -/
example : ∃ s a, ListSpec.sys.Reach s a ∧ legal a (.removeExisting 0 9) ∧ isCall (.removeExisting 0 9) ∧
    legal a (.concat 1 0) := by
  obtain ⟨s, a, hr, hl, hl1⟩ := exReach
  exact ⟨s, a, hr, ⟨_, hl, by simp⟩, trivial, by decide, by simp [hl1], by simp [hl]⟩

end Tommy
