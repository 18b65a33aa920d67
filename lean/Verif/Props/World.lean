import Verif.Proof.WorldParts
/-!
  Property C61: the containers together.
-/
set_option autoImplicit false
namespace Tommy

variable [Arch]
open HashSpec (LiveOk Elem)

/-- **C61** A program with any number of containers of any kinds, with all the nodes in one memory: in every history of
    calls, and of allocations, deallocations and writes of the nodes in no container, each call has no undefined
    behaviour, terminates, and gives the result that its container gives alone. -/
theorem C61_together (ks : Nat → World.Kind) : (World.sys fun i => (ks i).part).Correct :=
  (World.correct fun i => World.kindOk (ks i)).1

/-- C61, said on a sequence of calls from an initial state. -/
theorem C61_history (ks : Nat → World.Kind) (s a) (h : (World.sys fun i => (ks i).part).init s a)
    (ops : List (World.Op fun i => (ks i).part)) : (World.sys fun i => (ks i).part).Runs s a ops :=
  (C61_together ks).runs ops s a (.init h)

/-- C61: what a container sees is always a state that it can reach alone: all that is proved of the reachable states of a
    container holds also for the containers of the program. -/
theorem C61_each (ks : Nat → World.Kind) (s : World.St fun i => (ks i).part) (a)
    (hr : (World.sys fun i => (ks i).part).Reach s a) (i : Nat) : (ks i).part.sys.Reach (s.at i) (a.at i) :=
  ((World.correct fun i => World.kindOk (ks i)).2 s a hr).reach i

/-- C61: the nodes in the containers are live, and each one is in one container only. -/
theorem C61_disjoint (ks : Nat → World.Kind) (s : World.St fun i => (ks i).part) (a)
    (hr : (World.sys fun i => (ks i).part).Reach s a) (i j : Nat) (p : Ptr) (hi : a.stored i p) :
    a.live p = true ∧ (a.stored j p → j = i) := by
  have v := (World.correct fun i => World.kindOk (ks i)).2 s a hr
  refine ⟨v.live i p hi, fun hj => ?_⟩
  by_cases e : j = i
  · exact e
  · exact absurd hi (v.disj j i p e hj)

/-- C61, frame: a call writes only nodes of its container and the node to insert, no node appears or disappears, and
    nothing that is private of the other containers changes. -/
theorem C61_frame (ks : Nat → World.Kind) (s : World.St fun i => (ks i).part) (a)
    (hr : (World.sys fun i => (ks i).part).Reach s a) (i : Nat) (op : (ks i).part.Op)
    (hl : World.legal (fun i => (ks i).part) a (.call i op)) (out s')
    (e : World.step (fun i => (ks i).part) (.call i op) s = some (out, s')) :
    s'.heap.valid = s.heap.valid ∧
    (∀ p, ¬ a.stored i p → (ks i).part.given op ≠ some p → s'.heap.next p = s.heap.next p ∧
      s'.heap.prev p = s.heap.prev p ∧ s'.heap.data p = s.heap.data p ∧ s'.heap.index p = s.heap.index p) ∧
    ∀ j, j ≠ i → s'.priv j = s.priv j := by
  obtain ⟨r, h, e'⟩ := Option.map_eq_some_iff.1 e
  injection e' with _ e'
  subst e'
  obtain ⟨o, s1⟩ := r
  obtain ⟨fv, xs, hx, f⟩ := (World.kindOk (ks i)).frame _ _ _ _ op o s1 (C61_each ks s a hr i) hl.2.1 hl.1 h
  refine ⟨fv, fun p h1 h2 => ?_, fun j hj => Function.update_of_ne hj _ _⟩
  have := f p fun hp => (hx p hp).elim h1 h2
  exact ⟨this.next, this.prev, this.data, this.index⟩

/-- C61: whatever the containers and the memory, there is an initial state. -/
theorem C61_start (ks : Nat → World.Kind) (h : Heap) (hl : LiveOk h.valid) :
    ∃ s a, (World.sys fun i => (ks i).part).init s a ∧ s.heap = h := by
  have key : ∀ k : World.Kind, ∃ x b, k.part.sys.init (k.part.mkS h x) (k.part.mkA h.valid b) := by
    have h0 : HashSpec.StartOk ⟨h, fun _ => none, fun _ _ => none, 0⟩ := ⟨hl, fun _ _ => rfl⟩
    have hash : ∀ {T : Type} (I : HashSpec.Impl T) (start : MM T) (t : T) (m : Mem),
        start ⟨h, fun _ => none, fun _ _ => none, 0⟩ = some (t, m) → m.heap = h → ∃ x b, (World.hashPart I start).sys.init
          ((World.hashPart I start).mkS h x) ((World.hashPart I start).mkA h.valid b) := by
      rintro T I start t m e rfl
      exact ⟨⟨m.vlen, m.vcell, m.vnext, t⟩, [], _, h0, e, rfl, rfl⟩
    intro k
    cases k with
    | list => exact ⟨fun _ => 0, fun _ => none, fun _ => rfl, rfl, hl.zero, fun p hp =>
        Nat.lt_of_lt_of_le (World.lt_add p) (hl.bound p hp)⟩
    | tree => exact ⟨fun _ => treeInit fun _ _ => 0, fun _ => none, fun _ => rfl, rfl, hl⟩
    | hashtable n hn =>
      obtain ⟨t, m, e, _, hm, _⟩ := HashSpec.hashtableInit_spec hn h0
      exact hash _ _ t m e hm
    | hashdyn =>
      obtain ⟨t, m, e, _, hm⟩ := HashSpec.hashdynInit_spec h0
      exact hash _ _ t m e hm
    | hashlin =>
      obtain ⟨t, m, e, _, hm, _⟩ := HashSpec.hashlinInit_spec h0
      exact hash _ _ t m e hm
    | trie c hc =>
      refine ⟨⟨fun _ _ => 0, fun _ => c.bucketMax, [], [], fun v => ⟨v, 0, 0⟩⟩, ⟨fun _ => none, fun _ => [],
        fun _ => decide (c.bucketMax ≠ 0)⟩, fun _ => ⟨rfl, rfl⟩, rfl, hl, fun _ => ?_, fun _ => rfl, fun _ _ e => e⟩
      exact decide_eq_true_iff
  choose x b hx using key
  exact ⟨⟨h, fun i => x (ks i)⟩, ⟨h.valid, fun i => b (ks i)⟩, ⟨rfl, hl, fun i => hx (ks i)⟩, rfl⟩

/-! ### Non vacuity: an object with four nodes, in a list, a hashtable, a tree and a trie -/

namespace WorldEx

/-- The container 0 is a list, 1 a hashdyn, 2 a tree, 3 a trie, the others are lists. -/
def kinds : Nat → World.Kind
  | 0 => .list
  | 1 => .hashdyn
  | 2 => .tree
  | 3 => .trie trieCfg64 trieCfg64_ok
  | _ + 4 => .list

abbrev W := World.sys fun i => (kinds i).part

/-- Nodes at 32, 64, ..., and garbage in them. -/
abbrev heap : Heap := HashEx.m0.heap

theorem liveOk : LiveOk heap.valid := HashEx.start.1

/-- The abstract state, with nothing in the containers from 4. -/
def vals (L : Nat → Option (List (Ptr × Nat))) (H : List Elem) (T : Nat → Option TreeSpec.OSet) (R : World.TrieAb) :
    ∀ i, ((kinds i).part).B
  | 0 => L
  | 1 => H
  | 2 => T
  | 3 => R
  | _ + 4 => fun _ => none

/-- No elements in the tries; the structs are at the odd addresses. -/
def tries0 : World.TrieAb := ⟨fun _ => none, fun _ => [], fun b => decide (b % 2 = 1)⟩

abbrev ab (L : Nat → Option (List (Ptr × Nat))) (H : List Elem) (T : Nat → Option TreeSpec.OSet) (R : World.TrieAb) :
    World.Ab fun i => (kinds i).part := ⟨heap.valid, vals L H T R⟩

theorem start : ∃ s, W.Reach s (ab (fun _ => none) [] (fun _ => none) tries0) ∧ s.heap = heap := by
  have h0 : HashSpec.StartOk ⟨heap, fun _ => none, fun _ _ => none, 0⟩ := ⟨liveOk, fun _ _ => rfl⟩
  obtain ⟨t, m, e, _, hm⟩ := HashSpec.hashdynInit_spec h0
  let priv : ∀ i, ((kinds i).part).P
    | 0 => fun _ => 0
    | 1 => (⟨m.vlen, m.vcell, m.vnext, t⟩ : World.HashPriv Hashdyn)
    | 2 => fun _ => treeInit fun _ _ => 0
    | 3 => (⟨fun _ _ => 0, fun b => if b % 2 = 1 then trieCfg64.bucketMax else 0, [], [], fun v => ⟨2 * v + 1, 0, 0⟩⟩ : World.TriePriv)
    | _ + 4 => fun _ => 0
  refine ⟨⟨heap, priv⟩, .init ⟨rfl, liveOk, ?_⟩, rfl⟩
  intro i
  match i with
  | 0 => exact ⟨fun _ => rfl, rfl, liveOk.zero, fun p hp => Nat.lt_of_lt_of_le (World.lt_add p) (liveOk.bound p hp)⟩
  | 1 =>
    refine ⟨_, h0, ?_, rfl, rfl⟩
    rw [e]
    show some (t, m) = some (t, ⟨heap, m.vlen, m.vcell, m.vnext⟩)
    rw [show heap = m.heap from hm.symm]
  | 2 => exact ⟨fun _ => rfl, rfl, liveOk⟩
  | 3 =>
    refine ⟨fun _ => ⟨rfl, rfl⟩, rfl, liveOk, fun b => ?_, fun v => ?_, fun v w h => ?_⟩
    · show decide (b % 2 = 1) = true ↔ (if b % 2 = 1 then trieCfg64.bucketMax else 0) ≠ 0
      have : trieCfg64.bucketMax ≠ 0 := by decide
      simp [this]
    · show (if (2 * v + 1) % 2 = 1 then trieCfg64.bucketMax else 0) = trieCfg64.bucketMax
      rw [if_pos (by omega)]
    · have : 2 * v + 1 = 2 * w + 1 := h
      omega
  | _ + 4 => exact ⟨fun _ => rfl, rfl, liveOk.zero, fun p hp => Nat.lt_of_lt_of_le (World.lt_add p) (liveOk.bound p hp)⟩

/-- A call, from a reachable state. -/
theorem call {s a} (hr : W.Reach s a) (i : Nat) (op : ((kinds i).part).Op)
    (hl : World.legal (fun i => (kinds i).part) a (.call i op)) :
    ∃ out s', World.step (fun i => (kinds i).part) (.call i op) s = some (.call i out, s') ∧
      (kinds i).part.sys.allowed (a.at i) op out ∧
      W.Reach s' { a with val := Function.update a.val i ((kinds i).part.privA ((kinds i).part.sys.next (a.at i) op out)) } := by
  obtain ⟨out, s', e, out', rfl, al⟩ := C61_together kinds s a hr (.call i op) hl
  refine ⟨out', s', e, al, ?_⟩
  have := Sys.Reach.step (sys := W) (op := .call i op) hr hl e
  simpa only [World.sys, World.next, dif_pos] using this

def cmp (a b : Nat) : Int := (a : Int) - b

omit [Arch] in
theorem cmp_ok : ListSpec.TotalPreorder cmp where
  sign a b := by simp only [cmp]; omega
  trans a b c := by simp only [cmp]; omega

variable {L L' : Nat → Option (List (Ptr × Nat))} {H H' : List Elem} {T T' : Nat → Option TreeSpec.OSet} {R R' : World.TrieAb}

theorem upd0 : Function.update (vals L H T R) 0 L' = vals L' H T R := by
  funext i; match i with | 0 => rfl | 1 => rfl | 2 => rfl | 3 => rfl | _ + 4 => rfl

theorem upd1 : Function.update (vals L H T R) 1 H' = vals L H' T R := by
  funext i; match i with | 0 => rfl | 1 => rfl | 2 => rfl | 3 => rfl | _ + 4 => rfl

theorem upd2 : Function.update (vals L H T R) 2 T' = vals L H T' R := by
  funext i; match i with | 0 => rfl | 1 => rfl | 2 => rfl | 3 => rfl | _ + 4 => rfl

theorem upd3 : Function.update (vals L H T R) 3 R' = vals L H T R' := by
  funext i; match i with | 0 => rfl | 1 => rfl | 2 => rfl | 3 => rfl | _ + 4 => rfl

/-- The node is in no container. -/
theorem notStored {p : Ptr} (h0 : ¬ World.listPart.stored L p) (h1 : p ∉ H.map Elem.node) (h2 : ¬ World.treePart.stored T p)
    (h3 : ¬ (World.triePart trieCfg64).stored R p) : ∀ j, ¬ (ab L H T R).stored j p
  | 0 => h0
  | 1 => h1
  | 2 => h2
  | 3 => h3
  | _ + 4 => fun ⟨_, _, h, _⟩ => nomatch h

/-- The lists: only the variable 0, with some elements. -/
abbrev one {α : Type} (x : α) : Nat → Option α := fun v => if v = 0 then some x else none

omit [Arch] in
theorem upd_one {α : Type} {f : Nat → Option α} {x : α} (h : ∀ v, v ≠ 0 → f v = none) : upd f 0 (some x) = one x := by
  funext v
  by_cases e : v = 0
  · subst e; simp
  · simp [upd_ne e, h v e, e]

omit [Arch] in
theorem one_some {α : Type} {x y : α} {v : Nat} (h : one x v = some y) : v = 0 ∧ y = x := by
  by_cases e : v = 0
  · subst e; simpa [eq_comm] using h
  · simp [e] at h

theorem callList {s} (hr : W.Reach s (ab L H T R)) (op : ListSpec.Op) (ho : ListSpec.isCall op)
    (hl : ListSpec.legal ⟨L, heap.valid⟩ op) (hg : ∀ p, World.listPart.given op = some p → ∀ j, ¬ (ab L H T R).stored j p) :
    ∃ out s', World.step (fun i => (kinds i).part) (.call 0 op) s = some (.call 0 out, s') ∧
      ListSpec.allowed ⟨L, heap.valid⟩ op out ∧ W.Reach s' (ab (ListSpec.next ⟨L, heap.valid⟩ op out).val H T R) := by
  obtain ⟨o, s', e, al, h⟩ := call hr 0 op ⟨ho, hl, fun p hp j _ => hg p hp j⟩
  refine ⟨o, s', e, al, ?_⟩
  show W.Reach s' ⟨_, vals (ListSpec.next ⟨L, heap.valid⟩ op o).val H T R⟩
  rw [← upd0 (L := L) (L' := (ListSpec.next ⟨L, heap.valid⟩ op o).val)]
  exact h

theorem callHash {s} (hr : W.Reach s (ab L H T R)) (op : HashSpec.Op) (ho : HashSpec.isCall op)
    (hl : HashSpec.legal ⟨H, heap.valid⟩ op) (hg : ∀ p, (World.hashPart HashSpec.hashdynImpl hashdynInit).given op = some p → ∀ j, ¬ (ab L H T R).stored j p) :
    ∃ out s', World.step (fun i => (kinds i).part) (.call 1 op) s = some (.call 1 out, s') ∧
      HashSpec.allowed ⟨H, heap.valid⟩ op out ∧ W.Reach s' (ab L (HashSpec.next ⟨H, heap.valid⟩ op out).elems T R) := by
  obtain ⟨o, s', e, al, h⟩ := call hr 1 op ⟨ho, hl, fun p hp j _ => hg p hp j⟩
  refine ⟨o, s', e, al, ?_⟩
  show W.Reach s' ⟨_, vals L (HashSpec.next ⟨H, heap.valid⟩ op o).elems T R⟩
  rw [← upd1 (H := H) (H' := (HashSpec.next ⟨H, heap.valid⟩ op o).elems)]
  exact h

theorem callTree {s} (hr : W.Reach s (ab L H T R)) (op : TreeSpec.Op) (ho : TreeSpec.isCall op)
    (hl : TreeSpec.legal ⟨T, heap.valid⟩ op) (hg : ∀ p, World.treePart.given op = some p → ∀ j, ¬ (ab L H T R).stored j p) :
    ∃ out s', World.step (fun i => (kinds i).part) (.call 2 op) s = some (.call 2 out, s') ∧
      TreeSpec.allowed ⟨T, heap.valid⟩ op out ∧ W.Reach s' (ab L H (TreeSpec.next ⟨T, heap.valid⟩ op out).val R) := by
  obtain ⟨o, s', e, al, h⟩ := call hr 2 op ⟨ho, hl, fun p hp j _ => hg p hp j⟩
  refine ⟨o, s', e, al, ?_⟩
  show W.Reach s' ⟨_, vals L H (TreeSpec.next ⟨T, heap.valid⟩ op o).val R⟩
  rw [← upd2 (T := T) (T' := (TreeSpec.next ⟨T, heap.valid⟩ op o).val)]
  exact h

theorem callTrie {s} (hr : W.Reach s (ab L H T R)) (op : TrieSpec.Op) (ho : TrieSpec.isCall op)
    (hl : TrieSpec.legal trieCfg64 ⟨R.val, R.owned, heap.valid, R.busy⟩ op) (hg : ∀ p, (World.triePart trieCfg64).given op = some p → ∀ j, ¬ (ab L H T R).stored j p) :
    ∃ out s', World.step (fun i => (kinds i).part) (.call 3 op) s = some (.call 3 out, s') ∧
      TrieSpec.allowed trieCfg64 ⟨R.val, R.owned, heap.valid, R.busy⟩ op out ∧ W.Reach s' (ab L H T ((World.triePart trieCfg64).privA (TrieSpec.next ⟨R.val, R.owned, heap.valid, R.busy⟩ op out))) := by
  obtain ⟨o, s', e, al, h⟩ := call hr 3 op ⟨.inl ho, hl, fun p hp j _ => hg p hp j⟩
  refine ⟨o, s', e, al, ?_⟩
  show W.Reach s' ⟨_, vals L H T ((World.triePart trieCfg64).privA (TrieSpec.next ⟨R.val, R.owned, heap.valid, R.busy⟩ op o))⟩
  rw [← upd3 (R := R) (R' := (World.triePart trieCfg64).privA (TrieSpec.next ⟨R.val, R.owned, heap.valid, R.busy⟩ op o))]
  exact h

/-- The object 7 has the nodes 32, 64, 96 and 128, and it is in the four containers. -/
theorem reach1 : ∃ s R, R.val = one [⟨128, 7, 9⟩] ∧
    W.Reach s (ab (one [(32, 7)]) [⟨64, 7, 5⟩] (one ⟨cmp, [(96, 7)]⟩) R) := by
  obtain ⟨s, hr, _⟩ := start
  obtain ⟨o, s, _, al, hr⟩ := callList hr (.init 0) trivial trivial nofun
  simp only [ListSpec.next] at hr
  rw [upd_one fun _ _ => rfl] at hr
  have n32 : ∀ j, ¬ (ab (one []) [] (fun _ => none) tries0).stored j 32 := notStored
    (by rintro ⟨v, l, h, h'⟩; obtain ⟨_, rfl⟩ := one_some h; simp at h')
    (by simp) (by rintro ⟨v, l, h, h'⟩; simp at h) (by rintro ⟨v, l, h, h'⟩; simp [tries0] at h)
  obtain ⟨o, s, _, al, hr⟩ := callList hr (.insertTail 0 32 7) trivial ⟨rfl, rfl, n32 0⟩
    fun p hp => by cases hp; exact n32
  simp only [ListSpec.next, ListSpec.Ab.get] at hr
  rw [upd_one fun v hv => by simp [hv]] at hr
  replace hr : W.Reach s (ab (one [(32, 7)]) [] (fun _ => none) tries0) := hr
  have n64 : ∀ j, ¬ (ab (one [(32, 7)]) [] (fun _ => none) tries0).stored j 64 := notStored
    (by rintro ⟨v, l, h, h'⟩; obtain ⟨_, rfl⟩ := one_some h; simp at h')
    (by simp) (by rintro ⟨v, l, h, h'⟩; simp at h) (by rintro ⟨v, l, h, h'⟩; simp [tries0] at h)
  obtain ⟨o, s, _, al, hr⟩ := callHash hr (.insert 64 7 5) trivial ⟨rfl, n64 1⟩ fun p hp => by cases hp; exact n64
  replace hr : W.Reach s (ab (one [(32, 7)]) [⟨64, 7, 5⟩] (fun _ => none) tries0) := hr
  obtain ⟨o, s, _, al, hr⟩ := callTree hr (.init 0 cmp) trivial cmp_ok nofun
  simp only [TreeSpec.next] at hr
  rw [upd_one fun _ _ => rfl] at hr
  have n96 : ∀ j, ¬ (ab (one [(32, 7)]) [⟨64, 7, 5⟩] (one ⟨cmp, []⟩) tries0).stored j 96 := notStored
    (by rintro ⟨v, l, h, h'⟩; obtain ⟨_, rfl⟩ := one_some h; simp at h')
    (by simp) (by rintro ⟨v, l, h, h'⟩; obtain ⟨_, rfl⟩ := one_some h; simp at h')
    (by rintro ⟨v, l, h, h'⟩; simp [tries0] at h)
  obtain ⟨o, s, _, al, hr⟩ := callTree hr (.insert 0 96 7) trivial ⟨rfl, rfl, n96 2⟩ fun p hp => by cases hp; exact n96
  simp only [TreeSpec.next, TreeSpec.Ab.onSet, if_pos, Option.map_some] at hr
  rw [upd_one fun v hv => by simp [hv]] at hr
  replace hr : W.Reach s (ab (one [(32, 7)]) [⟨64, 7, 5⟩] (one ⟨cmp, [(96, 7)]⟩) tries0) := hr
  obtain ⟨o, s, _, al, hr⟩ := callTrie hr (.init 0) trivial trivial nofun
  obtain ⟨R, hr, r1, r2, r3⟩ : ∃ R : World.TrieAb, W.Reach s (ab (one [(32, 7)]) [⟨64, 7, 5⟩] (one ⟨cmp, [(96, 7)]⟩) R) ∧
      R.val = one [] ∧ (∀ v, R.owned v = []) ∧ ∀ b, R.busy b = decide (b % 2 = 1) := by
    refine ⟨_, hr, upd_one fun _ _ => rfl, fun v => ?_, fun b => ?_⟩
    · show upd (fun _ => []) 0 [] v = []
      rw [upd_apply]; split <;> rfl
    · show (decide (b % 2 = 1) || decide (b ∈ ([] : List Ptr))) = _
      simp
  have n128 : ∀ j, ¬ (ab (one [(32, 7)]) [⟨64, 7, 5⟩] (one ⟨cmp, [(96, 7)]⟩) R).stored j 128 := notStored
    (by rintro ⟨v, l, h, h'⟩; obtain ⟨_, rfl⟩ := one_some h; simp at h')
    (by simp) (by rintro ⟨v, l, h, h'⟩; obtain ⟨_, rfl⟩ := one_some h; simp at h')
    (by rintro ⟨v, l, h, h'⟩; rw [r1] at h; obtain ⟨_, rfl⟩ := one_some h; simp at h')
  obtain ⟨o, s, _, al, hr⟩ := callTrie hr (.insert 0 128 7 9 ((List.range 10).map fun i => 2 ^ 20 + 64 * i)) trivial
    ⟨by rw [r1]; rfl, rfl, n128 3, rfl, by decide, by decide, by decide, fun b hb => by
      have h : b % 2 = 0 ∧ b ≠ 0 ∧ b < 2 ^ sizeBit := by
        have : ∀ b ∈ ((List.range 10).map fun i => 2 ^ 20 + 64 * i), b % 2 = 0 ∧ b ≠ 0 ∧ b < 2 ^ 32 := by decide
        have := this b hb
        exact ⟨this.1, this.2.1, Nat.lt_of_lt_of_le this.2.2 (by arch)⟩
      refine ⟨⟨?_, fun v => ?_⟩, h⟩
      · show R.busy b = false
        rw [r3]; simp [h.1]
      · show b ∉ R.owned v
        rw [r2]; exact List.not_mem_nil⟩ fun p hp => by cases hp; exact n128
  refine ⟨s, _, ?_, hr⟩
  show upd R.val 0 ((R.val 0).map fun es => es ++ [⟨128, 7, 9⟩]) = _
  rw [r1]
  exact upd_one fun v hv => by simp [hv]

/-- The four containers find the object; when it is removed from the hashtable, and the memory of its node is released, it
    is still in the others. -/
example : ∃ s R, W.Reach s (ab (one [(32, 7)]) [⟨64, 7, 5⟩] (one ⟨cmp, [(96, 7)]⟩) R) ∧
    (∃ s', World.step (fun i => (kinds i).part) (.call 0 (.walk 0)) s = some (.call 0 (.seq [(32, 7)]), s')) ∧
    (∃ s', World.step (fun i => (kinds i).part) (.call 2 (.search 0 7)) s = some (.call 2 (.val 7), s')) ∧
    (∃ s', World.step (fun i => (kinds i).part) (.call 3 (.search 0 9)) s = some (.call 3 ⟨.val 7, [], []⟩, s')) ∧
    (∃ s', World.step (fun i => (kinds i).part) (.call 1 (.remove (fun d => cmp 7 d) 5)) s = some (.call 1 (.val 7), s') ∧
      W.Reach s' (ab (one [(32, 7)]) [] (one ⟨cmp, [(96, 7)]⟩) R) ∧
      ∃ s'', World.step (fun i => (kinds i).part) (.act (.free 64)) s' = some (.act, s'') ∧
        ∃ s3, World.step (fun i => (kinds i).part) (.call 2 (.search 0 7)) s'' = some (.call 2 (.val 7), s3)) := by
  obtain ⟨s, R, hR, hr⟩ := reach1
  refine ⟨s, R, hr, ?_, ?_, ?_, ?_⟩
  · obtain ⟨o, s', e, al, _⟩ := callList hr (.walk 0) trivial rfl nofun
    cases (show o = .seq [(32, 7)] from al)
    exact ⟨s', e⟩
  · obtain ⟨o, s', e, al, _⟩ := callTree hr (.search 0 7) trivial rfl nofun
    cases (show o = .val 7 from al _ rfl)
    exact ⟨s', e⟩
  · obtain ⟨o, s', e, al, _⟩ := callTrie hr (.search 0 9) trivial ⟨by rw [hR]; rfl, by decide⟩ nofun
    cases (show o = ⟨.val 7, [], []⟩ from al [⟨128, 7, 9⟩] (by rw [hR]; rfl))
    exact ⟨s', e⟩
  · obtain ⟨o, s', e, al, hr⟩ := callHash hr (.remove (fun d => cmp 7 d) 5) trivial trivial nofun
    cases (show o = .val 7 from al)
    refine ⟨s', e, hr, _, rfl, ?_⟩
    have hl : World.legal (fun i => (kinds i).part) (ab (one [(32, 7)]) [] (one ⟨cmp, [(96, 7)]⟩) R) (.act (.free 64)) := by
      refine ⟨rfl, fun ⟨j, h⟩ => notStored ?_ ?_ ?_ ?_ j h⟩
      · rintro ⟨v, l, h, h'⟩; obtain ⟨_, rfl⟩ := one_some h; simp at h'
      · simp
      · rintro ⟨v, l, h, h'⟩; obtain ⟨_, rfl⟩ := one_some h; simp at h'
      · rintro ⟨v, l, h, h'⟩; rw [hR] at h; obtain ⟨_, rfl⟩ := one_some h; simp at h'
    have h2 := Sys.Reach.step (sys := W) (op := .act (.free 64)) hr hl rfl
    obtain ⟨o, s3, e, al, _⟩ := call h2 2 (.search 0 7) ⟨trivial, rfl, nofun⟩
    cases (show o = .val 7 from al _ rfl)
    exact ⟨s3, e⟩

/-- What is proved of a container alone holds in the mixed program, from C61_each: the links of the list (C02) and the
    height of the tree (C34). -/
example : ∃ (s : World.St fun i => (kinds i).part) (var : Nat → Ptr) (tree : Nat → Tree),
    ListSpec.WellLinked s.heap (var 0) [32] ∧ ∀ n, TreeSpec.Path s.heap (tree 0).root n → n ≤ 3 := by
  obtain ⟨s, R, hR, hr⟩ := reach1
  refine ⟨s, s.priv 0, s.priv 2, ?_, fun n hn => ?_⟩
  · exact C02_list_links _ _ (C61_each kinds s _ hr 0) 0 [(32, 7)] rfl
  · exact C34_tree_height _ _ (C61_each kinds s _ hr 2) 0 ⟨cmp, [(96, 7)]⟩ rfl n hn

/-- C61_frame on the example: an insert in the tree does not change the nodes of the other containers. -/
example : ∃ (s s' : World.St fun i => (kinds i).part) (out : _), World.step (fun i => (kinds i).part) (.call 2 (.insert 0 160 8)) s = some (out, s') ∧
    s'.heap.next 32 = s.heap.next 32 ∧ s'.heap.index 64 = s.heap.index 64 ∧ s'.heap.prev 128 = s.heap.prev 128 := by
  obtain ⟨s, R, hR, hr⟩ := reach1
  have n160 : ∀ j, ¬ (ab (one [(32, 7)]) [⟨64, 7, 5⟩] (one ⟨cmp, [(96, 7)]⟩) R).stored j 160 := notStored
    (by rintro ⟨v, l, h, h'⟩; obtain ⟨_, rfl⟩ := one_some h; simp at h')
    (by simp) (by rintro ⟨v, l, h, h'⟩; obtain ⟨_, rfl⟩ := one_some h; simp at h')
    (by rintro ⟨v, l, h, h'⟩; rw [hR] at h; obtain ⟨_, rfl⟩ := one_some h; simp at h')
  have hl : World.legal (fun i => (kinds i).part) (ab (one [(32, 7)]) [⟨64, 7, 5⟩] (one ⟨cmp, [(96, 7)]⟩) R)
      (.call 2 (.insert 0 160 8)) := ⟨trivial, ⟨rfl, rfl, n160 2⟩, fun p hp j _ => by cases hp; exact n160 j⟩
  obtain ⟨o, s', e, _⟩ := call hr 2 (.insert 0 160 8) hl
  obtain ⟨_, f, _⟩ := C61_frame kinds s _ hr 2 (.insert 0 160 8) hl _ s' e
  have ns : ∀ p, p ≠ 96 → ¬ (ab (one [(32, 7)]) [⟨64, 7, 5⟩] (one ⟨cmp, [(96, 7)]⟩) R).stored 2 p := by
    rintro p hp ⟨v, l, h, h'⟩
    obtain ⟨_, rfl⟩ := one_some h
    simp only [List.map_cons, List.map_nil, List.mem_singleton] at h'
    exact hp h'
  have ng : ∀ p, p ≠ 160 → (kinds 2).part.given (.insert 0 160 8) ≠ some p := by
    rintro p hp h
    cases h
    exact hp rfl
  exact ⟨s, s', _, e, (f 32 (ns 32 (by decide)) (ng 32 (by decide))).1,
    (f 64 (ns 64 (by decide)) (ng 64 (by decide))).2.2.2, (f 128 (ns 128 (by decide)) (ng 128 (by decide))).2.1⟩

end WorldEx
end Tommy
