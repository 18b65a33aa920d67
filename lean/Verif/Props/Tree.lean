import Verif.Proof.TreeShape
/-!
  Properties C31 - C35 (tommytree.h, tommytree.c).
-/
set_option linter.unusedSimpArgs false
set_option autoImplicit false
namespace Tommy

variable [Arch]
open TreeSpec TreeP
open ListSpec (TotalPreorder callAll)

/-- **C31** Every history of calls on any number of trees in the same memory, with any foreign write
    between the calls, has no undefined behaviour, terminates, and gives the results of the sets. -/
theorem C31_tree_set : TreeSpec.sys.Correct :=
  Sys.correct_of_inv (Inv := TreeSpec.Inv) TreeSpec.init_inv TreeSpec.step_inv

/-- C31, said on a sequence of calls from an initial state. -/
theorem C31_tree_history (s : TreeSpec.St) (a : TreeSpec.Ab) (h : TreeSpec.sys.init s a) (ops : List TreeSpec.Op) :
    TreeSpec.sys.Runs s a ops :=
  C31_tree_set.runs ops s a (.init h)

/-- C31, the set really has no equal elements, in every reachable state. -/
theorem C31_no_equal (s : TreeSpec.St) (a : TreeSpec.Ab) (hr : TreeSpec.sys.Reach s a) (v : Nat) (o : OSet)
    (ho : a.val v = some o) : o.elems.Pairwise fun x y => o.cmp x.2 y.2 ≠ 0 := by
  obtain ⟨t, k⟩ := (TreeSpec.reach_inv hr).tree v o ho
  have nd : (o.elems.map Prod.fst).Nodup := k.perm.nodup_iff.1 k.nodup
  have nd' : o.elems.Pairwise fun x y => x.1 ≠ y.1 := List.pairwise_map.1 nd
  refine nd'.imp_of_mem ?_
  intro x y hx hy hne hc
  have hx' := (k.mem x.1).2 (List.mem_map_of_mem hx)
  have hy' := (k.mem y.1).2 (List.mem_map_of_mem hy)
  refine hne (inc_unique k.tp k.inc (d := x.2) hx' hy' ?_ ?_)
  · rw [k.data x hx]; exact TP.refl k.tp _
  · rw [k.data y hy]; exact hc

/-- C31, frame: a call changes only the nodes of its own tree and the inserted node. -/
theorem C31_tree_frame (s : TreeSpec.St) (a : TreeSpec.Ab) (hr : TreeSpec.sys.Reach s a) (op : TreeSpec.Op)
    (hleg : TreeSpec.legal a op) (hc : TreeSpec.isCall op) (out : TreeSpec.Out) (s' : TreeSpec.St)
    (e : TreeSpec.step op s = some (out, s')) :
    (∀ q, ¬ TreeSpec.mayLink a op q → s'.heap.next q = s.heap.next q ∧ s'.heap.prev q = s.heap.prev q ∧
      s'.heap.index q = s.heap.index q) ∧
    (∀ q, ¬ TreeSpec.mayData op q → s'.heap.data q = s.heap.data q) ∧ s'.heap.valid = s.heap.valid ∧
    (∀ w, ¬ TreeSpec.mayVar op w → s'.var w = s.var w) := by
  have i := TreeSpec.reach_inv hr
  have rem : ∀ v (o : OSet) d, a.val v = some o → ∀ tr' r h', treeRemove (s.var v) d s.heap = some ((tr', r), h') →
      (∀ q, (¬ ∃ o', a.val v = some o' ∧ q ∈ o'.elems.map Prod.fst) → h'.next q = s.heap.next q ∧ h'.prev q = s.heap.prev q ∧
        h'.index q = s.heap.index q) ∧ h'.data = s.heap.data ∧ h'.valid = s.heap.valid := by
    intro v o d ho tr' r h' e
    obtain ⟨tr1, h1, e1, f, _⟩ := remove_run i ho d
    rw [e] at e1
    simp only [Option.some.injEq, Prod.mk.injEq] at e1
    obtain ⟨_, rfl⟩ := e1
    exact ⟨fun q hq => f.out q fun hm => hq ⟨o, ho, hm⟩, f.data, f.valid⟩
  cases op with
  | init v cmp =>
    simp only [TreeSpec.step, Option.some.injEq, Prod.mk.injEq] at e
    obtain ⟨_, rfl⟩ := e
    exact ⟨fun q _ => ⟨rfl, rfl, rfl⟩, fun q _ => rfl, rfl, fun w hw => upd_ne hw⟩
  | insert v p d =>
    obtain ⟨h1, h2, h3⟩ := hleg
    obtain ⟨o, ho⟩ := Option.isSome_iff_exists.1 h1
    obtain ⟨tr', h', e1, f, _⟩ := insert_run i ho (d := d) h2 h3
    simp only [TreeSpec.step, e1, Option.map_some, Option.some.injEq, Prod.mk.injEq] at e
    obtain ⟨_, rfl⟩ := e
    refine ⟨fun q hq => ?_, fun q hq => ?_, f.valid, fun w hw => upd_ne hw⟩
    · have hqp : q ≠ p := fun e => hq (Or.inl e)
      obtain ⟨a1, a2, a3⟩ := f.out q fun hm => by
        rcases List.mem_cons.1 hm with hm | hm
        · exact hqp hm
        · exact hq (Or.inr ⟨o, ho, hm⟩)
      exact ⟨a1.trans (upd_ne hqp), a2.trans (upd_ne hqp), a3.trans (upd_ne hqp)⟩
    · show h'.data q = _
      rw [f.data]; exact upd_ne hq
  | remove v d =>
    obtain ⟨o, ho⟩ := Option.isSome_iff_exists.1 hleg
    simp only [TreeSpec.step, Option.map_eq_some_iff] at e
    obtain ⟨⟨⟨tr', r⟩, h'⟩, e1, e2⟩ := e
    simp only [Prod.mk.injEq] at e2
    obtain ⟨_, rfl⟩ := e2
    obtain ⟨b1, b2, b3⟩ := rem v o d ho _ _ _ e1
    exact ⟨b1, fun q _ => by rw [b2], b3, fun w hw => upd_ne hw⟩
  | removeExisting v p =>
    obtain ⟨o, x, ho, hx, rfl, hx0⟩ := hleg
    obtain ⟨t, k⟩ := i.tree v o ho
    have hxt := (k.mem x.1).2 (List.mem_map_of_mem hx)
    simp only [TreeSpec.step, Option.map_eq_some_iff] at e
    obtain ⟨⟨⟨tr', r⟩, h'⟩, e1, e2⟩ := e
    simp only [Prod.mk.injEq] at e2
    obtain ⟨_, rfl⟩ := e2
    unfold treeRemoveExisting at e1
    simp only [run_bind, getData_run (k.rep.ok _ hxt), Option.bind_some] at e1
    cases hrm : treeRemove (s.var v) (s.heap.data x.1) s.heap with
    | none => rw [hrm] at e1; cases e1
    | some y =>
      obtain ⟨⟨tr1, r1⟩, h1⟩ := y
      rw [hrm] at e1
      simp only [Option.bind_some] at e1
      by_cases h0 : r1 ≠ 0
      · rw [if_pos h0] at e1
        simp only [pure, StateT.pure, Option.some.injEq, Prod.mk.injEq] at e1
        obtain ⟨_, rfl⟩ := e1
        obtain ⟨b1, b2, b3⟩ := rem v o _ ho _ _ _ hrm
        exact ⟨b1, fun q _ => by rw [b2], b3, fun w hw => upd_ne hw⟩
      · rw [if_neg h0] at e1; cases e1
  | search v d =>
    obtain ⟨o, ho⟩ := Option.isSome_iff_exists.1 hleg
    simp only [TreeSpec.step, search_run i ho, Option.map_some, Option.some.injEq, Prod.mk.injEq] at e
    obtain ⟨_, rfl⟩ := e
    exact ⟨fun q _ => ⟨rfl, rfl, rfl⟩, fun q _ => rfl, rfl, fun w _ => rfl⟩
  | searchCompare v cmp arg =>
    obtain ⟨o, ho, hm⟩ := hleg
    obtain ⟨r, e1, _⟩ := searchCompare_run i ho cmp arg hm
    simp only [TreeSpec.step, e1, Option.map_some, Option.some.injEq, Prod.mk.injEq] at e
    obtain ⟨_, rfl⟩ := e
    exact ⟨fun q _ => ⟨rfl, rfl, rfl⟩, fun q _ => rfl, rfl, fun w _ => rfl⟩
  | count v | memoryUsage v =>
    simp only [TreeSpec.step, Option.some.injEq, Prod.mk.injEq] at e
    obtain ⟨_, rfl⟩ := e
    exact ⟨fun q _ => ⟨rfl, rfl, rfl⟩, fun q _ => rfl, rfl, fun w _ => rfl⟩
  | alloc | free | scribble => exact absurd hc id

/-- **C32** foreach is the same as calling the callback on each payload once, in strictly increasing
    order, for any callback (which may write anywhere and deallocate) that leaves alone the
    elements not yet visited. -/
theorem C32_tree_foreach (s : TreeSpec.St) (a : TreeSpec.Ab) (hr : TreeSpec.sys.Reach s a) (v : Nat) (o : OSet)
    (ho : a.val v = some o) :
    ∃ l, l.Perm o.elems ∧ (l.Pairwise fun x y => o.cmp x.2 y.2 < 0) ∧
      ∀ func : Nat → HM Unit,
        (∀ as x bs, l = as ++ x :: bs → ∀ h1 h2, TreeSpec.SameNodes s.heap h1 (bs.map Prod.fst) →
          func x.2 h1 = some ((), h2) → TreeSpec.SameNodes s.heap h2 (bs.map Prod.fst)) →
        treeForeach (s.var v) func s.heap = callAll func (l.map Prod.snd) s.heap := by
  obtain ⟨t, k⟩ := (TreeSpec.reach_inv hr).tree v o ho
  have hm : (t.nodes.map (fun x => (x, s.heap.data x))).Perm o.elems := by
    have := k.perm.map (fun x => (x, s.heap.data x))
    rw [List.map_map] at this
    refine this.trans (List.Perm.of_eq ?_)
    conv => rhs; rw [← List.map_id o.elems]
    apply List.map_congr_left
    intro e he
    simp only [Function.comp, k.data e he, id]
  refine ⟨_, hm, ?_, ?_⟩
  · rw [List.pairwise_map]; exact k.inc
  · intro func hf
    rw [List.map_map]
    refine (TreeP.foreach_spec func t _ s.heap [] k.rep (fun x _ => ⟨Iff.rfl, rfl, rfl, rfl⟩) ?_).1
    intro as x bs e h1 h2 hs hfx
    rw [List.append_nil] at e
    have e' : t.nodes.map (fun x => (x, s.heap.data x)) = as.map (fun x => (x, s.heap.data x)) ++
        (x, s.heap.data x) :: bs.map (fun x => (x, s.heap.data x)) := by rw [e]; simp
    have eb : (bs.map (fun x => (x, s.heap.data x))).map Prod.fst = bs := by
      rw [List.map_map]; exact List.map_id bs
    have := hf _ _ _ e' h1 h2 (by rw [eb]; exact hs) hfx
    rwa [eb] at this

/-- **C33** Partial: the heights of the children differ at most by two. That they differ at most by one
    is false, see `C33_false`. -/
theorem C33_tree_balanced_partial (s : TreeSpec.St) (a : TreeSpec.Ab) (hr : TreeSpec.sys.Reach s a) (v : Nat) (o : OSet)
    (ho : a.val v = some o) (e : Ptr × Nat) (he : e ∈ o.elems) :
    ∃ m n, HeightIs s.heap (s.heap.prev e.1) m ∧ HeightIs s.heap (s.heap.next e.1) n ∧ m ≤ n + 2 ∧ n ≤ m + 2 := by
  obtain ⟨t, k⟩ := (TreeSpec.reach_inv hr).tree v o ho
  obtain ⟨i, l, r, rp, g⟩ := rep_sub k.rep k.good ((k.mem e.1).2 (List.mem_map_of_mem he))
  obtain ⟨_, h2, h3, h4, h5⟩ := rp
  obtain ⟨g1, g2, g3, g4, _⟩ := g
  refine ⟨_, _, rep_height h4, rep_height h5, ?_⟩
  have := good_height g1
  have := good_height g2
  omega

/-- The AVL property as documented (tommytree.h:29-35). -/
def StandardAVL : Prop :=
  ∀ (s : TreeSpec.St) (a : TreeSpec.Ab), TreeSpec.sys.Reach s a → ∀ v (o : OSet), a.val v = some o → ∀ e ∈ o.elems,
    ∀ m n, HeightIs s.heap (s.heap.prev e.1) m → HeightIs s.heap (s.heap.next e.1) n → m ≤ n + 1 ∧ n ≤ m + 1

/-- **C34** A path of `n` nodes needs Fibonacci many elements. -/
theorem C34_tree_fib (s : TreeSpec.St) (a : TreeSpec.Ab) (hr : TreeSpec.sys.Reach s a) (v : Nat) (o : OSet)
    (ho : a.val v = some o) (n : Nat) (hp : Path s.heap (s.var v).root n) : Nat.fib (n + 1) ≤ o.elems.length + 1 := by
  obtain ⟨t, k⟩ := (TreeSpec.reach_inv hr).tree v o ho
  have h1 := path_le k.rep hp
  have h2 := good_height k.good
  have h3 := good_fib k.good
  rw [k.length] at h3
  exact (Nat.fib_mono (by omega)).trans h3

omit [Arch] in
theorem fib_log {n m : Nat} (h : Nat.fib (n + 1) ≤ m + 1) : n ≤ 2 * Nat.log2 (m + 1) + 1 := by
  have h1 := (fib_pow n).1.trans h
  have h2 := (Nat.le_log2 (by omega)).2 h1
  omega

/-- **C34** The height is logarithmic. -/
theorem C34_tree_height (s : TreeSpec.St) (a : TreeSpec.Ab) (hr : TreeSpec.sys.Reach s a) (v : Nat) (o : OSet)
    (ho : a.val v = some o) (n : Nat) (hp : Path s.heap (s.var v).root n) : n ≤ 2 * Nat.log2 (o.elems.length + 1) + 1 :=
  fib_log (C34_tree_fib s a hr v o ho n hp)

/-- **C34** A search, with any comparison function, calls it a logarithmic number of times. -/
theorem C34_tree_search_cost (s : TreeSpec.St) (a : TreeSpec.Ab) (hr : TreeSpec.sys.Reach s a) (v : Nat) (o : OSet)
    (ho : a.val v = some o) (cmp : Nat → Nat → Int) (d : Nat) :
    searchWithin cmp (2 * Nat.log2 (o.elems.length + 1) + 1) (s.var v).root d s.heap =
      treeSearchNode cmp (s.var v).root d s.heap := by
  obtain ⟨t, k⟩ := (TreeSpec.reach_inv hr).tree v o ho
  refine searchWithin_eq d k.rep (fib_log ?_)
  have h2 := good_height k.good
  have h3 := good_fib k.good
  rw [k.length] at h3
  exact (Nat.fib_mono (by omega)).trans h3

/-- **C35** search_compare with a monotone function. -/
theorem C35_tree_search_compare (s : TreeSpec.St) (a : TreeSpec.Ab) (hr : TreeSpec.sys.Reach s a) (v : Nat) (o : OSet)
    (ho : a.val v = some o) (cmp : Nat → Nat → Int) (arg : Nat)
    (hm : ∀ x ∈ o.elems, ∀ y ∈ o.elems, o.cmp x.2 y.2 < 0 →
      (cmp arg x.2 < 0 → cmp arg y.2 < 0) ∧ (cmp arg y.2 > 0 → cmp arg x.2 > 0)) :
    ∃ r, treeSearchCompare (s.var v) cmp arg s.heap = some (r, s.heap) ∧
      ((∃ e ∈ o.elems, cmp arg e.2 = 0 ∧ r = e.2) ∨ ((∀ e ∈ o.elems, cmp arg e.2 ≠ 0) ∧ r = 0)) :=
  searchCompare_run (TreeSpec.reach_inv hr) ho cmp arg hm

/-! ### Non vacuity -/

/-- The comparison of numbers. -/
def tcmp (a b : Nat) : Int := (a : Int) - b

omit [Arch] in
theorem treeCmp : TotalPreorder tcmp := ⟨by intros; unfold tcmp at *; omega, by intros; unfold tcmp at *; omega⟩

/-- A memory with nodes at 32, 64, ... 3168 and garbage everywhere. -/
def treeHeap : Heap where
  valid p := decide (p % 32 = 0 ∧ 0 < p ∧ p < 3200)
  next p := p * 7
  prev p := p + 1
  data p := p
  index p := p
def treeSt : TreeSpec.St := { heap := treeHeap, var := fun v => ⟨v + 5, fun _ _ => 0, v⟩ }
def treeAb : TreeSpec.Ab := { val := fun _ => none, live := treeHeap.valid }

theorem treeHeap_valid (p : Nat) (h : treeHeap.valid p = true) : p % 32 = 0 ∧ p + nodeSize ≤ 2 ^ sizeBit := by
  have h' : p % 32 = 0 ∧ 0 < p ∧ p < 3200 := of_decide_eq_true h
  arch

theorem treeInitOk : TreeSpec.sys.init treeSt treeAb := by
  refine ⟨fun _ => rfl, rfl, rfl, fun p hp => (treeHeap_valid p hp).2, ?_⟩
  have key : ∀ p q : Nat, p % 32 = 0 → q % 32 = 0 → p ≠ q → p + nodeSize ≤ q ∨ q + nodeSize ≤ p := by arch
  exact fun p q hp hq hne => key p q (treeHeap_valid p hp).1 (treeHeap_valid q hq).1 hne

/-- The chain of three nodes made by inserting three elements in increasing order. -/
def chain1 : T := .node 32 0 .nil .nil
def chain2 : T := .node 32 1 .nil (.node 64 0 .nil .nil)
def chain3 : T := .node 32 2 .nil (.node 64 1 .nil (.node 96 0 .nil .nil))

/-- One more insert in a concrete tree. -/
theorem insertStep {s : TreeSpec.St} {a : TreeSpec.Ab} {o : OSet} {p d : Nat} {t : T} (hr : TreeSpec.sys.Reach s a)
    (hl : TreeSpec.legal a (.insert 0 p d)) (ho : a.val 0 = some o) (hf : o.find d = none) (ok : s.heap.ok p)
    (hi : ∃ h', treeInsertNode (s.var 0).cmp (s.var 0).root p (initNode s.heap p d) = some ((t.ptr, p), h') ∧
      Rep h' t t.ptr ∧ Fr (initNode s.heap p d) h' (p :: o.elems.map Prod.fst)) :
    ∃ s' a', TreeSpec.sys.Reach s' a' ∧ a'.val 0 = some ⟨o.cmp, o.elems ++ [(p, d)]⟩ ∧ a'.live = a.live ∧
      (∀ v, v ≠ 0 → a'.val v = a.val v) ∧ Rep s'.heap t (s'.var 0).root ∧ (s'.var 0).cmp = (s.var 0).cmp ∧
      s'.heap.valid = s.heap.valid ∧ s'.heap.data = upd s.heap.data p d := by
  obtain ⟨h', e, rp, f⟩ := hi
  have e1 := insert_of_node (tr := s.var 0) ok e f.valid f.data
  have e2 : TreeSpec.step (.insert 0 p d) s = some (.val d, ⟨h', upd s.var 0
      { (s.var 0) with root := t.ptr, count := sizeT ((s.var 0).count + 1) }⟩) := by
    simp only [TreeSpec.step, e1, Option.map_some]
  have r := Sys.Reach.step (sys := TreeSpec.sys) (op := .insert 0 p d) hr hl e2
  refine ⟨_, _, r, ?_, ?_, ?_, ?_, ?_, f.valid, f.data⟩
  · simp only [TreeSpec.sys, TreeSpec.next, Ab.onSet, ho, Option.map_some, upd_same, hf, Option.isSome_none,
      Bool.false_eq_true, if_false]
  · rfl
  · intro v hv
    exact upd_ne hv
  · simp only [upd_same]; exact rp
  · simp only [upd_same]

theorem leafIns (cmp : Nat → Nat → Int) (h : Heap) (x d : Nat) (ok : h.ok x) :
    ∃ h1, treeInsertNode cmp (T.nil).ptr x (initNode h x d) = some (((T.node x 0 .nil .nil).ptr, x), h1) ∧
      Rep h1 (T.node x 0 .nil .nil) (T.node x 0 .nil .nil).ptr ∧ Fr (initNode h x d) h1 (x :: (T.nil).nodes) := by
  refine ⟨initNode h x d, by rw [treeInsertNode, if_pos (show T.nil.ptr = 0 from rfl)]; rfl, ⟨rfl, ok, ?_, ?_, ?_⟩, Fr.refl _ _⟩ <;>
    simp [initNode, Rep]

omit [Arch] in
theorem rep_initNode {h : Heap} {t : T} {p x d : Nat} (hr : Rep h t p) (hx : x ∉ t.nodes) : Rep (initNode h x d) t p :=
  hr.congr fun y hy => by
    have : y ≠ x := fun e => hx (e ▸ hy)
    simp [initNode, upd_ne this]

theorem treeChain : ∃ s a, TreeSpec.sys.Reach s a ∧ a.val 0 = some ⟨tcmp, [(32, 10), (64, 20), (96, 30)]⟩ ∧
    Rep s.heap chain3 (s.var 0).root := by
  have r0 := Sys.Reach.step (sys := TreeSpec.sys) (op := .init 0 tcmp) (.init treeInitOk) treeCmp rfl
  have nost : ∀ (a : TreeSpec.Ab) (o : OSet) (p : Nat), a.val 0 = some o → (∀ v, v ≠ 0 → a.val v = none) →
      p ∉ o.elems.map Prod.fst → ¬ a.stored p := by
    rintro a o p h0 h1 h2 ⟨v, o', hv, hp⟩
    by_cases e : v = 0
    · rw [e, h0] at hv; cases hv; exact h2 hp
    · rw [h1 v e] at hv; cases hv
  -- first
  obtain ⟨s1, a1, r1, v1, l1, w1, p1, c1, k1, d1⟩ := insertStep (p := 32) (d := 10) (t := chain1) r0
    ⟨rfl, show treeHeap.valid 32 = true by decide, nost _ ⟨tcmp, []⟩ _ rfl (fun v hv => upd_ne hv) (by simp)⟩ rfl rfl (by decide)
    (leafIns _ _ _ _ (by decide))
  have c1 : (s1.var 0).cmp = tcmp := c1
  have k1 : s1.heap.valid = treeHeap.valid := k1
  have l1 : a1.live = treeHeap.valid := l1
  have w1 : ∀ v, v ≠ 0 → a1.val v = none := fun v hv => (w1 v hv).trans (upd_ne hv)
  have okk : ∀ (h : Heap) (p : Nat), h.valid = treeHeap.valid → treeHeap.valid p = true → p ≠ 0 → h.ok p := by
    intro h p h1 h2 h3; exact ⟨h3, by rw [h1]; exact h2⟩
  -- second
  have g1 : Rep (initNode s1.heap 64 20) chain1 (s1.var 0).root := rep_initNode p1 (by simp [chain1, T.nodes])
  obtain ⟨s2, a2, r2, v2, l2, w2, p2, c2, k2, d2⟩ := insertStep (p := 64) (d := 20) (t := chain2) r1
    ⟨by rw [v1]; rfl, by rw [l1]; decide, nost _ _ _ v1 w1 (by simp)⟩ v1 (by decide) (okk _ _ k1 (by decide) (by decide))
    (by
      rw [c1]
      refine insRight g1 (okk _ _ k1 (by decide) (by decide)) ?_ (leafIns tcmp s1.heap 64 20 (okk _ _ k1 (by decide) (by decide)))
        (.plain (by simp [T.idx]) (by simp [T.idx])) (by simp [T.nodes]) (by simp [T.nodes]) (by simp [T.nodes])
        (by simp [T.nodes]) (by simp [T.nodes, show 2 < 2 ^ (sizeBit - 1) by arch]) trivial (by simp [Sz])
      simp [initNode, d1, upd, tcmp])
  have k2 : s2.heap.valid = treeHeap.valid := k2.trans k1
  have l2 : a2.live = treeHeap.valid := l2.trans l1
  have w2 : ∀ v, v ≠ 0 → a2.val v = none := fun v hv => (w2 v hv).trans (w1 v hv)
  -- third
  have g2 : Rep (initNode s2.heap 96 30) chain2 (s2.var 0).root := rep_initNode p2 (by simp [chain2, T.nodes])
  obtain ⟨s3, a3, r3, v3, l3, w3, p3, c3, k3, d3⟩ := insertStep (p := 96) (d := 30) (t := chain3) r2
    ⟨by rw [v2]; rfl, by rw [l2]; decide, nost _ _ _ v2 w2 (by simp)⟩ v2 (by decide) (okk _ _ k2 (by decide) (by decide))
    (by
      rw [c2, c1]
      have b1 := insRight (cmp := tcmp) (i := 0) (p := 64) (l := .nil) (r := .nil) (g2.2.2.2.2) (okk _ 96 k2 (by decide) (by decide))
        (by simp [initNode, d2, upd, tcmp]) (leafIns tcmp s2.heap 96 30 (okk _ _ k2 (by decide) (by decide)))
        (.plain (by simp [T.idx]) (by simp [T.idx])) (by simp [T.nodes]) (by simp [T.nodes]) (by simp [T.nodes])
        (by simp [T.nodes]) (by simp [T.nodes, show 2 < 2 ^ (sizeBit - 1) by arch]) trivial (by simp [Sz])
      rw [g2.2.2.2.2.ptr] at b1
      refine insRight g2 (okk _ _ k2 (by decide) (by decide)) ?_ b1
        (.plain (by simp [T.idx]) (by simp [T.idx])) (by simp [T.nodes]) (by simp [T.nodes]) (by simp [T.nodes])
        (by simp [T.nodes]) (by simp [T.nodes, show 3 < 2 ^ (sizeBit - 1) by arch]) trivial (by simp [Sz, T.nodes, T.idx])
      simp [initNode, d2, d1, upd, tcmp])
  exact ⟨s3, a3, r3, v3, p3⟩

/-- **C33** is false: after inserting three elements in increasing order the tree is a chain, and the heights of
    the children of the root are 0 and 2. -/
theorem C33_false : ¬ StandardAVL := by
  intro h
  obtain ⟨s, a, hr, hv, rp⟩ := treeChain
  have h1 := h s a hr 0 _ hv (32, 10) (by simp)
  obtain ⟨_, h2, h3, h4, h5⟩ := rp
  have := h1 0 2 (rep_height h4) (rep_height h5)
  omega

/-- A reachable state with a second tree, in the reverse order, and a failed insert of an equal element. -/
theorem treeReach : ∃ s a, TreeSpec.sys.Reach s a ∧ a.val 0 = some ⟨tcmp, [(32, 10), (64, 20), (96, 30)]⟩ ∧
    a.val 1 = some ⟨fun a b => tcmp b a, [(160, 5), (192, 7)]⟩ ∧ ¬ a.stored 128 ∧ a.live 128 = true := by
  have hc := C31_tree_set
  have r0 := Sys.Reach.step (sys := TreeSpec.sys) (op := .init 0 tcmp) (.init treeInitOk) treeCmp rfl
  obtain ⟨_, _, r1, _⟩ := hc.extend r0 (.init 1 (fun a b => tcmp b a))
    ⟨fun a b => treeCmp.sign b a, fun a b c h1 h2 => treeCmp.trans c b a h2 h1⟩
  obtain ⟨_, _, r2, _⟩ := hc.extend r1 (.insert 0 32 10)
    ⟨rfl, rfl, by rintro ⟨v, o, ho, hp⟩; simp [TreeSpec.sys, TreeSpec.next, upd, treeAb] at ho; grind⟩
  obtain ⟨_, _, r3, _⟩ := hc.extend r2 (.insert 0 64 20)
    ⟨rfl, rfl, by rintro ⟨v, o, ho, hp⟩; simp [TreeSpec.sys, TreeSpec.next, Ab.onSet, OSet.find, tcmp, upd, treeAb] at ho; grind⟩
  obtain ⟨_, _, r4, _⟩ := hc.extend r3 (.insert 0 96 30)
    ⟨rfl, rfl, by rintro ⟨v, o, ho, hp⟩; simp [TreeSpec.sys, TreeSpec.next, Ab.onSet, OSet.find, tcmp, upd, treeAb] at ho; grind⟩
  obtain ⟨_, _, r5, _⟩ := hc.extend r4 (.insert 1 160 5)
    ⟨rfl, rfl, by rintro ⟨v, o, ho, hp⟩; simp [TreeSpec.sys, TreeSpec.next, Ab.onSet, OSet.find, tcmp, upd, treeAb] at ho; grind⟩
  obtain ⟨_, _, r6, _⟩ := hc.extend r5 (.insert 1 192 7)
    ⟨rfl, rfl, by rintro ⟨v, o, ho, hp⟩; simp [TreeSpec.sys, TreeSpec.next, Ab.onSet, OSet.find, tcmp, upd, treeAb] at ho; grind⟩
  obtain ⟨_, _, r7, _⟩ := hc.extend r6 (.insert 0 128 20)
    ⟨rfl, rfl, by rintro ⟨v, o, ho, hp⟩; simp [TreeSpec.sys, TreeSpec.next, Ab.onSet, OSet.find, tcmp, upd, treeAb] at ho; grind⟩
  refine ⟨_, _, r7, rfl, rfl, ?_, rfl⟩
  rintro ⟨v, o, ho, hp⟩; simp [TreeSpec.sys, TreeSpec.next, Ab.onSet, OSet.find, tcmp, upd, treeAb] at ho; grind

/-- C31 on the example: the insert of an equal element returns the one in the set, remove returns it. -/
example : ∃ s a, TreeSpec.sys.Reach s a ∧ (∃ s', TreeSpec.step (.insert 0 128 20) s = some (.val 20, s')) ∧
    (∃ s', TreeSpec.step (.insert 0 128 25) s = some (.val 25, s')) ∧
    (∃ s', TreeSpec.step (.remove 1 7) s = some (.val 7, s')) ∧ (∃ s', TreeSpec.step (.remove 1 6) s = some (.val 0, s')) ∧
    (∃ s', TreeSpec.step (.removeExisting 0 96) s = some (.val 30, s')) ∧
    (∃ s', TreeSpec.step (.count 0) s = some (.val 3, s')) := by
  obtain ⟨s, a, hr, h0, h1, h2, h3⟩ := treeReach
  refine ⟨s, a, hr, ?_, ?_, ?_, ?_, ?_, ?_⟩
  · obtain ⟨out, s', e, al⟩ := C31_tree_set s a hr (.insert 0 128 20) ⟨by rw [h0]; rfl, h3, h2⟩
    have : out = .val 20 := al _ h0
    exact ⟨s', this ▸ e⟩
  · obtain ⟨out, s', e, al⟩ := C31_tree_set s a hr (.insert 0 128 25) ⟨by rw [h0]; rfl, h3, h2⟩
    have : out = .val 25 := al _ h0
    exact ⟨s', this ▸ e⟩
  · obtain ⟨out, s', e, al⟩ := C31_tree_set s a hr (.remove 1 7) (by show (a.val 1).isSome; rw [h1]; rfl)
    have : out = .val 7 := al _ h1
    exact ⟨s', this ▸ e⟩
  · obtain ⟨out, s', e, al⟩ := C31_tree_set s a hr (.remove 1 6) (by show (a.val 1).isSome; rw [h1]; rfl)
    have : out = .val 0 := al _ h1
    exact ⟨s', this ▸ e⟩
  · obtain ⟨out, s', e, al⟩ := C31_tree_set s a hr (.removeExisting 0 96) ⟨_, (96, 30), h0, by simp, rfl, by simp⟩
    obtain ⟨x, hx, hx1, hx2⟩ := al _ h0
    have : out = .val 30 := by
      rw [hx2]
      simp only [List.mem_cons, List.not_mem_nil, or_false] at hx
      rcases hx with rfl | rfl | rfl
      · cases hx1
      · cases hx1
      · rfl
    exact ⟨s', this ▸ e⟩
  · obtain ⟨out, s', e, al⟩ := C31_tree_set s a hr (.count 0) (by show (a.val 0).isSome; rw [h0]; rfl)
    have : out = .val 3 := al _ h0
    exact ⟨s', this ▸ e⟩

/-- C32 on the example: a callback which deallocates the node is allowed, and the visit of the second tree is
    in its own order. -/
example : ∃ s a, TreeSpec.sys.Reach s a ∧ ∀ func : Nat → HM Unit,
    (∀ d h1 h2, func d h1 = some ((), h2) → ∀ x : Nat, x ≠ (if d = 7 then 192 else 160) →
      ((h1.ok x ↔ h2.ok x) ∧ h2.next x = h1.next x ∧ h2.prev x = h1.prev x ∧ h2.data x = h1.data x)) →
    treeForeach (s.var 1) func s.heap = callAll func [7, 5] s.heap := by
  obtain ⟨s, a, hr, h0, h1, h2, h3⟩ := treeReach
  refine ⟨s, a, hr, fun func hf => ?_⟩
  obtain ⟨l, pm, pw, hl⟩ := C32_tree_foreach s a hr 1 _ h1
  have el : l = [(192, 7), (160, 5)] := by
    have : l.Perm [(192, 7), (160, 5)] := pm.trans (List.Perm.swap _ _ _)
    refine this.eq_of_pairwise ?_ pw (by simp [tcmp])
    intro x y hx hy h1 h2
    simp only [tcmp] at h1 h2
    omega
  rw [el] at hl
  refine hl func ?_
  intro as x bs e h1 h2 hs hx
  have key : ∀ y ∈ bs.map Prod.fst, y ≠ (if x.2 = 7 then 192 else 160) := by
    rcases as with _ | ⟨z, _ | ⟨w, as⟩⟩
    · simp only [List.nil_append, List.cons.injEq] at e
      obtain ⟨rfl, rfl⟩ := e
      simp
    · simp only [List.cons_append, List.nil_append, List.cons.injEq] at e
      obtain ⟨rfl, rfl, rfl⟩ := e
      simp
    · simp at e
  intro y hy
  obtain ⟨a1, a2, a3, a4⟩ := hf x.2 h1 h2 hx y (key y hy)
  obtain ⟨b1, b2, b3, b4⟩ := hs y hy
  exact ⟨b1.trans a1, a2.trans b2, a3.trans b3, a4.trans b4⟩

/-- C33, C34 on the example: the chain has a path of three nodes, and 3 ≤ 2 log2 4 + 1. -/
example : ∃ s a o, TreeSpec.sys.Reach s a ∧ a.val 0 = some o ∧ o.elems.length = 3 ∧ Path s.heap (s.var 0).root 3 ∧
    3 ≤ 2 * Nat.log2 (o.elems.length + 1) + 1 ∧ ∃ m n, HeightIs s.heap (s.heap.prev 32) m ∧
      HeightIs s.heap (s.heap.next 32) n ∧ m ≤ n + 2 ∧ n ≤ m + 2 := by
  obtain ⟨s, a, hr, hv, rp⟩ := treeChain
  have hp : Path s.heap (s.var 0).root 3 := by
    have e := rp.ptr
    obtain ⟨_, _, _, _, r1⟩ := rp
    have e1 := r1.ptr
    obtain ⟨_, _, _, _, r2⟩ := r1
    have e2 := r2.ptr
    rw [e]
    refine .next (by decide) ?_
    show Path s.heap (s.heap.next 32) 2
    rw [e1]
    refine .next (by decide) ?_
    show Path s.heap (s.heap.next 64) 1
    rw [e2]
    exact .next (by decide) .nil
  exact ⟨s, a, _, hr, hv, rfl, hp, C34_tree_height s a hr 0 _ hv 3 hp,
    C33_tree_balanced_partial s a hr 0 _ hv (32, 10) (by simp)⟩

/-- C34: the bound of the comparisons on the example, 5 for three elements. -/
example : ∃ s a, TreeSpec.sys.Reach s a ∧ searchWithin tcmp 5 (s.var 0).root 30 s.heap = treeSearchNode tcmp (s.var 0).root 30 s.heap := by
  obtain ⟨s, a, hr, hv, rp⟩ := treeChain
  exact ⟨s, a, hr, C34_tree_search_cost s a hr 0 _ hv tcmp 30⟩

/-- C35 on the example: the comparison of the tens, with argument 2, is monotone and finds 20. -/
example : ∃ s a, TreeSpec.sys.Reach s a ∧
    treeSearchCompare (s.var 0) (fun a b => tcmp a (b / 10)) 2 s.heap = some (20, s.heap) ∧
    treeSearchCompare (s.var 0) (fun a b => tcmp a (b / 10)) 4 s.heap = some (0, s.heap) := by
  obtain ⟨s, a, hr, hv, rp⟩ := treeChain
  have mono : ∀ arg : Nat, ∀ x ∈ [((32, 10) : Ptr × Nat), (64, 20), (96, 30)], ∀ y ∈ [((32, 10) : Ptr × Nat), (64, 20), (96, 30)],
      tcmp x.2 y.2 < 0 → (tcmp arg (x.2 / 10) < 0 → tcmp arg (y.2 / 10) < 0) ∧ (tcmp arg (y.2 / 10) > 0 → tcmp arg (x.2 / 10) > 0) := by
    intro arg x _ y _
    simp only [tcmp]
    omega
  refine ⟨s, a, hr, ?_, ?_⟩
  · obtain ⟨r, e, h⟩ := C35_tree_search_compare s a hr 0 _ hv (fun a b => tcmp a (b / 10)) 2 (mono 2)
    have : r = 20 := by
      rcases h with ⟨x, hx, h1, rfl⟩ | ⟨h1, _⟩
      · simp only [List.mem_cons, List.not_mem_nil, or_false] at hx
        rcases hx with rfl | rfl | rfl <;> simp [tcmp] at h1 ⊢
      · exact absurd (by simp [tcmp]) (h1 (64, 20) (by simp))
    rw [e, this]
  · obtain ⟨r, e, h⟩ := C35_tree_search_compare s a hr 0 _ hv (fun a b => tcmp a (b / 10)) 4 (mono 4)
    have : r = 0 := by
      rcases h with ⟨x, hx, h1, rfl⟩ | ⟨_, h1⟩
      · simp only [List.mem_cons, List.not_mem_nil, or_false] at hx
        rcases hx with rfl | rfl | rfl <;> simp [tcmp] at h1 ⊢
      · exact h1
    rw [e, this]

end Tommy
