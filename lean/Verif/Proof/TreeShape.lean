import Verif.Proof.Tree
/-! Heights, paths and visit of the tree. -/
set_option linter.unusedSimpArgs false
set_option linter.unusedVariables false
namespace Tommy

variable [Arch]
namespace TreeP
open T TreeSpec

def T.height : T → Nat
  | nil => 0
  | node _ _ l r => max l.height r.height + 1

omit [Arch] in
theorem rep_height {h : Heap} {t : T} {p : Nat} (hr : Rep h t p) : HeightIs h p t.height := by
  induction t generalizing p with
  | nil => have e : p = 0 := hr; subst e; exact .nil
  | node q i l r ihl ihr =>
    obtain ⟨rfl, h2, h3, h4, h5⟩ := hr
    exact .node h2.1 (ihl h4) (ihr h5)

omit [Arch] in
theorem height_unique {h : Heap} {p m n : Nat} (h1 : HeightIs h p m) (h2 : HeightIs h p n) : m = n := by
  induction h1 generalizing n with
  | nil => cases h2 with
    | nil => rfl
    | node h0 => exact absurd rfl h0
  | node h0 a b iha ihb => cases h2 with
    | nil => exact absurd rfl h0
    | node _ a' b' => rw [iha a', ihb b']

omit [Arch] in
theorem good_height {t : T} (g : t.Good) : t.height = t.idx ∨ t.height = t.idx + 1 := by
  induction t with
  | nil => left; rfl
  | node p i l r ihl ihr =>
    obtain ⟨h1, h2, h3, h4, h5⟩ := g
    have a := ihl h1
    have b := ihr h2
    simp only [T.height, idx_node]
    rcases h5 with h5 | ⟨h5, rfl, rfl⟩
    · omega
    · right; simp [T.height, h5]

omit [Arch] in
theorem good_fib {t : T} (g : t.Good) : Nat.fib (t.idx + 2) ≤ t.nodes.length + 1 := by
  induction t with
  | nil => simp [T.idx]
  | node p i l r ihl ihr =>
    obtain ⟨h1, h2, h3, h4, h5⟩ := g
    have a := ihl h1
    have b := ihr h2
    simp only [idx_node, T.nodes, List.length_append, List.length_cons]
    rcases h5 with h5 | ⟨h5, rfl, rfl⟩
    · subst h5
      rcases Nat.le_total l.idx r.idx with h | h
      · rw [Nat.max_eq_right h, Nat.fib_add_two]
        have : Nat.fib (r.idx + 1) ≤ Nat.fib (l.idx + 2) := Nat.fib_mono (by omega)
        rw [show r.idx + 1 + 1 = r.idx + 2 from rfl]
        omega
      · rw [Nat.max_eq_left h, Nat.fib_add_two]
        have : Nat.fib (l.idx + 1) ≤ Nat.fib (r.idx + 2) := Nat.fib_mono (by omega)
        rw [show l.idx + 1 + 1 = l.idx + 2 from rfl]
        omega
    · subst h5; simp

omit [Arch] in
theorem path_le {h : Heap} {t : T} {p n : Nat} (hr : Rep h t p) (hp : Path h p n) : n ≤ t.height := by
  induction t generalizing p n with
  | nil =>
    have e : p = 0 := hr
    cases hp with
    | nil => exact Nat.zero_le _
    | prev h0 => exact absurd e h0
    | next h0 => exact absurd e h0
  | node q i l r ihl ihr =>
    obtain ⟨rfl, h2, h3, h4, h5⟩ := hr
    simp only [T.height]
    cases hp with
    | nil => exact Nat.zero_le _
    | prev _ h => have := ihl h4 h; omega
    | next _ h => have := ihr h5 h; omega

omit [Arch] in
theorem rep_sub {h : Heap} {t : T} {p x : Nat} (hr : Rep h t p) (g : t.Good) (hx : x ∈ t.nodes) :
    ∃ i l r, Rep h (node x i l r) x ∧ (node x i l r).Good := by
  induction t generalizing p with
  | nil => cases hx
  | node q i l r ihl ihr =>
    have hr' := hr
    obtain ⟨rfl, h2, h3, h4, h5⟩ := hr'
    simp only [T.nodes, List.mem_append, List.mem_cons] at hx
    rcases hx with hx | rfl | hx
    · exact ihl h4 g.1 hx
    · exact ⟨i, l, r, hr, g⟩
    · exact ihr h5 g.2.1 hx

omit [Arch] in
theorem fib_pow (n : Nat) : 2 ^ (n / 2) ≤ Nat.fib (n + 1) ∧ 2 ^ ((n + 1) / 2) ≤ Nat.fib (n + 2) := by
  induction n with
  | zero => simp
  | succ n ih =>
    refine ⟨ih.2, ?_⟩
    rw [show (n + 1 + 1) / 2 = n / 2 + 1 by omega, Nat.pow_succ, Nat.fib_add_two]
    have : Nat.fib (n + 1) ≤ Nat.fib (n + 1 + 1) := Nat.fib_mono (by omega)
    have := ih.1
    omega

omit [Arch] in
theorem same_append {h h' : Heap} {l r : List Nat} (hs : SameNodes h h' (l ++ r)) : SameNodes h h' l ∧ SameNodes h h' r :=
  ⟨fun x hx => hs x (List.mem_append_left _ hx), fun x hx => hs x (List.mem_append_right _ hx)⟩

open ListSpec (callAll) in
omit [Arch] in
theorem callAll_append (func : Nat → HM Unit) (l r : List Nat) (h : Heap) :
    callAll func (l ++ r) h = (callAll func l h).bind fun x => callAll func r x.2 := by
  induction l generalizing h with
  | nil => simp [callAll, pure, StateT.pure]
  | cons d l ih =>
    simp only [List.cons_append, callAll, run_bind]
    cases func d h with
    | none => rfl
    | some x => simp only [Option.bind_some, ih]

open ListSpec (callAll) in
omit [Arch] in
theorem foreach_spec {h0 : Heap} (func : Nat → HM Unit) (t : T) : ∀ (p : Nat) (h : Heap) (rest : List Nat), Rep h0 t p →
    SameNodes h0 h (t.nodes ++ rest) →
    (∀ as x bs, t.nodes ++ rest = as ++ x :: bs → ∀ h1 h2, SameNodes h0 h1 bs → func (h0.data x) h1 = some ((), h2) → SameNodes h0 h2 bs) →
    treeForeachNode func p h = callAll func (t.nodes.map h0.data) h ∧
    (∀ h2, callAll func (t.nodes.map h0.data) h = some ((), h2) → SameNodes h0 h2 rest) := by
  induction t with
  | nil =>
    intro p h rest hr hs hf
    have e : p = 0 := hr
    refine ⟨?_, ?_⟩
    · rw [treeForeachNode, if_pos e]; rfl
    · intro h2 h2e
      simp only [T.nodes, List.map_nil, callAll, pure, StateT.pure, Option.some.injEq, Prod.mk.injEq, true_and] at h2e
      subst h2e; exact hs
  | node q i l r ihl ihr =>
    intro p h rest hr hs hf
    obtain ⟨rfl, ok, h3, h4, h5⟩ := hr
    have e1 : (node p i l r).nodes ++ rest = l.nodes ++ (p :: (r.nodes ++ rest)) := by simp [T.nodes]
    rw [e1] at hs hf
    obtain ⟨a1, a2⟩ := ihl (h0.prev p) h _ h4 hs hf
    obtain ⟨s1, s2, s3, s4⟩ := hs p (by simp)
    have ok' := s1.1 ok
    simp only [T.nodes, List.map_append, List.map_cons, callAll_append, callAll]
    rw [treeForeachNode, if_neg ok.1]
    simp only [run_bind, getPrev_run ok', s3, Option.bind_some, a1]
    cases hc : callAll func (l.nodes.map h0.data) h with
    | none => exact ⟨rfl, fun h2 hh => by cases hh⟩
    | some x =>
      obtain ⟨⟨⟩, h1⟩ := x
      have b1 := a2 h1 hc
      obtain ⟨t1, t2, t3, t4⟩ := b1 p (by simp)
      have ok1 := t1.1 ok
      simp only [Option.bind_some, getNext_run ok1, getData_run ok1, t2, t4]
      cases hc2 : func (h0.data p) h1 with
      | none => exact ⟨rfl, fun h2 hh => by cases hh⟩
      | some y =>
        obtain ⟨⟨⟩, h2⟩ := y
        simp only [Option.bind_some]
        have b2 := hf l.nodes p (r.nodes ++ rest) rfl h1 h2 (fun z hz => b1 z (List.mem_cons_of_mem _ hz)) hc2
        exact ihr (h0.next p) h2 rest h5 b2 fun as x bs e => hf (l.nodes ++ p :: as) x bs (by rw [e]; simp)

omit [Arch] in
theorem searchWithin_eq {h : Heap} {cmp : Nat → Nat → Int} {t : T} {p n : Nat} (d : Nat) (hr : Rep h t p) (hn : t.height ≤ n) :
    searchWithin cmp n p d h = treeSearchNode cmp p d h := by
  induction t generalizing p n with
  | nil =>
    have e : p = 0 := hr
    rw [treeSearchNode]
    cases n <;> simp only [searchWithin, e, if_true]
  | node q i l r ihl ihr =>
    obtain ⟨rfl, ok, h3, h4, h5⟩ := hr
    simp only [T.height] at hn
    obtain ⟨m, rfl⟩ : ∃ m, n = m + 1 := ⟨n - 1, by omega⟩
    rw [treeSearchNode]
    simp only [searchWithin]
    rw [if_neg ok.1, if_neg ok.1]
    simp only [run_bind, getData_run ok, Option.bind_some]
    by_cases hc : cmp d (h.data p) < 0
    · rw [if_pos hc, if_pos hc]
      simp only [run_bind, getPrev_run ok, Option.bind_some]
      exact ihl h4 (by omega)
    · rw [if_neg hc, if_neg hc]
      by_cases hd : cmp d (h.data p) > 0
      · rw [if_pos hd, if_pos hd]
        simp only [run_bind, getNext_run ok, Option.bind_some]
        exact ihr h5 (by omega)
      · rw [if_neg hd, if_neg hd]

/-! Inserting on the right: used for a concrete example. -/

theorem insRight {cmp : Nat → Nat → Int} {h : Heap} {p q i : Nat} {l r t1 t : T} {x fd : Nat} (hr : Rep h (node p i l r) q)
    (hx : h.ok x) (hc : cmp (h.data x) (h.data p) > 0)
    (ih : ∃ h1, treeInsertNode cmp r.ptr x h = some ((t1.ptr, fd), h1) ∧ Rep h1 t1 t1.ptr ∧ Fr h h1 (x :: r.nodes))
    (hb : Bal l p t1 t) (hd : (l.nodes ++ p :: t1.nodes).Nodup) (hd' : x ∉ l.nodes ++ [p]) (hd'' : ∀ y ∈ r.nodes, y ∉ l.nodes ++ [p])
    (hm : ∀ y ∈ t1.nodes, y ∈ x :: r.nodes)
    (hlen : (l.nodes ++ p :: t1.nodes).length < 2 ^ (sizeBit - 1)) (zl : Sz l) (zr : Sz t1) :
    ∃ h', treeInsertNode cmp q x h = some ((t.ptr, fd), h') ∧ Rep h' t t.ptr ∧ Fr h h' (x :: (node p i l r).nodes) := by
  obtain ⟨rfl, ok, h3, h4, h5⟩ := hr
  obtain ⟨h1, e1, r1, f1⟩ := ih
  have hpS : q ∉ x :: r.nodes := by
    intro hm'
    rcases List.mem_cons.1 hm' with e | hm'
    · exact hd' (by simp [e])
    · exact hd'' q hm' (by simp)
  have hl1 : Rep h1 l (h.prev q) := h4.frame f1 (by
    intro y hy hm'
    rcases List.mem_cons.1 hm' with e | hm'
    · exact hd' (by simp [← e, hy])
    · exact hd'' y hm' (by simp [hy]))
  have hn' := hd
  simp only [List.nodup_append, List.nodup_cons, List.mem_cons] at hn'
  obtain ⟨h', e, rp, f, _⟩ := bal_sim hb { h1 with next := upd h1.next q t1.ptr } (f1.ok ok)
    (by simp only [(f1.out q hpS).2.1]; exact hl1.setNext (by grind)) (by simp only [upd_same]; exact r1.setNext (by grind))
    hd zl zr hlen
  refine ⟨h', ?_, rp, ?_⟩
  · rw [treeInsertNode, if_neg ok.1]
    simp only [run_bind, getData_run hx, getData_run ok, Option.bind_some]
    rw [if_neg (by omega), if_pos hc]
    simp only [run_bind, getNext_run ok, Option.bind_some, h5.ptr, e1, setNext_run (f1.ok ok), e]
    rfl
  · refine (f1.mono (by simp [T.nodes]; grind)).trans ?_
    refine Fr.trans (h' := { h1 with next := upd h1.next q t1.ptr }) (Fr.setNext (by simp [T.nodes])) (f.mono ?_)
    intro y hy
    simp only [List.mem_append, List.mem_cons] at hy
    simp only [T.nodes, List.mem_append, List.mem_cons]
    rcases hy with hy | rfl | hy
    · simp [hy]
    · simp
    · have := hm y hy
      simp only [List.mem_cons] at this
      grind

/-- The insert of a node, from the insert in the tree. -/
theorem insert_of_node {tr : Tree} {p d : Nat} {h h' : Heap} {t : T} (ok : h.ok p)
    (e : treeInsertNode tr.cmp tr.root p (initNode h p d) = some ((t.ptr, p), h')) (f : h'.valid = h.valid)
    (hd : h'.data = (initNode h p d).data) :
    treeInsert tr p d h = some (({ tr with root := t.ptr, count := sizeT (tr.count + 1) }, d), h') := by
  unfold treeInsert
  have e' := e
  unfold initNode at e'
  simp only [run_bind, setData_run ok, Option.bind_some, setPrev_run (h := { h with data := upd h.data p d }) ok,
    setNext_run (h := { h with data := upd h.data p d, prev := upd h.prev p 0 }) ok,
    setIndex_run (h := { h with data := upd h.data p d, prev := upd h.prev p 0, next := upd h.next p 0 }) ok,
    e', getData_run ((ok_of_valid_eq f p).2 ok), hd, if_true]
  rw [show (initNode h p d).data p = d from upd_same _ _ _]
  rfl

end TreeP
end Tommy
