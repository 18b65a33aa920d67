import Verif.Proof.TreeOps
import Verif.Spec.Tree
import Verif.Proof.HashSys
/-! The tree implements the specification. -/
set_option linter.unusedSimpArgs false
set_option linter.unusedVariables false
namespace Tommy

variable [Arch]
namespace TreeSpec
open ListSpec (TotalPreorder)
open HashSpec (Fits LiveOk length_le_of_live)
open TreeP

structure TreeOk (h : Heap) (tr : Tree) (o : OSet) (t : T) : Prop where
  tp : TotalPreorder o.cmp
  cmp : tr.cmp = o.cmp
  rep : Rep h t tr.root
  good : t.Good
  perm : t.nodes.Perm (o.elems.map Prod.fst)
  nodup : t.nodes.Nodup
  data : ∀ e ∈ o.elems, h.data e.1 = e.2
  inc : Inc o.cmp h.data t.nodes
  count : tr.count = o.elems.length

omit [Arch] in
theorem TreeOk.mem {h : Heap} {tr : Tree} {o : OSet} {t : T} (k : TreeOk h tr o t) (x : Nat) :
    x ∈ t.nodes ↔ x ∈ o.elems.map Prod.fst := k.perm.mem_iff

omit [Arch] in
theorem TreeOk.elem {h : Heap} {tr : Tree} {o : OSet} {t : T} (k : TreeOk h tr o t) {x : Nat} (hx : x ∈ t.nodes) :
    (x, h.data x) ∈ o.elems := by
  obtain ⟨e, he, rfl⟩ := List.mem_map.1 ((k.mem x).1 hx)
  rw [k.data e he]; exact he

omit [Arch] in
theorem TreeOk.ok {h : Heap} {tr : Tree} {o : OSet} {t : T} (k : TreeOk h tr o t) {x : Nat}
    (hx : x ∈ o.elems.map Prod.fst) : h.ok x := k.rep.ok x ((k.mem x).2 hx)

omit [Arch] in
theorem inc_congr {cmp : Nat → Nat → Int} {D D' : Nat → Nat} {l : List Nat} (h : Inc cmp D l) (he : ∀ x ∈ l, D' x = D x) :
    Inc cmp D' l := by
  unfold Inc at *
  refine h.imp_of_mem ?_
  intro a b ha hb hab
  rw [he a ha, he b hb]; exact hab

omit [Arch] in
theorem TreeOk.congr {h h' : Heap} {tr : Tree} {o : OSet} {t : T} (k : TreeOk h tr o t)
    (he : ∀ x ∈ o.elems.map Prod.fst, h'.valid x = h.valid x ∧ h'.next x = h.next x ∧ h'.prev x = h.prev x ∧
      h'.index x = h.index x ∧ h'.data x = h.data x) : TreeOk h' tr o t where
  tp := k.tp
  cmp := k.cmp
  rep := k.rep.congr fun x hx => by
    obtain ⟨a, b, c, d, _⟩ := he x ((k.mem x).1 hx)
    exact ⟨a, b, c, d⟩
  good := k.good
  perm := k.perm
  nodup := k.nodup
  data e hm := by rw [(he e.1 (List.mem_map_of_mem hm)).2.2.2.2]; exact k.data e hm
  inc := inc_congr k.inc fun x hx => (he x ((k.mem x).1 hx)).2.2.2.2
  count := k.count

omit [Arch] in
/-- Two elements equal to `d` are the same. -/
theorem inc_unique {cmp : Nat → Nat → Int} (tp : TotalPreorder cmp) {D : Nat → Nat} {l : List Nat} (h : Inc cmp D l)
    {d x y : Nat} (hx : x ∈ l) (hy : y ∈ l) (h1 : cmp d (D x) = 0) (h2 : cmp d (D y) = 0) : x = y := by
  by_contra hne
  have s1 := tp.sign d (D x)
  have s2 := tp.sign d (D y)
  have s1' := tp.sign (D x) d
  have s2' := tp.sign (D y) d
  have e1 := tp.trans (D x) d (D y) (by omega) (by omega)
  have e2 := tp.trans (D y) d (D x) (by omega) (by omega)
  have e3 := tp.sign (D x) (D y)
  have e4 := tp.sign (D y) (D x)
  have : cmp (D x) (D y) < 0 ∨ cmp (D y) (D x) < 0 := by
    unfold Inc at h
    induction l with
    | nil => cases hx
    | cons z l ih =>
      rw [List.pairwise_cons] at h
      rcases List.mem_cons.1 hx with rfl | hx'
      · rcases List.mem_cons.1 hy with rfl | hy'
        · exact absurd rfl hne
        · exact Or.inl (h.1 y hy')
      · rcases List.mem_cons.1 hy with rfl | hy'
        · exact Or.inr (h.1 x hx')
        · exact ih h.2 hx' hy'
  omega

omit [Arch] in
theorem TreeOk.find_some {h : Heap} {tr : Tree} {o : OSet} {t : T} (k : TreeOk h tr o t) {d x : Nat}
    (hx : x ∈ t.nodes) (hc : o.cmp d (h.data x) = 0) : o.find d = some (x, h.data x) := by
  unfold OSet.find
  cases hf : o.elems.find? (fun e => decide (o.cmp d e.2 = 0)) with
  | none =>
    have := List.find?_eq_none.1 hf _ (k.elem hx)
    simp [hc] at this
  | some e =>
    have hm := List.mem_of_find?_eq_some hf
    have hp := List.find?_some hf
    simp only [decide_eq_true_eq] at hp
    have hd := k.data e hm
    have := inc_unique k.tp k.inc hx ((k.mem e.1).2 (List.mem_map_of_mem hm)) hc (by rw [hd]; exact hp)
    subst this
    rw [hd]

omit [Arch] in
theorem TreeOk.find_none {h : Heap} {tr : Tree} {o : OSet} {t : T} (k : TreeOk h tr o t) {d : Nat}
    (hc : ∀ x ∈ t.nodes, o.cmp d (h.data x) ≠ 0) : o.find d = none := by
  unfold OSet.find
  rw [List.find?_eq_none]
  intro e he
  have := hc e.1 ((k.mem e.1).2 (List.mem_map_of_mem he))
  rw [k.data e he] at this
  simpa using this

structure Inv (s : St) (a : Ab) : Prop where
  live : a.live = s.heap.valid
  liveOk : LiveOk a.live
  tree : ∀ v o, a.val v = some o → ∃ t, TreeOk s.heap (s.var v) o t
  sep : ∀ v w o o', v ≠ w → a.val v = some o → a.val w = some o' → ∀ x ∈ o.elems.map Prod.fst, x ∉ o'.elems.map Prod.fst

theorem Inv.ok {s : St} {a : Ab} (i : Inv s a) {p : Ptr} (hp : a.live p = true) : s.heap.ok p := by
  refine ⟨?_, by rw [← i.live]; exact hp⟩
  rintro rfl
  rw [i.liveOk.zero] at hp; exact absurd hp (by simp)

theorem Inv.length_lt {s : St} {a : Ab} (i : Inv s a) {v : Nat} {o : OSet} {t : T} (k : TreeOk s.heap (s.var v) o t) :
    t.nodes.length < 2 ^ (bktBit - 1) :=
  length_le_of_live i.liveOk k.nodup fun x hx => by rw [i.live]; exact (k.rep.ok x hx).2

omit [Arch] in
theorem TreeOk.length {h : Heap} {tr : Tree} {o : OSet} {t : T} (k : TreeOk h tr o t) :
    t.nodes.length = o.elems.length := by rw [k.perm.length_eq, List.length_map]

/-- A call which changes only the tree `v` and the node `p`. -/
theorem Inv.change {s : St} {a : Ab} (i : Inv s a) {v : Nat} {o : OSet} (ho : a.val v = some o) {h' : Heap} {tr' : Tree}
    {o' : OSet} {t' : T} (k' : TreeOk h' tr' o' t') (S : List Nat) (hv : h'.valid = s.heap.valid)
    (he : ∀ x, x ∉ S → h'.next x = s.heap.next x ∧ h'.prev x = s.heap.prev x ∧ h'.index x = s.heap.index x ∧ h'.data x = s.heap.data x)
    (hS : ∀ x ∈ S, x ∈ o.elems.map Prod.fst ∨ ¬ a.stored x)
    (hS' : ∀ x ∈ o'.elems.map Prod.fst, x ∈ o.elems.map Prod.fst ∨ ¬ a.stored x) :
    Inv ⟨h', upd s.var v tr'⟩ { a with val := upd a.val v (some o') } where
  live := by rw [hv]; exact i.live
  liveOk := i.liveOk
  tree w p hw := by
    simp only [upd_apply] at hw ⊢
    by_cases e : w = v
    · rw [if_pos e] at hw ⊢
      cases hw
      exact ⟨t', k'⟩
    · rw [if_neg e] at hw ⊢
      obtain ⟨t, k⟩ := i.tree w p hw
      refine ⟨t, k.congr ?_⟩
      intro x hx
      have hxS : x ∉ S := by
        intro hm
        rcases hS x hm with h1 | h1
        · exact i.sep v w o p (Ne.symm e) ho hw x h1 hx
        · exact h1 ⟨w, p, hw, hx⟩
      obtain ⟨a1, a2, a3, a4⟩ := he x hxS
      exact ⟨by rw [hv], a1, a2, a3, a4⟩
  sep w u p q hne hw hu x hx hx' := by
    simp only [upd_apply] at hw hu
    by_cases e : w = v
    · rw [if_pos e] at hw
      cases hw
      rw [if_neg (fun e' => hne (e.trans e'.symm))] at hu
      rcases hS' x hx with h1 | h1
      · exact i.sep v u o q (fun e' => hne (e.trans e')) ho hu x h1 hx'
      · exact h1 ⟨u, q, hu, hx'⟩
    · rw [if_neg e] at hw
      by_cases e' : u = v
      · rw [if_pos e'] at hu
        cases hu
        rcases hS' x hx' with h1 | h1
        · exact i.sep w v p o e hw ho x hx h1
        · exact h1 ⟨w, p, hw, hx⟩
      · rw [if_neg e'] at hu
        exact i.sep w u p q hne hw hu x hx hx'

omit [Arch] in
theorem nodup_filter_ne {a b : List Nat} {x : Nat} (h : (a ++ x :: b).Nodup) :
    (a ++ x :: b).filter (fun y => y ≠ x) = a ++ b := by
  simp only [List.nodup_append, List.nodup_cons, List.mem_cons] at h
  rw [List.filter_append, List.filter_cons]
  simp only [ne_eq, not_true_eq_false, decide_false, Bool.false_eq_true, if_false]
  rw [List.filter_eq_self.2, List.filter_eq_self.2]
  · intro y hy; simp; grind
  · intro y hy; simp; grind

/-- The tree after the remove of `x`. -/
theorem TreeOk.removed {h h' : Heap} {tr tr' : Tree} {o : OSet} {t t' : T} (k : TreeOk h tr o t) {x : Nat}
    {a b : List Nat} (hn : t.nodes = a ++ x :: b) (hn' : t'.nodes = a ++ b) (g : t'.Good) (hr : Rep h' t' tr'.root)
    (hd : h'.data = h.data) (hc : tr'.cmp = tr.cmp) (hcnt : tr'.count = decT tr.count) (hlen : tr.count < 2 ^ sizeBit) :
    TreeOk h' tr' { o with elems := o.elems.filter fun e => e.1 ≠ x } t' := by
  have nd := k.nodup
  have pm := k.perm.filter (fun y => decide (y ≠ x))
  rw [hn] at nd
  rw [hn, nodup_filter_ne nd, ← hn'] at pm
  have pm' : t'.nodes.Perm ((o.elems.filter fun e => e.1 ≠ x).map Prod.fst) := by
    rw [List.filter_map] at pm; exact pm
  have sb : t'.nodes.Sublist t.nodes := by rw [hn, hn']; simp
  refine ⟨k.tp, hc.trans k.cmp, hr, g, pm', k.nodup.sublist sb, ?_, ?_, ?_⟩
  · intro e he
    rw [hd]; exact k.data e (List.mem_filter.1 he).1
  · rw [hd]; exact List.Pairwise.sublist sb k.inc
  · rw [hcnt]
    have e1 := pm'.length_eq
    have e2 := k.length
    rw [List.length_map] at e1
    simp only [hn, hn', List.length_append, List.length_cons] at e1 e2
    show _ = (o.elems.filter fun e => decide (e.1 ≠ x)).length
    unfold decT
    rw [k.count]
    split <;> omega

theorem remove_run {s : St} {a : Ab} (i : Inv s a) {v : Nat} {o : OSet} (ho : a.val v = some o) (d : Nat) :
    ∃ tr' h', treeRemove (s.var v) d s.heap = some ((tr', ((o.find d).map Prod.snd).getD 0), h') ∧
      Fr s.heap h' (o.elems.map Prod.fst) ∧
      Inv ⟨h', upd s.var v tr'⟩ { a with val := upd a.val v (some { o with elems := o.elems.filter fun e => o.cmp d e.2 ≠ 0 }) } := by
  obtain ⟨t, k⟩ := i.tree v o ho
  have hlen := i.length_lt k
  have hcl := k.length
  obtain ⟨t', h', fd, e, rp, f, g, n⟩ := removeNode_run k.tp k.good s.heap d 0 k.rep k.nodup (by arch) k.inc
  have f' : Fr s.heap h' (o.elems.map Prod.fst) := f.mono fun x hx => (k.mem x).1 hx
  have fo : ∀ x, x ∉ o.elems.map Prod.fst → h'.next x = s.heap.next x ∧ h'.prev x = s.heap.prev x ∧
      h'.index x = s.heap.index x ∧ h'.data x = s.heap.data x := fun x hx =>
    ⟨(f'.out x hx).1, (f'.out x hx).2.1, (f'.out x hx).2.2, by rw [f'.data]⟩
  rcases n with ⟨n1, n2, n3⟩ | ⟨n1, l, r, n2, n3⟩
  · have hfn := k.find_none n3
    have hfl : (o.elems.filter fun e => decide (o.cmp d e.2 ≠ 0)) = o.elems := by
      rw [List.filter_eq_self]
      intro x hx
      have := n3 x.1 ((k.mem x.1).2 (List.mem_map_of_mem hx))
      rw [k.data x hx] at this
      simpa using this
    rw [hfl]
    refine ⟨{ s.var v with root := t'.ptr }, h', ?_, f', ?_⟩
    · unfold treeRemove
      rw [← k.cmp] at e
      simp only [run_bind, e, Option.bind_some, n1, if_true, hfn]
      rfl
    · refine i.change ho (o' := o) (t' := t') ?_ _ f'.valid fo (fun x hx => Or.inl hx) (fun x hx => Or.inl hx)
      refine ⟨k.tp, k.cmp, rp, g, by rw [n2]; exact k.perm, by rw [n2]; exact k.nodup, ?_, ?_, k.count⟩
      · rw [f.data]; exact k.data
      · rw [f.data, n2]; exact k.inc
  · have hm : fd ∈ t.nodes := by rw [n2]; simp
    have hfs := k.find_some hm n1
    have ok' : h'.ok fd := f.ok (k.rep.ok fd hm)
    have hfl : (o.elems.filter fun e => decide (o.cmp d e.2 ≠ 0)) = o.elems.filter fun e => decide (e.1 ≠ fd) := by
      apply List.filter_congr
      intro x hx
      have hx' := (k.mem x.1).2 (List.mem_map_of_mem hx)
      have hdx := k.data x hx
      by_cases he : x.1 = fd
      · simp only [he, ne_eq, not_true_eq_false, decide_false, decide_eq_false_iff_not, not_not]
        rw [← hdx, he]; exact n1
      · have : o.cmp d x.2 ≠ 0 := fun hc => he (inc_unique k.tp k.inc hx' hm (by rw [hdx]; exact hc) n1)
        simp [he, this]
    rw [hfl]
    have ok0 : fd ≠ 0 := ok'.1
    refine ⟨{ s.var v with root := t'.ptr, count := decT (s.var v).count }, h', ?_, f', ?_⟩
    · unfold treeRemove
      rw [← k.cmp] at e
      simp only [run_bind, e, Option.bind_some, ok0, if_false, run_ite, getData_run ok', hfs, f.data]
      rfl
    · exact i.change ho (k.removed n2 n3 g rp f.data rfl rfl (by rw [k.count]; arch)) _ f'.valid fo (fun x hx => Or.inl hx)
        (fun x hx => Or.inl (by
          obtain ⟨e, he, rfl⟩ := List.mem_map.1 hx
          exact List.mem_map_of_mem (List.mem_filter.1 he).1))

/-- The heap after the node was initialised by the insert. -/
def initNode (h : Heap) (p d : Nat) : Heap :=
  { h with data := upd h.data p d, prev := upd h.prev p 0, next := upd h.next p 0, index := upd h.index p 0 }

theorem insert_run {s : St} {a : Ab} (i : Inv s a) {v : Nat} {o : OSet} (ho : a.val v = some o) {p d : Nat}
    (hl : a.live p = true) (hs : ¬ a.stored p) :
    ∃ tr' h', treeInsert (s.var v) p d s.heap = some ((tr', ((o.find d).map Prod.snd).getD d), h') ∧
      Fr (initNode s.heap p d) h' (p :: o.elems.map Prod.fst) ∧
      Inv ⟨h', upd s.var v tr'⟩ { a with val := upd a.val v (some { o with
        elems := if (o.find d).isSome then o.elems else o.elems ++ [(p, d)] }) } := by
  obtain ⟨t, k⟩ := i.tree v o ho
  have hlen := i.length_lt k
  have hcl := k.length
  have op := i.ok hl
  have hps : p ∉ o.elems.map Prod.fst := fun hm => hs ⟨v, o, ho, hm⟩
  have hpt : p ∉ t.nodes := fun hm => hps ((k.mem p).1 hm)
  have k0 : TreeOk (initNode s.heap p d) (s.var v) o t := k.congr fun x hx => by
    have hne : x ≠ p := fun e => hps (e ▸ hx)
    exact ⟨rfl, upd_ne hne, upd_ne hne, upd_ne hne, upd_ne hne⟩
  obtain ⟨t', h', fd, e, rp, f, g, n⟩ := insertNode_run k0.tp k0.good (initNode s.heap p d) k0.rep (x := p) op
    (upd_same _ _ _) (upd_same _ _ _) (upd_same _ _ _) hpt k0.nodup (by arch) k0.inc
  have hdp : (initNode s.heap p d).data p = d := upd_same _ _ _
  have f' : Fr (initNode s.heap p d) h' (p :: o.elems.map Prod.fst) := f.mono fun x hx => by
    rcases List.mem_cons.1 hx with rfl | hx
    · simp
    · exact List.mem_cons_of_mem _ ((k.mem x).1 hx)
  have fo : ∀ x, x ∉ p :: o.elems.map Prod.fst → h'.next x = s.heap.next x ∧ h'.prev x = s.heap.prev x ∧
      h'.index x = s.heap.index x ∧ h'.data x = s.heap.data x := by
    intro x hx
    have hne : x ≠ p := fun e => hx (by simp [e])
    obtain ⟨a1, a2, a3⟩ := f'.out x hx
    refine ⟨a1.trans (upd_ne hne), a2.trans (upd_ne hne), a3.trans (upd_ne hne), ?_⟩
    rw [f'.data]; exact upd_ne hne
  have hS : ∀ x ∈ p :: o.elems.map Prod.fst, x ∈ o.elems.map Prod.fst ∨ ¬ a.stored x := by
    intro x hx
    rcases List.mem_cons.1 hx with rfl | hx
    · exact Or.inr hs
    · exact Or.inl hx
  have run : treeInsert (s.var v) p d s.heap = some ((if fd = p then
      { s.var v with root := t'.ptr, count := sizeT ((s.var v).count + 1) } else { s.var v with root := t'.ptr },
      (initNode s.heap p d).data fd), h') := by
    have okf : h'.ok fd := by
      rcases n with ⟨rfl, _⟩ | ⟨n1, _⟩
      · exact f.ok op
      · exact f.ok (k0.rep.ok fd n1)
    unfold treeInsert
    rw [← k.cmp] at e
    have e' := e
    unfold initNode at e'
    simp only [run_bind, setData_run op, Option.bind_some, setPrev_run (h := { s.heap with data := upd s.heap.data p d }) op,
      setNext_run (h := { s.heap with data := upd s.heap.data p d, prev := upd s.heap.prev p 0 }) op,
      setIndex_run (h := { s.heap with data := upd s.heap.data p d, prev := upd s.heap.prev p 0, next := upd s.heap.next p 0 }) op,
      e', getData_run okf, f.data]
    rfl
  rcases n with ⟨n1, l, r, n2, n3, n4, n5⟩ | ⟨n1, n2, n3⟩
  · subst n1
    rw [hdp] at n4 n5 run
    have hfn : o.find d = none := k0.find_none (by
      intro x hx
      rw [n2, List.mem_append] at hx
      rcases hx with hx | hx
      · have := n4 x hx; omega
      · have := n5 x hx; omega)
    rw [hfn]
    rw [if_pos rfl] at run
    refine ⟨_, h', run, f', ?_⟩
    simp only [Option.isSome_none, Bool.false_eq_true, if_false]
    have pm : t'.nodes.Perm ((o.elems ++ [(fd, d)]).map Prod.fst) := by
      rw [n3, List.map_append]
      refine List.perm_middle.trans ?_
      rw [← n2]
      exact (k.perm.cons fd).trans (List.perm_append_singleton _ _).symm
    refine i.change ho (t' := t') ⟨k.tp, k.cmp, rp, g, pm, ?_, ?_, ?_, ?_⟩ _ f'.valid fo hS ?_
    · rw [n3]
      exact List.perm_middle.nodup_iff.2 (List.nodup_cons.2 ⟨by rw [← n2]; exact hpt, by rw [← n2]; exact k.nodup⟩)
    · intro x hx
      rw [f.data]
      rcases List.mem_append.1 hx with hx | hx
      · exact k0.data x hx
      · simp only [List.mem_singleton] at hx
        rw [hx]; exact hdp
    · rw [f.data, n3]
      have hi := k0.inc
      rw [n2] at hi
      unfold Inc at hi ⊢
      rw [List.pairwise_append] at hi
      rw [List.pairwise_append, List.pairwise_cons]
      refine ⟨hi.1, ⟨fun y hy => by rw [hdp]; exact n5 y hy, hi.2.1⟩, ?_⟩
      intro x hx y hy
      rcases List.mem_cons.1 hy with rfl | hy
      · rw [hdp]; exact (k.tp.sign _ _).2 (n4 x hx)
      · exact hi.2.2 x hx y hy
    · show sizeT ((s.var v).count + 1) = _
      rw [k.count, sizeT, Nat.mod_eq_of_lt (by arch)]
      simp
    · intro x hx
      rw [List.map_append, List.mem_append] at hx
      rcases hx with hx | hx
      · exact Or.inl hx
      · simp only [List.map_cons, List.map_nil, List.mem_singleton] at hx
        rw [hx]; exact Or.inr hs
  · have hfs := k0.find_some n1 (by rw [hdp] at n2; exact n2)
    rw [hfs]
    rw [if_neg (fun e : fd = p => hpt (e ▸ n1))] at run
    refine ⟨_, h', run, f', ?_⟩
    simp only [Option.isSome_some, if_true]
    refine i.change ho (t' := t') ⟨k.tp, k.cmp, rp, g, by rw [n3]; exact k.perm, by rw [n3]; exact k.nodup, ?_, ?_, k.count⟩
      _ f'.valid fo hS (fun x hx => Or.inl hx)
    · rw [f.data]; exact k0.data
    · rw [f.data, n3]; exact k0.inc

omit [Arch] in
theorem inc_mono {cmp : Nat → Nat → Int} (tp : TotalPreorder cmp) {D : Nat → Nat} {l : List Nat} (h : Inc cmp D l) (d : Nat) :
    Mono (cmp d) D l := by
  unfold Inc at h
  refine h.imp ?_
  intro x y hxy
  refine ⟨fun h1 => TP.lt_trans tp h1 (Int.le_of_lt hxy), fun h1 => ?_⟩
  exact (tp.sign _ _).1 (TP.lt_trans tp hxy (Int.le_of_lt ((tp.sign _ _).2 h1)))

theorem search_run {s : St} {a : Ab} (i : Inv s a) {v : Nat} {o : OSet} (ho : a.val v = some o) (d : Nat) :
    treeSearch (s.var v) d s.heap = some (((o.find d).map Prod.snd).getD 0, s.heap) := by
  obtain ⟨t, k⟩ := i.tree v o ho
  obtain ⟨fd, e, n⟩ := searchNode_run (cmp := o.cmp) s.heap d k.rep (inc_mono k.tp k.inc d)
  unfold treeSearch
  rw [k.cmp]
  rcases n with ⟨n1, n2⟩ | ⟨n1, n2⟩
  · rw [k.find_none n2]
    simp only [run_bind, e, Option.bind_some, n1, if_true]
    rfl
  · have okf := k.rep.ok fd n1
    have h0 : fd ≠ 0 := okf.1
    rw [k.find_some n1 n2]
    simp only [run_bind, e, Option.bind_some, h0, if_false, run_ite, getData_run okf]
    rfl

theorem searchCompare_run {s : St} {a : Ab} (i : Inv s a) {v : Nat} {o : OSet} (ho : a.val v = some o)
    (cmp : Nat → Nat → Int) (arg : Nat) (hm : Monotone o (cmp arg)) :
    ∃ r, treeSearchCompare (s.var v) cmp arg s.heap = some (r, s.heap) ∧
      ((∃ e ∈ o.elems, cmp arg e.2 = 0 ∧ r = e.2) ∨ ((∀ e ∈ o.elems, cmp arg e.2 ≠ 0) ∧ r = 0)) := by
  obtain ⟨t, k⟩ := i.tree v o ho
  have mono : Mono (cmp arg) s.heap.data t.nodes := by
    refine List.Pairwise.imp_of_mem ?_ k.inc
    intro x y hx hy hxy
    exact hm _ (k.elem hx) _ (k.elem hy) hxy
  obtain ⟨fd, e, n⟩ := searchNode_run (cmp := cmp) s.heap arg k.rep mono
  unfold treeSearchCompare
  rcases n with ⟨n1, n2⟩ | ⟨n1, n2⟩
  · refine ⟨0, ?_, Or.inr ⟨?_, rfl⟩⟩
    · simp only [run_bind, e, Option.bind_some, n1, if_true]
      rfl
    · intro x hx
      have := n2 x.1 ((k.mem x.1).2 (List.mem_map_of_mem hx))
      rwa [k.data x hx] at this
  · have okf := k.rep.ok fd n1
    have h0 : fd ≠ 0 := okf.1
    refine ⟨s.heap.data fd, ?_, Or.inl ⟨_, k.elem n1, n2, rfl⟩⟩
    simp only [run_bind, e, Option.bind_some, h0, if_false, run_ite, getData_run okf]

theorem init_inv (s : St) (a : Ab) (h : sys.init s a) : Inv s a where
  live := h.2.1
  liveOk := h.2.2
  tree v o ho := by rw [h.1 v] at ho; cases ho
  sep v w o o' _ ho := by rw [h.1 v] at ho; cases ho

/-- A change of a node in no tree. -/
theorem Inv.outside {s : St} {a : Ab} (i : Inv s a) {p : Ptr} (hs : ¬ a.stored p) {h' : Heap} {live' : Ptr → Bool}
    (hl : live' = h'.valid) (hk : LiveOk live')
    (he : ∀ x, x ≠ p → h'.valid x = s.heap.valid x ∧ h'.next x = s.heap.next x ∧ h'.prev x = s.heap.prev x ∧
      h'.index x = s.heap.index x ∧ h'.data x = s.heap.data x) : Inv { s with heap := h' } { a with live := live' } where
  live := hl
  liveOk := hk
  tree v o ho := by
    obtain ⟨t, k⟩ := i.tree v o ho
    exact ⟨t, k.congr fun x hx => he x fun e => hs ⟨v, o, ho, e ▸ hx⟩⟩
  sep := i.sep

theorem step_inv (s : St) (a : Ab) (op : Op) (i : Inv s a) (hleg : legal a op) :
    ∃ out s', step op s = some (out, s') ∧ allowed a op out ∧ Inv s' (next a op out) := by
  cases op with
  | init v cmp =>
    refine ⟨.unit, _, rfl, rfl, ?_⟩
    have hleg : TotalPreorder cmp := hleg
    refine ⟨i.live, i.liveOk, ?_, ?_⟩
    · intro w o ho
      simp only [next, upd_apply] at ho ⊢
      by_cases e : w = v
      · rw [if_pos e] at ho ⊢
        cases ho
        exact ⟨.nil, hleg, rfl, rfl, trivial, by exact List.Perm.refl [], List.nodup_nil, by simp, List.Pairwise.nil, rfl⟩
      · rw [if_neg e] at ho ⊢
        exact i.tree w o ho
    · intro w u o o' hne hw hu x hx hx'
      simp only [next, upd_apply] at hw hu
      by_cases e : w = v
      · rw [if_pos e] at hw; cases hw; simp at hx
      · rw [if_neg e] at hw
        by_cases e' : u = v
        · rw [if_pos e'] at hu; cases hu; simp at hx'
        · rw [if_neg e'] at hu
          exact i.sep w u o o' hne hw hu x hx hx'
  | insert v p d =>
    obtain ⟨h1, h2, h3⟩ := hleg
    obtain ⟨o, ho⟩ := Option.isSome_iff_exists.1 h1
    obtain ⟨tr', h', e, _, inv⟩ := insert_run i ho (d := d) h2 h3
    refine ⟨_, _, by simp only [step, e, Option.map_some]; rfl, ?_, ?_⟩
    · intro o' ho'; rw [ho] at ho'; cases ho'; rfl
    · simp only [next, Ab.onSet, ho, Option.map_some]; exact inv
  | remove v d =>
    obtain ⟨o, ho⟩ := Option.isSome_iff_exists.1 hleg
    obtain ⟨tr', h', e, _, inv⟩ := remove_run i ho d
    refine ⟨_, _, by simp only [step, e, Option.map_some]; rfl, ?_, ?_⟩
    · intro o' ho'; rw [ho] at ho'; cases ho'; rfl
    · simp only [next, Ab.onSet, ho, Option.map_some]; exact inv
  | removeExisting v p =>
    obtain ⟨o, x, ho, hx, rfl, hx0⟩ := hleg
    obtain ⟨tr', h', e, _, inv⟩ := remove_run i ho x.2
    obtain ⟨t, k⟩ := i.tree v o ho
    have hxt := (k.mem x.1).2 (List.mem_map_of_mem hx)
    have hdx := k.data x hx
    have hf : o.find x.2 = some x := by
      rw [k.find_some hxt (by rw [hdx]; exact TP.refl k.tp _), hdx]
    have hfl : (o.elems.filter fun e => decide (o.cmp x.2 e.2 ≠ 0)) = o.elems.filter fun e => decide (e.1 ≠ x.1) := by
      apply List.filter_congr
      intro y hy
      have hy' := (k.mem y.1).2 (List.mem_map_of_mem hy)
      have hdy := k.data y hy
      by_cases he : y.1 = x.1
      · have : y.2 = x.2 := by rw [← hdy, he, hdx]
        simp [he, this, TP.refl k.tp]
      · have : o.cmp x.2 y.2 ≠ 0 := fun hc => he (inc_unique k.tp k.inc hy' hxt (by rw [hdy]; exact hc)
          (by rw [hdx]; exact TP.refl k.tp _))
        simp [he, this]
    rw [hf] at e
    rw [hfl] at inv
    have run : treeRemoveExisting (s.var v) x.1 s.heap = some ((tr', x.2), h') := by
      unfold treeRemoveExisting
      simp only [run_bind, getData_run (k.rep.ok _ hxt), hdx, Option.bind_some, e]
      rw [if_pos (show (Option.map Prod.snd (some x)).getD 0 ≠ 0 from hx0)]
      rfl
    refine ⟨_, _, by simp only [step, run, Option.map_some]; rfl, ?_, ?_⟩
    · intro o' ho'; rw [ho] at ho'; cases ho'; exact ⟨x, hx, rfl, rfl⟩
    · simp only [next, Ab.onSet, ho, Option.map_some]; exact inv
  | search v d =>
    obtain ⟨o, ho⟩ := Option.isSome_iff_exists.1 hleg
    refine ⟨_, _, by simp only [step, search_run i ho d, Option.map_some]; rfl, ?_, i⟩
    intro o' ho'; rw [ho] at ho'; cases ho'; rfl
  | searchCompare v cmp arg =>
    obtain ⟨o, ho, hm⟩ := hleg
    obtain ⟨r, e, hr⟩ := searchCompare_run i ho cmp arg hm
    refine ⟨_, _, by simp only [step, e, Option.map_some]; rfl, ?_, i⟩
    intro o' ho'; rw [ho] at ho'; cases ho'
    rcases hr with ⟨x, h1, h2, h3⟩ | ⟨h1, h2⟩
    · exact Or.inl ⟨x, h1, h2, by rw [h3]⟩
    · exact Or.inr ⟨h1, by rw [h2]⟩
  | count v =>
    obtain ⟨o, ho⟩ := Option.isSome_iff_exists.1 hleg
    obtain ⟨t, k⟩ := i.tree v o ho
    refine ⟨_, _, rfl, ?_, i⟩
    intro o' ho'; rw [ho] at ho'; cases ho'
    rw [treeCount, k.count]
  | memoryUsage v =>
    obtain ⟨o, ho⟩ := Option.isSome_iff_exists.1 hleg
    obtain ⟨t, k⟩ := i.tree v o ho
    refine ⟨_, _, rfl, ?_, i⟩
    intro o' ho'; rw [ho] at ho'; cases ho'
    have := i.length_lt k
    have := k.length
    rw [treeMemoryUsage, treeCount, k.count, sizeT, Nat.mod_eq_of_lt (by arch), Nat.mul_comm]
  | alloc p =>
    refine ⟨.unit, _, rfl, rfl, ?_⟩
    have hleg : Fits a.live p := hleg
    have hns : ¬ a.stored p := by
      rintro ⟨v, o, ho, hp⟩
      obtain ⟨t, k⟩ := i.tree v o ho
      have hv : a.live p = true := by rw [i.live]; exact (k.ok hp).2
      rcases hleg.2.2 p hv with h | h <;> exact absurd h (Nat.not_le.2 (Nat.lt_add_of_pos_right (by arch)))
    refine i.outside (p := p) hns (by simp only [next, i.live]) ?_ ?_
    · refine ⟨?_, ?_, ?_⟩
      · rw [upd_ne hleg.1.symm]; exact i.liveOk.zero
      · intro q hq
        by_cases e : q = p
        · rw [e]; exact hleg.2.1
        · rw [upd_ne e] at hq; exact i.liveOk.bound q hq
      · intro x y hx hy hxy
        by_cases e : x = p
        · rw [e] at hxy ⊢
          rw [upd_ne hxy.symm] at hy
          exact hleg.2.2 y hy
        · rw [upd_ne e] at hx
          by_cases e' : y = p
          · rw [e']; exact (hleg.2.2 x hx).symm
          · rw [upd_ne e'] at hy; exact i.liveOk.apart x y hx hy hxy
    · intro x hx
      exact ⟨upd_ne hx, rfl, rfl, rfl, rfl⟩
  | free p =>
    refine ⟨.unit, _, rfl, rfl, ?_⟩
    have hleg : a.live p = true ∧ ¬ a.stored p := hleg
    have sub : ∀ q, upd a.live p false q = true → a.live q = true := by
      intro q hq
      by_cases e : q = p
      · rw [e, upd_same] at hq; cases hq
      · rwa [upd_ne e] at hq
    refine i.outside (p := p) hleg.2 (by simp only [next, i.live]) ?_ ?_
    · refine ⟨?_, fun q hq => i.liveOk.bound q (sub q hq), fun x y hx hy => i.liveOk.apart x y (sub x hx) (sub y hy)⟩
      cases h : upd a.live p false 0 with
      | false => rfl
      | true => have := sub 0 h; rw [i.liveOk.zero] at this; cases this
    · intro x hx
      exact ⟨upd_ne hx, rfl, rfl, rfl, rfl⟩
  | scribble p n q d x =>
    refine ⟨.unit, _, rfl, rfl, ?_⟩
    have hleg : a.live p = true ∧ ¬ a.stored p := hleg
    refine i.outside (p := p) (live' := a.live) hleg.2 i.live i.liveOk ?_
    intro y hy
    exact ⟨rfl, upd_ne hy, upd_ne hy, upd_ne hy, upd_ne hy⟩

theorem reach_inv {s : St} {a : Ab} (h : sys.Reach s a) : Inv s a := Sys.reach_inv (Inv := Inv) init_inv step_inv s a h

end TreeSpec
end Tommy
