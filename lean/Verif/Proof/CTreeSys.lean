import Verif.Proof.CTreeInv
/-! The text of tommytree.c does what the specification says. -/
set_option autoImplicit false
set_option linter.unusedSectionVars false
set_option linter.unusedSimpArgs false
set_option linter.unusedVariables false
namespace Tommy.CTreeSpec

open C HashFlat
open AllocSpec (rdN_congr)
open TreeSpec (OSet TreeOk)
open TreeP (T)
variable [Arch] {K : Cmps} {w : AMem} {a : Ab} {t : Nat} {S : Nat → Bool} {o : OSet}

omit [Arch] in
theorem rdN_inj {f g : Nat → Nat} (hf : ∀ x, f x < 256) (hg : ∀ x, g x < 256) : ∀ {n p : Nat}, rdN f p n = rdN g p n →
    ∀ x, p ≤ x → x < p + n → f x = g x := by
  intro n
  induction n with
  | zero => intro p _ x h1 h2; omega
  | succ n ih =>
    intro p h x h1 h2
    simp only [rdN] at h
    have := hf p
    have := hg p
    by_cases e : x = p
    · subst e; omega
    · exact ih (p := p + 1) (by omega) x (by omega) (by omega)

theorem onNodes_run {α : Type} {x : HM α} {h h' : Heap} {r : α} (e : x h = some (r, h')) (m : Mem) (hm : m.heap = h) :
    onNodes x m = some (r, { m with heap := h' }) := by
  subst hm
  simp only [onNodes, zoom, e, Option.map_some]

theorem stack_fresh {s : Nat} {ct : Nat → Nat} (h : a.Stack s ct) (hw : a.mem = w) : Fresh w.live s ptrSize := by
  subst hw
  exact ⟨h.none, h.pos, h.lt, h.sep⟩

theorem stack_apart {s : Nat} {ct : Nat → Nat} (h : a.Stack s ct) (hw : a.mem = w) {p n : Nat} (hr : InReg w p n) : p + n ≤ s ∨ s + ptrSize ≤ p := by
  subst hw
  obtain ⟨b, k, h1, h2, h3⟩ := hr
  have := h.sep b k h1
  omega

/-- A call which changes the tree. -/
theorem mutate (i : Iv K w a) (h : a.tab t = some o) (l : Lay w a.tab t S) {s : Nat} {ct : Nat → Nat} (st : a.Stack s ct)
    {x : HM (Tree × Nat)} {h' : Heap} {tr' : Tree} {r : Nat} (e : x (heapAt w S) = some ((tr', r), h')) {f : String} {vs : List Val}
    (sim : Sim (gh w t S [(s, ct)]) (onNodes x) (run (ext K) f vs) (PCall (gh w t S [(s, ct)]) t s)) {o' : OSet} {T : T} (k : TreeOk h' tr' o' T)
    (hc : o'.cmp = o.cmp) (hS : ∀ p, nodes o' p = true → S p = true) :
    ∃ w', call K f vs [(s, ct)] w = some (⟨r, [], w'⟩, w') ∧ Iv K w' ⟨w', upd a.tab t (some o')⟩ ∧ w'.live = w.live ∧
      ∀ x, Free w t S x → w'.byte x = w.byte x := by
  obtain ⟨v, W', G', h1, h2, rfl, rfl⟩ := sim _ _ (grel_start i.ok l (S_zero i.ok l) _) _ _ (onNodes_run e (memAt w S) rfl)
  have hs := stack_apart st i.mem l.sreg
  have h0 := ptr_pos
  have hts : treeSize = 3 * ptrSize := rfl
  have pop : ∀ {F : Fld} {x n : Nat}, ¬ (s ≤ x ∧ x + n ≤ s + ptrSize) → popF F s ptrSize x n = F x n := fun h => if_neg h
  have A : After w t (rd w (t + ptrSize)) S tr' { gh w t S [(s, ct)] with F := popF (setTree (flds w t S) t tr') s ptrSize, ms := [(s, ct)].drop 1 } :=
    { live := rfl
      log := rfl
      str := by
        constructor
        · simp only
          rw [pop (by omega), setTree, Fld.set_ne (.inl (by omega)), Fld.set_same]
        · simp only
          rw [pop (by omega), setTree, Fld.set_ne (.inl (by omega)), Fld.set_ne (.inl (by omega))]
          exact flds_str (.inr (.inl rfl))
        · simp only
          rw [pop (by omega), setTree, Fld.set_same]
      free := fun x hx => by
        have := stack_apart st i.mem hx.1
        simp only
        rw [pop (by omega), setTree_free, flds_free hx] }
  obtain ⟨g1, g2, g3, g4⟩ := post i l h2 A k (by rw [hc]; exact (i.cmp t o h).1) (by rw [hc]; exact (i.cmp t o h).2) hS
  refine ⟨W'.mem, ?_, g1, g3, g4⟩
  unfold call
  rw [h1, Option.map_some, g2]

/-- A call which only reads. -/
theorem reads (i : Iv K w a) (h : a.tab t = some o) {α : Type} {x : MM α} {r : α} (e : x (memAt w (nodes o)) = some (r, memAt w (nodes o)))
    {f : String} {vs : List Val} {R : α → Val → Prop} (sim : SimE (gh w t (nodes o) []) x (run (ext K) f vs) R) :
    ∃ v w', R r v ∧ call K f vs [] w = some (⟨v.v, [], w'⟩, w') ∧ Iv K w' ⟨w', a.tab⟩ ∧ w'.live = w.live ∧
      ∀ x, InReg a.mem x 1 → w'.byte x = a.mem.byte x := by
  have l := i.lay t o h
  obtain ⟨v, W', G', h1, h2, rfl, h3⟩ := sim _ _ (grel_start i.ok l (S_zero i.ok l) _) _ _ e
  have A : After w t (rd w (t + ptrSize)) (nodes o) (treeAt w t o.cmp) (gh w t (nodes o) []) := ⟨rfl, rfl, treeF o, fun x hx => flds_free hx⟩
  obtain ⟨T, k⟩ := i.tree t o h
  obtain ⟨g1, g2, g3, g4⟩ := post i l h2 A k (i.cmp t o h).1 (i.cmp t o h).2 fun _ h => h
  rw [show upd a.tab t (some o) = a.tab by rw [← h]; exact upd_self ..] at g1
  refine ⟨v, W'.mem, h3, ?_, g1, g3, fun x hx => ?_⟩
  · unfold call
    rw [h1, Option.map_some, g2]
  rw [i.mem] at hx ⊢
  have hts : treeSize = 3 * ptrSize := rfl
  have fld : ∀ {y}, (y = t ∨ y = t + ptrSize ∨ y = t + 2 * ptrSize) → rd W'.mem y = rd w y := by
    intro y hy
    exact h2.rel.val (.fld y ptrSize) _ (by simp only [dom, gh]; rw [flds_str hy]; nofun) (by simp [HashFlat.val, gh, flds_str hy])
  have inj : ∀ {y}, rd W'.mem y = rd w y → y ≤ x → x < y + ptrSize → W'.mem.byte x = w.byte x := fun e k1 k2 => rdN_inj h2.rel.byte i.ok.byte e x k1 k2
  by_cases c1 : t ≤ x ∧ x < t + treeSize
  · by_cases c2 : x < t + ptrSize
    · exact inj (fld (.inl rfl)) (by omega) c2
    by_cases c3 : x < t + 2 * ptrSize
    · exact inj (fld (.inr (.inl rfl))) (by omega) (by omega)
    · exact inj (fld (.inr (.inr rfl))) (by omega) (by omega)
  by_cases c2 : ∃ q, nodes o q = true ∧ q ≤ x ∧ x < q + nodeSize
  · obtain ⟨q, hq, c3, c4⟩ := c2
    have ok : (heapAt w (nodes o)).ok q := ⟨fun e => by (rw [e, S_zero i.ok l] at hq; cases hq), hq⟩
    have hcov : x < q + nodNext + ptrSize ∧ q + nodNext ≤ x ∨ x < q + nodPrev + ptrSize ∧ q + nodPrev ≤ x ∨
        x < q + nodData + ptrSize ∧ q + nodData ≤ x ∨ x < q + nodIndex + ptrSize ∧ q + nodIndex ≤ x := by
      unfold nodNext nodPrev nodData nodIndex
      unfold nodeSize at c4
      omega
    rcases hcov with c | c | c | c
    · exact inj (h2.rel.val (.next q) _ ok rfl) c.2 c.1
    · exact inj (h2.rel.val (.prev q) _ ok rfl) c.2 c.1
    · exact inj (h2.rel.val (.data q) _ ok rfl) c.2 c.1
    · exact inj (h2.rel.val (.index q) _ ok rfl) c.2 c.1
  · refine g4 x ⟨hx, ?_, fun q hq => ?_⟩
    · unfold Apart; simp only; omega
    · have : ¬ (q ≤ x ∧ x < q + nodeSize) := fun h => c2 ⟨q, hq, h⟩
      unfold Apart; simp only; omega

theorem bytes_ok {w' : AMem} (h : w'.live = w.live) {p n : Nat} : InReg w' p n ↔ InReg w p n := by
  unfold InReg; rw [h]

theorem inv_elems {s : TreeSpec.St} {A : TreeSpec.Ab} (j : TreeSpec.Inv s A) {o' : OSet} (h : A.val 0 = some o') :
    (∃ T, TreeOk s.heap (s.var 0) o' T) ∧ ∀ p, nodes o' p = true → A.live p = true := by
  obtain ⟨T, k⟩ := j.tree 0 o' h
  exact ⟨⟨T, k⟩, fun p hp => by rw [j.live]; exact (k.ok (nodes_iff.1 hp)).2⟩

/-- A call which changes the tree, from the call on the nodes. -/
theorem mutate' (i : Iv K w a) (h : a.tab t = some o) (l : Lay w a.tab t S) (hS : ∀ p, nodes o p = true → S p = true) {s : Nat} {ct : Nat → Nat}
    (st : a.Stack s ct) {top : TreeSpec.Op} (hleg : TreeSpec.legal (tab1 S o) top) {x : HM (Tree × Nat)}
    (hstep : TreeSpec.step top (tst w t S o) = (x (heapAt w S)).map fun r => (.val r.1.2, ⟨r.2, upd (tst w t S o).var 0 r.1.1⟩))
    {f : String} {vs : List Val}
    (sim : Sim (gh w t S [(s, ct)]) (onNodes x) (run (ext K) f vs) (PCall (gh w t S [(s, ct)]) t s)) {o' : OSet}
    (hnext : ∀ out, (TreeSpec.next (tab1 S o) top out).val 0 = some o' ∧ (TreeSpec.next (tab1 S o) top out).live = S) (hc : o'.cmp = o.cmp) :
    ∃ r w', call K f vs [(s, ct)] w = some (⟨r, [], w'⟩, w') ∧ TreeSpec.allowed (tab1 S o) top (.val r) ∧
      Iv K w' ⟨w', upd a.tab t (some o')⟩ ∧ w'.live = w.live ∧ ∀ x, Free w t S x → w'.byte x = w.byte x := by
  obtain ⟨out, s', e, al, j⟩ := TreeSpec.step_inv _ _ top (typed i h l hS) hleg
  rw [hstep] at e
  cases hx : x (heapAt w S) with
  | none => rw [hx] at e; cases e
  | some y =>
    obtain ⟨⟨tr', r⟩, h'⟩ := y
    rw [hx] at e
    cases e
    obtain ⟨⟨T, k⟩, hn⟩ := inv_elems j (hnext _).1
    rw [(hnext _).2] at hn
    simp only [upd_same] at k
    obtain ⟨w', g1, g2, g3, g4⟩ := mutate i h l st hx sim k hc hn
    exact ⟨r, w', g1, al, g2, g3, g4⟩

/-- The layout with a new node. -/
theorem lay_add (i : Iv K w a) (h : a.tab t = some o) {p : Nat} (hp : a.Avail p nodeSize) :
    Lay w a.tab t (fun q => nodes o q || decide (q = p)) := by
  have l := i.lay t o h
  have ap : ∀ {t' o'}, a.tab t' = some o' → ∀ b ∈ blocks t' o', Apart (p, nodeSize) b := fun h b hb => hp.apart node_pos h hb
  have cs : ∀ {q}, (nodes o q || decide (q = p)) = true → nodes o q = true ∨ q = p := by simp
  exact
    { sreg := l.sreg
      soth := l.soth
      reg := fun q hq => by
        rcases cs hq with hq | rfl
        · exact l.reg q hq
        · rw [← i.mem]; exact hp.1
      node := fun q q' hq hq' hne => by
        rcases cs hq with g | e <;> rcases cs hq' with g' | e'
        · exact l.node q q' g g' hne
        · rw [e']; exact (ap h _ (mem_blocks.2 (.inr ⟨q, g, rfl⟩))).symm
        · rw [e]; exact ap h _ (mem_blocks.2 (.inr ⟨q', g', rfl⟩))
        · exact absurd (e.trans e'.symm) hne
      str := fun q hq => by
        rcases cs hq with hq | rfl
        · exact l.str q hq
        · exact ap h _ (mem_blocks.2 (.inl rfl))
      oth := fun q hq t' o' hne h' b hb => by
        rcases cs hq with hq | rfl
        · exact l.oth q hq t' o' hne h' b hb
        · exact ap h' b hb }

theorem tab_some (h : (a.tab t).isSome) : ∃ o, a.tab t = some o := Option.isSome_iff_exists.1 h

/-- A call which changes the tree is allowed. -/
theorem close (i : Iv K w a) (h : a.tab t = some o) (l : Lay w a.tab t S) {op : Op} (hw : op.writes = some t) (hf : ¬ op.isForeign)
    (hS : ∀ p, S p = true → nodes o p = true ∨ ∀ x, p ≤ x → x < p + nodeSize → op.given x) {r : Nat} {w' : AMem} {o' : OSet}
    (hres : result a op r) (hcmp : resultCompare K a op r) (hn : ∀ out, (next K a op out).tab = upd a.tab t (some o'))
    (j : Iv K w' ⟨w', upd a.tab t (some o')⟩) (hl : w'.live = w.live) (hb : ∀ x, Free w t S x → w'.byte x = w.byte x) :
    allowed K a op ⟨r, [], w'⟩ ∧ Iv K w' (next K a op ⟨r, [], w'⟩) := by
  have e : next K a op ⟨r, [], w'⟩ = ⟨w', upd a.tab t (some o')⟩ := by
    rw [← hn ⟨r, [], w'⟩]; rfl
  rw [e]
  refine ⟨⟨hres, hcmp, by rw [e]; exact payloads_of j, rfl, fun _ => ⟨by rw [hl, i.mem], fun x h1 h2 h3 => ?_⟩⟩, j⟩
  exact frame_of l h i.mem hb hS x h1 (h2 t hw) h3

/-- A call which reads is allowed. -/
theorem close_read (i : Iv K w a) {op : Op} (hf : ¬ op.isForeign) {r : Nat} {w' : AMem} (hres : result a op r) (hcmp : resultCompare K a op r)
    (hn : ∀ out, (next K a op out).tab = a.tab) (j : Iv K w' ⟨w', a.tab⟩) (hl : w'.live = w.live)
    (hb : ∀ x, InReg a.mem x 1 → w'.byte x = a.mem.byte x) :
    allowed K a op ⟨r, [], w'⟩ ∧ Iv K w' (next K a op ⟨r, [], w'⟩) := by
  have e : next K a op ⟨r, [], w'⟩ = ⟨w', a.tab⟩ := by
    rw [← hn ⟨r, [], w'⟩]; rfl
  rw [e]
  exact ⟨⟨hres, hcmp, by rw [e]; exact payloads_of j, rfl, fun _ => ⟨by rw [hl, i.mem], fun x h1 _ _ => hb x h1⟩⟩, j⟩

/-- The memory is changed by the program. -/
theorem iv_foreign (i : Iv K w a) {w' : AMem} (hk : Ok w') (h : ∀ t o, a.tab t = some o → ∀ b ∈ blocks t o, InReg w' b.1 b.2 ∧
    ∀ x, b.1 ≤ x → x < b.1 + b.2 → w'.byte x = w.byte x) : Iv K w' ⟨w', a.tab⟩ := by
  have hns : nodNext + ptrSize ≤ nodeSize ∧ nodPrev + ptrSize ≤ nodeSize ∧ nodData + ptrSize ≤ nodeSize ∧ nodIndex + ptrSize ≤ nodeSize := by
    refine ⟨?_, ?_, ?_, ?_⟩ <;> archd
  have hts : treeSize = 3 * ptrSize := rfl
  have h0 := ptr_pos
  have same : ∀ {t o}, a.tab t = some o → ∀ b ∈ blocks t o, ∀ x, b.1 ≤ x → x + ptrSize ≤ b.1 + b.2 → rd w' x = rd w x := by
    intro t o ht b hb x h1 h2
    exact rdN_congr fun y h3 h4 => (h t o ht b hb).2 y (by omega) (by omega)
  exact
    { mem := rfl
      ok := hk
      tree := fun t o ht => by
        obtain ⟨T, k⟩ := i.tree t o ht
        refine ⟨T, ?_⟩
        have b0 : (t, treeSize) ∈ blocks t o := mem_blocks.2 (.inl rfl)
        have : treeAt w' t o.cmp = treeAt w t o.cmp := by
          unfold treeAt
          rw [same ht _ b0 t (by simp only; omega) (by simp only; omega), same ht _ b0 (t + 2 * ptrSize) (by simp only; omega) (by simp only; omega)]
        rw [this]
        refine k.congr fun x hx => ?_
        have bx : (x, nodeSize) ∈ blocks t o := mem_blocks.2 (.inr ⟨x, nodes_iff.2 hx, rfl⟩)
        refine ⟨rfl, ?_, ?_, ?_, ?_⟩ <;> exact same ht _ bx _ (by simp only; omega) (by simp only; omega)
      cmp := fun t o ht => by
        have b0 : (t, treeSize) ∈ blocks t o := mem_blocks.2 (.inl rfl)
        rw [same ht _ b0 (t + ptrSize) (by simp only; omega) (by simp only; omega)]
        exact i.cmp t o ht
      lay := fun t o ht => by
        have l := i.lay t o ht
        exact { l with
          sreg := (h t o ht _ (mem_blocks.2 (.inl rfl))).1
          reg := fun q hq => (h t o ht _ (mem_blocks.2 (.inr ⟨q, hq, rfl⟩))).1 } }

/-- A tree is not used any more. -/
theorem iv_drop (i : Iv K w a) (t : Nat) : Iv K w ⟨w, upd a.tab t none⟩ := by
  have sub : ∀ {t' o'}, upd a.tab t none t' = some o' → a.tab t' = some o' := by
    intro t' o' h
    by_cases e : t' = t
    · subst e; rw [upd_same] at h; cases h
    · rwa [upd_ne e] at h
  exact
    { mem := rfl
      ok := i.ok
      tree := fun t' o' h => i.tree t' o' (sub h)
      cmp := fun t' o' h => i.cmp t' o' (sub h)
      lay := fun t' o' h => { i.lay t' o' (sub h) with
        soth := fun t2 o2 hne h2 => (i.lay t' o' (sub h)).soth t2 o2 hne (sub h2)
        oth := fun q hq t2 o2 hne h2 => (i.lay t' o' (sub h)).oth q hq t2 o2 hne (sub h2) } }

theorem init_run (i : Iv K w a) {t c : Nat} (ht : a.Avail t treeSize) (tp : ListSpec.TotalPreorder (K c)) (hi : IsInt (K c)) (hc : c < 2 ^ sizeBit) :
    ∃ v w', call K "tommy_tree_init" [pTree t, pFunc c] [] w = some (⟨v, [], w'⟩, w') ∧ Iv K w' ⟨w', upd a.tab t (some ⟨K c, []⟩)⟩ ∧
      w'.live = w.live ∧ ∀ x, Free w t (fun _ => false) x → w'.byte x = w.byte x := by
  have l : Lay w a.tab t (fun _ => false) :=
    { sreg := by rw [← i.mem]; exact ht.1
      soth := fun t' o' _ h b hb => ht.apart tree_pos h hb
      reg := nofun
      node := nofun
      str := nofun
      oth := nofun }
  have h0 := ptr_pos
  obtain ⟨v, W', G', h1, h2, rfl⟩ := sim_init (ext K) (G := gh w t (fun _ => false) []) (cmp := K c)
    (by simp only [gh]; rw [flds_str (.inl rfl)]; nofun) (by simp only [gh]; rw [flds_str (.inr (.inl rfl))]; nofun)
    (by simp only [gh]; rw [flds_str (.inr (.inr rfl))]; nofun) hc _ _ (grel_start i.ok l rfl _) _ _ rfl
  have A : After w t c (fun _ => false) (treeInit (K c))
      { gh w t (fun _ => false) [] with F := setTree ((flds w t fun _ => false).set (t + ptrSize) ptrSize c) t (treeInit (K c)) } :=
    { live := rfl
      log := rfl
      str := by
        constructor
        · simp only
          rw [setTree, Fld.set_ne (.inl (by omega)), Fld.set_same]
        · simp only
          rw [setTree, Fld.set_ne (.inl (by omega)), Fld.set_ne (.inl (by omega)), Fld.set_same]
        · simp only
          rw [setTree, Fld.set_same]
      free := fun x hx => by
        simp only
        rw [setTree_free, Fld.set_ne (.inr ptr_ne_one.symm), flds_free hx] }
  have k : TreeOk (heapAt w fun _ => false) (treeInit (K c)) ⟨K c, []⟩ .nil :=
    ⟨tp, rfl, rfl, trivial, List.Perm.refl _, List.nodup_nil, nofun, List.Pairwise.nil, rfl⟩
  obtain ⟨g1, g2, g3, g4⟩ := post i l h2 A (o' := ⟨K c, []⟩) k rfl hi (by intro p hp; cases hp)
  refine ⟨v.v, W'.mem, ?_, g1, g3, g4⟩
  unfold call
  rw [show [pTree t, pFunc c] = [⟨tTree, t⟩, ⟨.ptr .fn, c⟩] from rfl, h1, Option.map_some, g2]

theorem init_iv (s : AMem) (a : Ab) (h : (sys K).init s a) : Iv K s a where
  mem := h.1
  ok := h.2.1
  tree t o ht := by rw [h.2.2 t] at ht; cases ht
  cmp t o ht := by rw [h.2.2 t] at ht; cases ht
  lay t o ht := by rw [h.2.2 t] at ht; cases ht

theorem step_iv (w : AMem) (a : Ab) (op : Op) (i : Iv K w a) (hleg : legal K a op) :
    ∃ out w', step K op w = some (out, w') ∧ allowed K a op out ∧ Iv K w' (next K a op out) := by
  cases op with
  | init t c =>
    obtain ⟨ht, tp, hi, hc⟩ := hleg
    obtain ⟨v, w', h1, h2, h3, h4⟩ := init_run i ht tp hi hc
    refine ⟨_, w', h1, ⟨trivial, trivial, payloads_of h2, rfl, fun _ => ⟨by rw [h3, i.mem], fun x g1 _ g3 => ?_⟩⟩, h2⟩
    rw [i.mem] at g1 ⊢
    refine h4 x ⟨g1, ?_, nofun⟩
    have : ¬ (t ≤ x ∧ x < t + treeSize) := g3
    unfold Apart; simp only; omega
  | insert t p d s ct =>
    obtain ⟨ht, hp, hd, st⟩ := hleg
    obtain ⟨o, ho⟩ := tab_some ht
    have l := lay_add i ho hp
    have hc := i.cmp t o ho
    have hpl : p < 2 ^ sizeBit := by
      obtain ⟨b, n, h1, h2, h3⟩ := hp.1
      rw [i.mem] at h1
      have := i.ok.pos b n h1
      have := node_pos
      omega
    have hps : nodes o p ≠ true := fun hn => by
      have := hp.apart node_pos ho (mem_blocks.2 (.inr ⟨p, hn, rfl⟩))
      have := node_pos
      unfold Apart at *; simp only at *; omega
    obtain ⟨r, w', h1, h2, h3, h4, h5⟩ := mutate' i ho l (fun q hq => by simp [hq]) st (top := .insert 0 p d)
      (o' := after o (.insert t p d s ct))
      ⟨rfl, by simp [tab1], by
        rintro ⟨v, o', hv, hm⟩
        simp only [tab1] at hv
        split at hv <;> cases hv
        exact hps (nodes_iff.2 hm)⟩ rfl
      (sim_insert (ext K) (isCmp K hc.1 hc.2) (treeF o) hpl hd rfl st.byte (stack_fresh st i.mem) (stack_fresh st i.mem).none (stack_apart st i.mem l.sreg))
      (fun out => ⟨by simp [TreeSpec.next, TreeSpec.Ab.onSet, tab1, after], rfl⟩) rfl
    refine ⟨_, w', h1, close (op := .insert t p d s ct) i ho l rfl (fun h => h) ?_ ?_ trivial ?_ h3 h4 h5⟩
    · intro q hq
      simp only [Bool.or_eq_true, decide_eq_true_eq] at hq
      rcases hq with hq | rfl
      · exact .inl hq
      · exact .inr fun x h1 h2 => ⟨h1, h2⟩
    · intro o' ho'
      rw [ho] at ho'; cases ho'
      have := h2 o (by simp [tab1])
      injection this
    · intro out
      simp only [next, ho, Option.map_some]
  | remove t d s ct =>
    obtain ⟨ht, st⟩ := hleg
    obtain ⟨o, ho⟩ := tab_some ht
    have l := i.lay t o ho
    have hc := i.cmp t o ho
    obtain ⟨r, w', h1, h2, h3, h4, h5⟩ := mutate' i ho l (fun q hq => hq) st (top := .remove 0 d)
      (o' := after o (.remove t d s ct)) rfl rfl
      (sim_remove (ext K) (isCmp K hc.1 hc.2) (treeF o) rfl st.byte (stack_fresh st i.mem) (stack_fresh st i.mem).none (stack_apart st i.mem l.sreg))
      (fun out => ⟨by simp [TreeSpec.next, TreeSpec.Ab.onSet, tab1, after], rfl⟩) rfl
    refine ⟨_, w', h1, close (op := .remove t d s ct) i ho l rfl (fun h => h) (fun q hq => .inl hq) ?_ trivial ?_ h3 h4 h5⟩
    · intro o' ho'
      rw [ho] at ho'; cases ho'
      have := h2 o (by simp [tab1])
      injection this
    · intro out
      simp only [next, ho, Option.map_some]
  | removeExisting t p s ct =>
    obtain ⟨⟨o, e, ho, he, hp, h0⟩, st⟩ := hleg
    have l := i.lay t o ho
    have hc := i.cmp t o ho
    obtain ⟨r, w', h1, h2, h3, h4, h5⟩ := mutate' i ho l (fun q hq => hq) st (top := .removeExisting 0 p)
      (o' := after o (.removeExisting t p s ct)) ⟨o, e, rfl, he, hp, h0⟩ rfl
      (sim_removeExisting (ext K) (isCmp K hc.1 hc.2) (treeF o) rfl st.byte (stack_fresh st i.mem) (stack_fresh st i.mem).none (stack_apart st i.mem l.sreg))
      (fun out => ⟨by simp [TreeSpec.next, TreeSpec.Ab.onSet, tab1, after], rfl⟩) rfl
    refine ⟨_, w', h1, close (op := .removeExisting t p s ct) i ho l rfl (fun h => h) (fun q hq => .inl hq) ?_ trivial ?_ h3 h4 h5⟩
    · intro o' ho'
      rw [ho] at ho'; cases ho'
      obtain ⟨e, h1, h2, h3⟩ := h2 o (by simp [tab1])
      injection h3 with h3
      exact ⟨e, h1, h2, h3⟩
    · intro out
      simp only [next, ho, Option.map_some]
  | search t d =>
    obtain ⟨o, ho⟩ := tab_some hleg
    have hc := i.cmp t o ho
    have j := typed i ho (i.lay t o ho) fun _ h => h
    obtain ⟨v, w', rfl, h2, h3, h4, h5⟩ := reads i ho (onNodes_run (TreeSpec.search_run j (v := 0) rfl d) (memAt w (nodes o)) rfl)
      (sim_search (ext K) (isCmp K hc.1 hc.2) (treeF o))
    refine ⟨_, w', h2, close_read (op := .search t d) i (fun h => h) ?_ trivial (fun _ => rfl) h3 h4 h5⟩
    intro o' ho'
    rw [ho] at ho'; cases ho'; rfl
  | searchCompare t c arg =>
    obtain ⟨o, ho, hm, hi⟩ := hleg
    have j := typed i ho (i.lay t o ho) fun _ h => h
    obtain ⟨r, e, hr⟩ := TreeSpec.searchCompare_run j (v := 0) rfl (K c) arg hm
    obtain ⟨v, w', rfl, h2, h3, h4, h5⟩ := reads i ho (onNodes_run e (memAt w (nodes o)) rfl)
      (sim_searchCompare (ext K) (isCmp K rfl hi) (treeF o))
    refine ⟨_, w', h2, close_read (op := .searchCompare t c arg) i (fun h => h) trivial ?_ (fun _ => rfl) h3 h4 h5⟩
    intro o' ho'
    rw [ho] at ho'; cases ho'; exact hr
  | count t =>
    obtain ⟨o, ho⟩ := tab_some hleg
    obtain ⟨T, k⟩ := i.tree t o ho
    obtain ⟨v, w', rfl, h2, h3, h4, h5⟩ := reads i ho rfl (sim_count (ext K) (treeF o))
    refine ⟨_, w', h2, close_read (op := .count t) i (fun h => h) ?_ trivial (fun _ => rfl) h3 h4 h5⟩
    intro o' ho'
    rw [ho] at ho'; cases ho'; exact k.count
  | usage t =>
    obtain ⟨o, ho⟩ := tab_some hleg
    have j := typed i ho (i.lay t o ho) fun _ h => h
    obtain ⟨v, w', rfl, h2, h3, h4, h5⟩ := reads i ho rfl (sim_usage (ext K) (treeF o))
    obtain ⟨out, s', e, al, _⟩ := TreeSpec.step_inv _ _ (.memoryUsage 0) j rfl
    cases e
    refine ⟨_, w', h2, close_read (op := .usage t) i (fun h => h) ?_ trivial (fun _ => rfl) h3 h4 h5⟩
    intro o' ho'
    rw [ho] at ho'; cases ho'
    have := al o rfl
    injection this
  | drop t =>
    have j := iv_drop i t
    exact ⟨_, w, rfl, ⟨trivial, trivial, payloads_of j, rfl, fun _ => ⟨by rw [i.mem], fun x _ _ _ => by rw [i.mem]⟩⟩, j⟩
  | foreign w' =>
    obtain ⟨hk, h⟩ := hleg
    rw [i.mem] at h
    have j := iv_foreign i hk h
    exact ⟨_, w', rfl, ⟨trivial, trivial, payloads_of j, rfl, fun h => absurd trivial h⟩, j⟩

end Tommy.CTreeSpec
