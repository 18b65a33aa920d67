import Verif.Proof.TrieRemove
/-! The functions of the trie on a whole trie. -/
set_option linter.unusedSimpArgs false
set_option linter.unusedVariables false
namespace Tommy

variable [Arch]
namespace TrieSpec
open HashSpec (Elem ERep SameNode walkLoop)

variable {c : TrieCfg}

/-! ### The numbers of the configuration -/

theorem CfgOk.bit_le (hc : CfgOk c) : c.treeBit ≤ c.bit := by
  have := hc.low
  rw [hc.max] at this
  exact (Nat.pow_le_pow_iff_right (by decide)).1 this

theorem CfgOk.levels_pos (hc : CfgOk c) : 1 ≤ levels c :=
  (Nat.one_le_div_iff hc.bit_pos.1).2 hc.bit_le

theorem CfgOk.split (hc : CfgOk c) : c.treeBit * levels c + c.bit % c.treeBit = c.bit :=
  Nat.div_add_mod c.bit c.treeBit

theorem CfgOk.shift_eq (hc : CfgOk c) : c.bucketShift = c.treeBit * (levels c - 1) := by
  have h1 := hc.split
  have h2 := hc.levels_pos
  unfold TrieCfg.bucketShift TrieCfg.bucketBit
  rw [Nat.mul_sub, Nat.mul_one]
  omega

theorem CfgOk.bits (hc : CfgOk c) : c.bucketShift + c.bucketBit = c.bit := by
  have h1 := hc.split
  have h2 := hc.levels_pos
  have h3 : c.treeBit * 1 ≤ c.treeBit * levels c := Nat.mul_le_mul_left _ h2
  unfold TrieCfg.bucketShift TrieCfg.bucketBit
  omega

theorem CfgOk.level_max (hc : CfgOk c) : c.levelMax + 1 = levels c := by
  have h2 := hc.levels_pos
  have : c.levelMax = c.bucketShift / c.treeBit := rfl
  rw [this, hc.shift_eq, Nat.mul_div_cancel_left _ hc.bit_pos.1]
  omega

theorem CfgOk.small (hc : CfgOk c) : c.treeBit * levels c ≤ sizeBit := by
  have h1 := hc.split
  have := hc.high
  omega

theorem CfgOk.shift_lt (hc : CfgOk c) : c.bucketShift < sizeBit := by
  have h1 := hc.bits
  have h2 := hc.high
  have h3 := hc.bit_pos
  have h4 : c.bucketBit = c.bit % c.treeBit + c.treeBit := rfl
  omega

theorem CfgOk.key_lt (hc : CfgOk c) (k : Nat) : k >>> c.bucketShift < c.bucketMax ↔ k < 2 ^ c.bit := by
  unfold TrieCfg.bucketMax
  rw [Nat.one_shiftLeft, Nat.shiftRight_eq_div_pow, Nat.div_lt_iff_lt_mul (Nat.two_pow_pos _), ← Nat.pow_add,
    Nat.add_comm, hc.bits]

theorem CfgOk.top (hc : CfgOk c) (k : Nat) :
    k >>> (c.treeBit * levels c) = (k >>> c.bucketShift) / c.treeMax := by
  have h2 := hc.levels_pos
  have e : c.treeBit * levels c = c.bucketShift + c.treeBit := by
    rw [hc.shift_eq, ← Nat.mul_succ]; congr 1; omega
  rw [e, Nat.shiftRight_add, hc.max, ← Nat.shiftRight_eq_div_pow]

/-! ### The invariant of a trie -/

/-- `m'` differs from `m` only in the nodes `N` and in the objects `B`. -/
structure Fr (m m' : TMem) (N B : Ptr → Prop) : Prop where
  node : ∀ q, ¬ N q → SameNode m.heap m'.heap q
  valid : m'.heap.valid = m.heap.valid
  obj : ∀ b, ¬ B b → m'.csize b = m.csize b ∧ ∀ i, m'.cell b i = m.cell b i

omit [Arch] in
theorem Fr.refl (m : TMem) (N B) : Fr m m N B :=
  ⟨fun q _ => HashSpec.SameNode.refl _ q, rfl, fun _ _ => ⟨rfl, fun _ => rfl⟩⟩

omit [Arch] in
theorem Fr.trans {m m' m'' : TMem} {N B : Ptr → Prop} (f : Fr m m' N B) (g : Fr m' m'' N B) : Fr m m'' N B :=
  ⟨fun q h => (f.node q h).trans (g.node q h), g.valid.trans f.valid,
    fun b h => ⟨(g.obj b h).1.trans (f.obj b h).1, fun i => ((g.obj b h).2 i).trans ((f.obj b h).2 i)⟩⟩

omit [Arch] in
theorem Fr.mono {m m' : TMem} {N N' B B' : Ptr → Prop} (f : Fr m m' N B) (hN : ∀ q, N q → N' q)
    (hB : ∀ q, B q → B' q) : Fr m m' N' B' :=
  ⟨fun q h => f.node q fun x => h (hN q x), f.valid, fun b h => f.obj b fun x => h (hB b x)⟩

omit [Arch] in
theorem _root_.Tommy.TFr.fr {m m' : TMem} {N B : Ptr → Prop} {l : Loc} (f : TFr m m' N B l) :
    Fr m m' N (fun b => B b ∨ b = l.base) :=
  ⟨f.node, f.valid, fun b h => ⟨f.size b fun x => h (Or.inl x),
    fun i => f.cell b i (fun x => h (Or.inl x)) fun x => h (Or.inr x.1)⟩⟩

/-- The buckets `ch` of the trie at `base` contain the elements `es`, using the blocks `bl`. -/
structure TopOk (c : TrieCfg) (m : TMem) (base : Ptr) (ch : Nat → TT) (es : List Elem) (bl : List Ptr) : Prop where
  size : m.csize base = c.bucketMax
  kids : ∀ i, i < c.bucketMax → TRep c m (ch i) (levels c) (i / c.treeMax) (m.cell base i)
  top : ∀ i, i < c.bucketMax → ∀ e ∈ (ch i).elems c.treeMax, e.hash >>> c.bucketShift = i
  order : ∀ k, k < 2 ^ c.bit → ((ch (k >>> c.bucketShift)).elems c.treeMax).filter (fun e => e.hash = k) =
    es.filter (fun e => e.hash = k)
  nodup : (es.map Elem.node).Nodup
  keys : ∀ e ∈ es, e.hash < 2 ^ c.bit
  blocks : ((List.range c.bucketMax).flatMap fun i => (ch i).blocks c.treeMax).Perm bl
  bnodup : bl.Nodup
  base : base ∉ bl

/-- The trie `t` contains the elements `es` and uses the blocks `bl`. -/
structure TrieOk (c : TrieCfg) (m : TMem) (t : Trie) (es : List Elem) (bl : List Ptr) : Prop where
  top : ∃ ch, TopOk c m t.base ch es bl
  count : t.count = es.length
  ncount : t.nodeCount = bl.length
  bpos : ∀ b ∈ bl, b ≠ 0 ∧ b < 2 ^ sizeBit

variable {m m' : TMem} {base : Ptr} {ch : Nat → TT} {es : List Elem} {bl : List Ptr}

theorem TopOk.perm (hc : CfgOk c) (h : TopOk c m base ch es bl) :
    ((List.range c.bucketMax).flatMap fun i => (ch i).elems c.treeMax).Perm es := by
  refine perm_of_filter fun k => ?_
  by_cases hk : k < 2 ^ c.bit
  · rw [← h.order k hk]
    refine filter_flatMap_one (fun e : Elem => decide (e.hash = k)) (fun i => (ch i).elems c.treeMax)
      ((hc.key_lt k).2 hk) fun j hj hne => ?_
    rw [List.filter_eq_nil_iff]
    intro e he hek
    simp only [decide_eq_true_eq] at hek
    exact hne (by rw [← h.top j hj e he, hek])
  · have : es.filter (fun e => e.hash = k) = [] := by
      rw [List.filter_eq_nil_iff]
      intro e he hek
      simp only [decide_eq_true_eq] at hek
      exact hk (hek ▸ h.keys e he)
    rw [this, List.filter_eq_nil_iff]
    intro e he hek
    simp only [decide_eq_true_eq] at hek
    obtain ⟨i, hi, he⟩ := List.mem_flatMap.1 he
    have hi := List.mem_range.1 hi
    exact hk ((hc.key_lt k).1 (by rw [← hek, h.top i hi e he]; exact hi))

theorem TopOk.mem (hc : CfgOk c) (h : TopOk c m base ch es bl) {i : Nat} (hi : i < c.bucketMax) {e : Elem}
    (he : e ∈ (ch i).elems c.treeMax) : e ∈ es :=
  (h.perm hc).mem_iff.1 (List.mem_flatMap.2 ⟨i, List.mem_range.2 hi, he⟩)

theorem TopOk.mem_iff (hc : CfgOk c) (h : TopOk c m base ch es bl) {e : Elem} (he : e ∈ es) :
    e ∈ (ch (e.hash >>> c.bucketShift)).elems c.treeMax := by
  have : e ∈ es.filter (fun x => x.hash = e.hash) := List.mem_filter.2 ⟨he, by simp⟩
  rw [← h.order _ (h.keys e he)] at this
  exact (List.mem_filter.1 this).1

omit [Arch] in
theorem TopOk.bmem (h : TopOk c m base ch es bl) {i : Nat} (hi : i < c.bucketMax) {b : Ptr}
    (hb : b ∈ (ch i).blocks c.treeMax) : b ∈ bl :=
  h.blocks.mem_iff.1 (List.mem_flatMap.2 ⟨i, List.mem_range.2 hi, hb⟩)

theorem TopOk.all_nodup (hc : CfgOk c) (h : TopOk c m base ch es bl) :
    ((List.range c.bucketMax).flatMap fun i => ((ch i).elems c.treeMax).map Elem.node).Nodup := by
  rw [← List.map_flatMap]
  exact ((h.perm hc).map Elem.node).nodup_iff.2 h.nodup

omit [Arch] in
theorem TopOk.all_bnodup (h : TopOk c m base ch es bl) :
    ((List.range c.bucketMax).flatMap fun i => (ch i).blocks c.treeMax).Nodup :=
  h.blocks.nodup_iff.2 h.bnodup

theorem TopOk.ok (hc : CfgOk c) (h : TopOk c m base ch es bl) {e : Elem} (he : e ∈ es) :
    m.heap.ok e.node ∧ m.heap.data e.node = e.data ∧ m.heap.index e.node = e.hash ∧ e.node % 2 = 0 :=
  (h.kids _ ((hc.key_lt _).2 (h.keys e he))).ok e (h.mem_iff hc he)

theorem TopOk.congr (hc : CfgOk c) (h : TopOk c m base ch es bl) {N B : Ptr → Prop} (f : Fr m m' N B)
    (hN : ∀ e ∈ es, ¬ N e.node) (hB : ∀ b, (b = base ∨ b ∈ bl) → ¬ B b) : TopOk c m' base ch es bl :=
  { h with
    size := by rw [(f.obj base (hB _ (Or.inl rfl))).1, h.size]
    kids := fun i hi => by
      rw [(f.obj base (hB _ (Or.inl rfl))).2 i]
      refine (h.kids i hi).congr (fun e he => f.node _ (hN e (h.mem hc hi he))) fun b hb => ?_
      have := f.obj b (hB b (Or.inr (h.bmem hi hb)))
      exact ⟨this.1, fun i _ => this.2 i⟩ }

theorem TrieOk.congr (hc : CfgOk c) {t : Trie} (h : TrieOk c m t es bl) {N B : Ptr → Prop} (f : Fr m m' N B)
    (hN : ∀ e ∈ es, ¬ N e.node) (hB : ∀ b, (b = t.base ∨ b ∈ bl) → ¬ B b) : TrieOk c m' t es bl := by
  obtain ⟨ch, ht⟩ := h.top
  exact ⟨⟨ch, ht.congr hc f hN hB⟩, h.count, h.ncount, h.bpos⟩

/-- The buckets not concerned by a change. -/
theorem TopOk.others (hc : CfgOk c) (h : TopOk c m base ch es bl) {i : Nat} (hi : i < c.bucketMax) {N B : Ptr → Prop}
    (fr : TFr m m' N B ⟨base, i⟩)
    (hN : ∀ q, N q → q ∈ ((ch i).elems c.treeMax).map Elem.node ∨ q ∉ es.map Elem.node)
    (hB : ∀ d, B d → d ∈ (ch i).blocks c.treeMax ∨ (d ∉ bl ∧ d ≠ base)) {t : TT}
    (ht : TRep c m' t (levels c) (i / c.treeMax) (m'.cell base i)) :
    m'.csize base = c.bucketMax ∧
    ∀ j, j < c.bucketMax → TRep c m' (upd ch i t j) (levels c) (j / c.treeMax) (m'.cell base j) := by
  have nb : ¬ B base := by
    intro hb
    rcases hB _ hb with h1 | h1
    · exact h.base (h.bmem hi h1)
    · exact h1.2 rfl
  refine ⟨(fr.size base nb).trans h.size, fun j hj => ?_⟩
  by_cases hji : j = i
  · subst hji; rw [upd_same]; exact ht
  · rw [upd_ne hji, fr.cell base j nb (by simp [hji])]
    have hij : i ≠ j := fun h => hji h.symm
    refine (h.kids j hj).congr (fun e he => fr.node _ fun hq => ?_) fun d hd => ?_
    · rcases hN _ hq with h1 | h1
      · exact flatMap_disj (h.all_nodup hc) hi hj hij h1 (List.mem_map_of_mem he)
      · exact h1 (List.mem_map_of_mem (h.mem hc hj he))
    · have hdb : ¬ B d := by
        intro hb
        rcases hB _ hb with h1 | h1
        · exact flatMap_disj h.all_bnodup hi hj hij h1 hd
        · exact h1.1 (h.bmem hj hd)
      have hne : d ≠ base := fun e => h.base (e ▸ h.bmem hj hd)
      exact ⟨fr.size d hdb, fun a _ => fr.cell d a hdb (by simp [hne])⟩

/-! ### The functions -/

theorem length_lt_of_nodup {l : List Nat} (hn : l.Nodup) (hb : ∀ b ∈ l, b ≠ 0 ∧ b < 2 ^ sizeBit) : l.length < 2 ^ sizeBit := by
  have h0 : 0 ∉ l := fun h => (hb 0 h).1 rfl
  have hs : (0 :: l).Subperm (List.range (2 ^ sizeBit)) := by
    refine List.subperm_of_subset (List.nodup_cons.2 ⟨h0, hn⟩) fun x hx => ?_
    rw [List.mem_range]
    rcases List.mem_cons.1 hx with rfl | hx
    · exact Nat.two_pow_pos _
    · exact (hb x hx).2
  have := hs.length_le
  rw [List.length_range, List.length_cons] at this
  omega

theorem trieInit_spec (c : TrieCfg) {t : Trie} (h : m.csize t.base = c.bucketMax) :
    ∃ t' m', trieInit c t m = some (t', m') ∧ t'.base = t.base ∧ TrieOk c m' t' [] [] ∧ m'.supply = m.supply ∧
      m'.freed = m.freed ∧ Fr m m' (fun _ => False) (fun b => b = t.base) := by
  have hcl := clearCells_run (b := t.base) c.bucketMax 0 m (by rw [h]; omega)
  refine ⟨{ t with count := 0, nodeCount := 0 },
    { m with cell := upd m.cell t.base fun j => if 0 ≤ j ∧ j < 0 + c.bucketMax then 0 else m.cell t.base j },
    by simp only [trieInit, run_bind, hcl, Option.bind_some]; rfl,
    rfl, ⟨⟨fun _ => .nil, h, ?_, ?_, ?_, by simp, by simp, ?_, by simp, by simp⟩, rfl, rfl, by simp⟩, rfl, rfl, ?_⟩
  · intro i hi
    show TRep c _ .nil (levels c) (i / c.treeMax) (upd m.cell t.base _ t.base i)
    rw [upd_same, if_pos (by omega)]
    simp only [TRep]
  · intro i _ e he; simp [TT.elems] at he
  · intro k _; rfl
  · rw [List.flatMap_eq_nil_iff.2]
    intro i _; rfl
  · refine ⟨fun q _ => HashSpec.SameNode.refl _ q, rfl, fun b hb => ⟨rfl, fun i => ?_⟩⟩
    show upd m.cell t.base _ b i = _
    rw [upd_ne hb]

theorem trieInsert_spec (hc : CfgOk c) {t : Trie} (h : TrieOk c m t es bl) {x : Elem} (ok : m.heap.ok x.node)
    (ev : x.node % 2 = 0) (fresh : x.node ∉ es.map Elem.node) (key : x.hash < 2 ^ c.bit)
    (hlen : es.length + 1 < 2 ^ sizeBit)
    (sl : levels c ≤ m.supply.length) (snd : m.supply.Nodup)
    (sf : ∀ b ∈ m.supply, b ∉ bl ∧ b ≠ t.base ∧ b % 2 = 0 ∧ b ≠ 0 ∧ b < 2 ^ sizeBit) :
    ∃ t' m' new, trieInsert c t x.node x.data x.hash m = some (t', m') ∧ t'.base = t.base ∧
      TrieOk c m' t' (es ++ [x]) (bl ++ new) ∧ m.supply = new ++ m'.supply ∧ m'.freed = m.freed ∧
      new.length ≤ levels c ∧
      Fr m m' (fun q => q = x.node ∨ ∃ e ∈ es, e.hash = x.hash ∧ e.node = q)
        (fun b => b ∈ bl ∨ b ∈ new ∨ b = t.base) := by
  obtain ⟨ch, T⟩ := h.top
  have hb := (hc.key_lt x.hash).2 key
  let m1 : TMem := { m with heap := { m.heap with
    data := upd m.heap.data x.node x.data, index := upd m.heap.index x.node x.hash } }
  have f1 : Fr m m1 (fun q => q = x.node) (fun _ => False) :=
    ⟨fun q hq => ⟨fun h => h, rfl, rfl, upd_ne hq, upd_ne hq⟩, rfl, fun _ _ => ⟨rfl, fun _ => rfl⟩⟩
  have T1 : TopOk c m1 t.base ch es bl := T.congr hc f1
    (fun e he hx => fresh (hx ▸ List.mem_map_of_mem he)) (fun _ _ h => h)
  have kid := T1.kids _ hb
  have sub : ∀ e ∈ (ch (x.hash >>> c.bucketShift)).elems c.treeMax, e ∈ es := fun e he => T1.mem hc hb he
  have ip : InsPre c m1 ⟨t.base, x.hash >>> c.bucketShift⟩ (levels c) (x.hash >>> c.bucketShift / c.treeMax)
      c.bucketShift (ch (x.hash >>> c.bucketShift)) x := by
    refine ⟨ok, upd_same _ _ _, upd_same _ _ _, ev, fun hx => fresh ?_, flatMap_nodup (T1.all_nodup hc) hb,
      flatMap_nodup T1.all_bnodup hb, fun hx => T1.base (T1.bmem hb hx), ?_, ?_, ?_, hc.small, sl, snd, ?_⟩
    · obtain ⟨e, he, hx⟩ := List.mem_map.1 hx
      exact hx ▸ List.mem_map_of_mem (sub e he)
    · show _ < m.csize t.base
      rw [T.size]; exact hb
    · exact hc.top _
    · intro n' hn'; rw [hc.shift_eq, hn']; rfl
    · intro b hbs
      have := sf b hbs
      exact ⟨fun hx => this.1 (T1.bmem hb hx), this.2.1, this.2.2.1⟩
  have hnc : t.nodeCount + levels c < 2 ^ sizeBit := by
    rw [h.ncount]
    have := length_lt_of_nodup (l := bl ++ m.supply.take (levels c))
      (by
        rw [List.nodup_append]
        refine ⟨T.bnodup, snd.sublist (List.take_sublist _ _), ?_⟩
        intro a ha b hb hab
        subst hab
        exact (sf a (List.mem_of_mem_take hb)).1 ha)
      (by
        intro b hb
        rcases List.mem_append.1 hb with hb | hb
        · exact h.bpos b hb
        · exact (sf b (List.mem_of_mem_take hb)).2.2.2)
    rw [List.length_append, List.length_take, Nat.min_eq_left sl] at this
    exact this
  obtain ⟨m', t', new, e1, R⟩ := insert_run hc _ _ m1 ⟨t.base, x.hash >>> c.bucketShift⟩ _ _ t.nodeCount kid ip hnc
  have newf : ∀ b ∈ new, b ∈ m.supply := by
    intro b hb
    have : b ∈ m1.supply := by rw [R.supply]; simp [hb]
    exact this
  have oth := T1.others hc hb R.fr
    (by
      rintro q (rfl | ⟨e, he, _, rfl⟩)
      · exact Or.inr fresh
      · exact Or.inl (List.mem_map_of_mem he))
    (by
      rintro d (hd | hd)
      · exact Or.inl hd
      · exact Or.inr ⟨(sf d (newf d hd)).1, (sf d (newf d hd)).2.1⟩) R.rep
  have perm1 := perm_of_filter R.elems
  refine ⟨{ t with count := sizeT (t.count + 1), nodeCount := t.nodeCount + new.length }, m', new, ?_, rfl, ⟨⟨upd ch (x.hash >>> c.bucketShift) t', oth.1, oth.2, ?_, ?_, ?_, ?_, ?_, ?_, ?_⟩, ?_, ?_, ?_⟩,
    R.supply, R.freed, R.len, ?_⟩
  · simp only [trieInsert, run_bind, shrKey_run _ hc.shift_lt, Option.bind_some, assertT_run hb,
      onN_run (setData_run (v := x.data) ok)]
    rw [onN_run (m := { m with heap := _ }) (setIndex_run (v := x.hash) (h := { m.heap with data := upd m.heap.data x.node x.data }) ok)]
    simp only [Option.bind_some]
    rw [show ({ m with heap := { m.heap with data := upd m.heap.data x.node x.data, index := upd m.heap.index x.node x.hash } } : TMem) = m1 from rfl, e1]
    rfl
  · intro i hi e he
    by_cases hix : i = x.hash >>> c.bucketShift
    · subst hix
      rw [upd_same] at he
      rcases List.mem_append.1 (perm1.mem_iff.1 he) with he | he
      · exact T1.top _ hi e he
      · simp at he; rw [he]
    · rw [upd_ne hix] at he; exact T1.top i hi e he
  · intro k hk
    by_cases hkx : k >>> c.bucketShift = x.hash >>> c.bucketShift
    · rw [hkx, upd_same, R.elems, List.filter_append, List.filter_append, ← hkx, T1.order k hk]
    · rw [upd_ne hkx, T1.order k hk, List.filter_append]
      have : [x].filter (fun e => e.hash = k) = [] := by
        rw [List.filter_eq_nil_iff]
        intro f hf
        simp only [List.mem_singleton] at hf
        simp only [decide_eq_true_eq]
        rintro rfl
        exact hkx (by rw [hf])
      rw [this, List.append_nil]
  · rw [List.map_append, List.nodup_append]
    refine ⟨T.nodup, by simp, ?_⟩
    intro a ha b hb hab
    simp at hb
    exact fresh (hb ▸ hab ▸ ha)
  · intro e he
    rcases List.mem_append.1 he with he | he
    · exact T.keys e he
    · simp at he; rw [he]; exact key
  · obtain ⟨A, B, eb⟩ := filter_flatMap_upd (TT.blocks c.treeMax) ch hb
    have e0 := eb (ch (x.hash >>> c.bucketShift))
    rw [upd_self] at e0
    rw [eb t']
    refine ((R.blocks.append_left A).append_right B).trans ?_
    have := T1.blocks.append_right new
    rw [e0] at this
    refine List.Perm.trans ?_ this
    simp only [List.append_assoc]
    exact (List.perm_append_comm.append_left _).append_left _
  · rw [List.nodup_append]
    have hnn : new.Nodup := by
      have := snd
      rw [show m.supply = new ++ m'.supply from R.supply] at this
      exact (List.nodup_append.1 this).1
    refine ⟨T.bnodup, hnn, ?_⟩
    intro a ha b hb hab
    exact (sf b (newf b hb)).1 (hab ▸ ha)
  · intro hx
    rcases List.mem_append.1 hx with hx | hx
    · exact T.base hx
    · exact (sf _ (newf _ hx)).2.1 rfl
  · show sizeT (t.count + 1) = _
    rw [h.count, List.length_append]
    exact Nat.mod_eq_of_lt hlen
  · show t.nodeCount + new.length = _
    rw [h.ncount, List.length_append]
  · intro b hb
    rcases List.mem_append.1 hb with hb | hb
    · exact h.bpos b hb
    · exact (sf b (newf b hb)).2.2.2
  · refine (f1.mono (fun q hq => Or.inl hq) (fun _ h => h.elim)).trans (R.fr.fr.mono ?_ ?_)
    · rintro q (hq | ⟨e, he, hh, hq⟩)
      · exact Or.inl hq
      · exact Or.inr ⟨e, sub e he, hh, hq⟩
    · rintro b ((hq | hq) | hq)
      · exact Or.inl (T1.bmem hb hq)
      · exact Or.inr (Or.inl hq)
      · exact Or.inr (Or.inr hq)

theorem TopOk.rempre (hc : CfgOk c) (T : TopOk c m base ch es bl) {k : Nat} (hb : k >>> c.bucketShift < c.bucketMax) :
    RemPre c m ⟨base, k >>> c.bucketShift⟩ (levels c) (k >>> c.bucketShift / c.treeMax) c.bucketShift
      (ch (k >>> c.bucketShift)) k [] := by
  refine ⟨flatMap_nodup (T.all_nodup hc) hb, flatMap_nodup T.all_bnodup hb, fun hx => T.base (T.bmem hb hx),
    by simp only; rw [T.size]; exact hb, ?_, hc.small, by simp [hc.level_max]⟩
  intro n' hn'; rw [hc.shift_eq, hn']; rfl

/-- Removal of a chosen element. -/
theorem bucketRemove_spec (hc : CfgOk c) {t : Trie} (h : TrieOk c m t es bl) {e : Elem} {rm : Ptr} (he : e ∈ es)
    (hp : rm = e.node ∨ rm = 0 ∧ (es.filter fun f => f.hash = e.hash).head? = some e) :
    ∃ nc m' F, trieBucketRemoveExisting c t.nodeCount c.bucketShift ⟨t.base, e.hash >>> c.bucketShift⟩ rm e.hash [] m =
        some ((nc, e.node), m') ∧
      m'.heap.ok e.node ∧ m'.heap.data e.node = e.data ∧
      TrieOk c m' { t with count := decT t.count, nodeCount := nc } (es.filter fun f => f.node ≠ e.node)
        ((bl.filter fun b => b ∉ F)) ∧
      m'.supply = m.supply ∧ m'.freed = m.freed ++ F ∧ F.Nodup ∧ (∀ b ∈ F, b ∈ bl) ∧
      Fr m m' (fun q => ∃ f ∈ es, f.hash = e.hash ∧ f.node = q) (fun b => b ∈ bl ∨ b = t.base) := by
  obtain ⟨ch, T⟩ := h.top
  have hb := (hc.key_lt e.hash).2 (T.keys e he)
  have kid := T.kids _ hb
  have sub : ∀ f ∈ (ch (e.hash >>> c.bucketShift)).elems c.treeMax, f ∈ es := fun f hf => T.mem hc hb hf
  have pk : Picks c (ch (e.hash >>> c.bucketShift)) rm e.hash e := by
    refine ⟨T.mem_iff hc he, rfl, ?_⟩
    rw [T.order _ (T.keys e he)]; exact hp
  obtain ⟨A, B, eb⟩ := filter_flatMap_upd (TT.blocks c.treeMax) ch hb
  have e0 := eb (ch (e.hash >>> c.bucketShift))
  rw [upd_self] at e0
  have hlen : ((ch (e.hash >>> c.bucketShift)).blocks c.treeMax).length ≤ t.nodeCount := by
    rw [h.ncount, ← T.blocks.length_eq, e0]; simp; omega
  obtain ⟨m', t', F, R, hgo⟩ := remove_run hc _ _ m ⟨t.base, e.hash >>> c.bucketShift⟩ _ _ t.nodeCount [] kid
    (T.rempre hc hb) pk hlen
  have run : trieBucketRemoveExisting c t.nodeCount c.bucketShift ⟨t.base, e.hash >>> c.bucketShift⟩ rm e.hash [] m =
      some ((t.nodeCount - F.length, e.node), m') := by
    rcases hgo with ⟨hr, _⟩ | ⟨hr, _⟩
    · exact hr
    · rw [hr]; simp [trieReduce]
  have oth := T.others hc hb R.fr (by rintro q ⟨f, hf, _, rfl⟩; exact Or.inl (List.mem_map_of_mem hf))
    (by intro d hd; exact Or.inl hd) R.rep
  have perm1 := perm_of_filter R.elems
  have eok := T.ok hc he
  have permAll : bl.Perm ((A ++ t'.blocks c.treeMax ++ B) ++ F) := by
    refine T.blocks.symm.trans ?_
    rw [e0]
    refine ((R.blocks.append_left A).append_right B).trans ?_
    simp only [List.append_assoc]
    exact (List.perm_append_comm.append_left _).append_left _
  have nd := permAll.nodup_iff.1 T.bnodup
  have hFd : ∀ b ∈ F, b ∉ A ++ t'.blocks c.treeMax ++ B := fun b hb hx =>
    (List.nodup_append.1 nd).2.2 b hx b hb rfl
  have permF : (A ++ t'.blocks c.treeMax ++ B).Perm (bl.filter fun b => b ∉ F) := by
    refine List.Perm.trans ?_ (permAll.filter _).symm
    rw [List.filter_append]
    have h1 : (A ++ t'.blocks c.treeMax ++ B).filter (fun b => b ∉ F) = A ++ t'.blocks c.treeMax ++ B := by
      rw [List.filter_eq_self]; intro b hb; simp only [decide_eq_true_eq]; exact fun hx => hFd b hx hb
    have h2 : F.filter (fun b => b ∉ F) = [] := by
      rw [List.filter_eq_nil_iff]; intro b hb; simpa using hb
    rw [h1, h2, List.append_nil]
  have hlf : t.nodeCount - F.length = (bl.filter fun b => b ∉ F).length := by
    rw [← permF.length_eq, h.ncount, permAll.length_eq, List.length_append]; omega
  have hlen1 : 0 < es.length := List.length_pos_of_mem he
  refine ⟨t.nodeCount - F.length, m', F, run, ?_, ?_,
    ⟨⟨upd ch (e.hash >>> c.bucketShift) t', oth.1, oth.2, ?_, ?_, ?_, ?_, ?_, ?_, ?_⟩, ?_, hlf, ?_⟩, R.supply, R.freed,
    (List.nodup_append.1 nd).2.1, ?_, ?_⟩
  · exact ⟨eok.1.1, by rw [R.fr.valid]; exact eok.1.2⟩
  · rw [R.fr.data]; exact eok.2.1
  · intro i hi f hf
    by_cases hix : i = e.hash >>> c.bucketShift
    · subst hix
      rw [upd_same] at hf
      exact T.top _ hi f (List.mem_filter.1 (perm1.mem_iff.1 hf)).1
    · rw [upd_ne hix] at hf; exact T.top i hi f hf
  · intro k hk
    have sw : ∀ X : List Elem, (X.filter (fun f => f.node ≠ e.node)).filter (fun e => e.hash = k) =
        (X.filter (fun e => e.hash = k)).filter (fun f => f.node ≠ e.node) := by
      intro X; rw [List.filter_filter, List.filter_filter]; congr 1; funext f; exact Bool.and_comm _ _
    rw [sw es, ← T.order k hk]
    by_cases hkx : k >>> c.bucketShift = e.hash >>> c.bucketShift
    · rw [hkx, upd_same, R.elems, sw]
    · rw [upd_ne hkx, eq_comm, List.filter_eq_self]
      intro f hf
      have hf := List.mem_filter.1 hf
      have : f.node ≠ e.node := by
        intro hx
        have hfe : f = e := List.inj_on_of_nodup_map T.nodup (T.mem hc ((hc.key_lt k).2 hk) hf.1) he hx
        have := hf.2
        simp only [decide_eq_true_eq] at this
        exact hkx (by rw [← this, hfe])
      simpa using this
  · exact T.nodup.sublist (List.filter_sublist.map _)
  · intro f hf; exact T.keys f (List.mem_filter.1 hf).1
  · rw [eb t']; exact permF
  · exact T.bnodup.filter _
  · intro hx; exact T.base (List.mem_filter.1 hx).1
  · show decT t.count = _
    unfold decT
    rw [h.count, if_neg (by omega)]
    obtain ⟨as, bs, hab⟩ := List.append_of_mem he
    have nd2 := T.nodup
    rw [hab] at nd2 ⊢
    simp only [List.map_append, List.map_cons, List.nodup_append, List.nodup_cons] at nd2
    rw [List.filter_append, List.filter_cons]
    have h1 : as.filter (fun f => f.node ≠ e.node) = as := by
      rw [List.filter_eq_self]; intro f hf
      have := nd2.2.2 f.node (List.mem_map_of_mem hf) e.node (by simp)
      simpa using this
    have h2 : bs.filter (fun f => f.node ≠ e.node) = bs := by
      rw [List.filter_eq_self]; intro f hf
      have : f.node ≠ e.node := fun h => nd2.2.1.1 (h ▸ List.mem_map_of_mem hf)
      simpa using this
    rw [h1, h2]; simp
  · intro b hb; exact h.bpos b (List.mem_filter.1 hb).1
  · intro b hb; exact permAll.mem_iff.2 (List.mem_append.2 (Or.inr hb))
  · refine R.fr.fr.mono ?_ ?_
    · rintro q ⟨f, hf, hh, hq⟩; exact ⟨f, sub f hf, hh, hq⟩
    · rintro b (hq | hq)
      · exact Or.inl (T.bmem hb hq)
      · exact Or.inr hq

theorem trieRemoveExisting_spec (hc : CfgOk c) {t : Trie} (h : TrieOk c m t es bl) {e : Elem} (he : e ∈ es) :
    ∃ t' m' F, trieRemoveExisting c t e.node m = some ((t', e.data), m') ∧ t'.base = t.base ∧
      TrieOk c m' t' (es.filter fun f => f.node ≠ e.node) (bl.filter fun b => b ∉ F) ∧
      m'.supply = m.supply ∧ m'.freed = m.freed ++ F ∧ F.Nodup ∧ (∀ b ∈ F, b ∈ bl) ∧
      Fr m m' (fun q => ∃ f ∈ es, f.hash = e.hash ∧ f.node = q) (fun b => b ∈ bl ∨ b = t.base) := by
  obtain ⟨nc, m', F, run, ok, da, T', su, fd, nd, hF, fr⟩ := bucketRemove_spec hc h (rm := e.node) he (Or.inl rfl)
  obtain ⟨ch, T⟩ := h.top
  have hb := (hc.key_lt e.hash).2 (T.keys e he)
  have eok := T.ok hc he
  refine ⟨{ t with count := decT t.count, nodeCount := nc }, m', F, ?_, rfl, T', su, fd, nd, hF, fr⟩
  simp only [trieRemoveExisting, run_bind, onN_run (getIndex_run eok.1), Option.bind_some, eok.2.2.1,
    shrKey_run _ hc.shift_lt, assertT_run hb]
  rw [show ({ m with heap := m.heap } : TMem) = m from rfl, run]
  simp only [Option.bind_some, assertT_run, onN_run (getData_run ok), da]
  rfl

omit [Arch] in
theorem head_filter (es : List Elem) (k : Nat) : (es.filter fun f => f.hash = k).head? = first es k := by
  rw [first, List.head?_filter]

omit [Arch] in
theorem eraseP_eq_filter {es : List Elem} {e : Elem} {k : Nat} (hn : (es.map Elem.node).Nodup) (h : first es k = some e) :
    (es.eraseP fun f => f.hash = k) = es.filter fun f => f.node ≠ e.node := by
  unfold first at h
  induction es with
  | nil => simp at h
  | cons f es ih =>
    simp only [List.map_cons, List.nodup_cons] at hn
    by_cases hk : f.hash = k
    · simp [hk] at h
      subst h
      rw [List.eraseP_cons_of_pos (by simp [hk]), List.filter_cons]
      simp only [ne_eq, not_true, decide_false, Bool.false_eq_true, if_false]
      rw [eq_comm, List.filter_eq_self]
      intro g hg
      have : g.node ≠ f.node := fun hx => hn.1 (hx ▸ List.mem_map_of_mem hg)
      simpa using this
    · rw [List.find?_cons_of_neg (by simp [hk])] at h
      rw [List.eraseP_cons_of_neg (by simp [hk]), List.filter_cons, ih hn.2 h]
      have he := List.mem_of_find?_eq_some h
      have : f.node ≠ e.node := fun hx => hn.1 (hx ▸ List.mem_map_of_mem he)
      simp [this]

theorem trieRemove_spec (hc : CfgOk c) {t : Trie} (h : TrieOk c m t es bl) {k : Nat} (hk : k < 2 ^ c.bit) :
    ∃ t' m' F, trieRemove c t k m = some ((t', ((first es k).map Elem.data).getD 0), m') ∧ t'.base = t.base ∧
      TrieOk c m' t' (es.eraseP fun f => f.hash = k) (bl.filter fun b => b ∉ F) ∧
      m'.supply = m.supply ∧ m'.freed = m.freed ++ F ∧ F.Nodup ∧ (∀ b ∈ F, b ∈ bl) ∧
      Fr m m' (fun q => ∃ f ∈ es, f.hash = k ∧ f.node = q) (fun b => b ∈ bl ∨ b = t.base) := by
  have hb := (hc.key_lt k).2 hk
  cases hf : first es k with
  | some e =>
    have he : e ∈ es := List.mem_of_find?_eq_some hf
    have hek : e.hash = k := by simpa using List.find?_some hf
    subst hek
    obtain ⟨nc, m', F, run, ok, da, T', su, fd, nd, hF, fr⟩ := bucketRemove_spec hc h (rm := 0) he
      (Or.inr ⟨rfl, by rw [head_filter]; exact hf⟩)
    obtain ⟨ch, T⟩ := h.top
    rw [eraseP_eq_filter T.nodup hf]
    refine ⟨{ t with count := decT t.count, nodeCount := nc }, m', F, ?_, rfl, T', su, fd, nd, hF, fr⟩
    simp only [trieRemove, run_bind, shrKey_run _ hc.shift_lt, Option.bind_some, assertT_run hb, run, run_ite, ok.1, if_false,
      onN_run (getData_run ok), da]
    rfl
  | none =>
    obtain ⟨ch, T⟩ := h.top
    have hf' : es.filter (fun f => f.hash = k) = [] := by
      rw [List.filter_eq_nil_iff]
      exact List.find?_eq_none.1 hf
    have run := remove_none_run hc (ch (k >>> c.bucketShift)) (levels c) m ⟨t.base, k >>> c.bucketShift⟩ _ c.bucketShift
      t.nodeCount [] (T.kids _ hb) (T.rempre hc hb) (by rw [T.order k hk]; exact hf')
    refine ⟨t, m, [], ?_, rfl, ?_, rfl, by simp, by simp, by simp, Fr.refl _ _ _⟩
    · simp only [trieRemove, run_bind, shrKey_run _ hc.shift_lt, Option.bind_some, assertT_run hb, run, run_ite, if_true,
        run_pure]
      rfl
    · have e1 : (es.eraseP fun f => f.hash = k) = es :=
        List.eraseP_of_forall_not fun f hf2 => by
          have := List.find?_eq_none.1 hf f hf2
          simpa using this
      have e2 : bl.filter (fun b => b ∉ ([] : List Ptr)) = bl := by simp
      rw [e1, e2]; exact h

theorem trieBucket_spec (hc : CfgOk c) {t : Trie} (h : TrieOk c m t es bl) {k : Nat} (hk : k < 2 ^ c.bit) :
    ∃ q, trieBucket c t k m = some (q, m) ∧ ERep m.heap q (es.filter fun e => e.hash = k) := by
  obtain ⟨ch, T⟩ := h.top
  have hb := (hc.key_lt k).2 hk
  obtain ⟨q, run, er⟩ := bucket_run hc k _ _ _ c.bucketShift _ (T.kids _ hb)
    (by intro n' hn'; rw [hc.shift_eq, hn']; rfl) hc.small
  rw [T.order k hk] at er
  refine ⟨q, ?_, er⟩
  simp only [trieBucket, run_bind, shrKey_run _ hc.shift_lt, Option.bind_some, assertT_run hb]
  rw [cellGet_run (by simp only; rw [T.size]; exact hb)]
  exact run

theorem trieSearch_spec (hc : CfgOk c) {t : Trie} (h : TrieOk c m t es bl) {k : Nat} (hk : k < 2 ^ c.bit) :
    trieSearch c t k m = some (((first es k).map Elem.data).getD 0, m) := by
  obtain ⟨q, run, er⟩ := trieBucket_spec hc h hk
  simp only [trieSearch, run_bind, run, Option.bind_some, run_ite]
  cases hf : es.filter (fun e => e.hash = k) with
  | nil =>
    rw [hf] at er
    have : q = 0 := er.list.head
    rw [if_pos this, ← head_filter, hf]
    rfl
  | cons e M =>
    rw [hf] at er
    have hq : q = e.node := er.list.head
    have ok := er.ok (e := e) (by simp)
    have da := er.data e (by simp)
    subst hq
    rw [if_neg ok.1, onN_run (getData_run ok), da, ← head_filter, hf]
    rfl

theorem walkBucket_spec (hc : CfgOk c) {t : Trie} (h : TrieOk c m t es bl) {k : Nat} (hk : k < 2 ^ c.bit) :
    walkBucket c t k m = some (es.filter fun e => e.hash = k, m) := by
  obtain ⟨q, run, er⟩ := trieBucket_spec hc h hk
  simp only [walkBucket, run_bind, run, Option.bind_some, onN_run er.walk]

end TrieSpec
end Tommy
