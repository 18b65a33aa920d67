import Verif.Proof.TrieInpRemove
import Verif.Proof.Trie
/-! The functions of the in-place trie on a whole trie, and the invariant of any number of tries. -/
set_option linter.unusedSimpArgs false
set_option linter.unusedVariables false
namespace Tommy

variable [Arch]
namespace InpSpec
open HashSpec (Elem ERep SameNode walkLoop LiveOk Fits)
open TrieSpec (Fr head_filter eraseP_eq_filter first)

variable {c : TrieCfg}

/-! ### The numbers of the configuration -/

/-- The levels below a bucket. -/
def depth (c : TrieCfg) : Nat := c.bit / c.treeBit - 2

theorem CfgOk.three (hc : CfgOk c) : 3 ≤ c.bit / c.treeBit := by
  have h := hc.low
  rw [hc.trie.max, ← Nat.pow_mul] at h
  have h := (Nat.pow_le_pow_iff_right (by decide)).1 h
  rw [Nat.le_div_iff_mul_le hc.trie.bit_pos.1, Nat.mul_comm]; exact h

theorem CfgOk.split (hc : CfgOk c) : c.treeBit * (depth c - 1) + (c.bit % c.treeBit + 3 * c.treeBit) = c.bit := by
  have h1 := Nat.div_add_mod c.bit c.treeBit
  have h2 := hc.three
  have e : c.treeBit * (c.bit / c.treeBit) = c.treeBit * (depth c - 1) + 3 * c.treeBit := by
    rw [Nat.mul_comm 3, ← Nat.mul_add]; congr 1; unfold depth; omega
  omega

theorem CfgOk.depth_pos (hc : CfgOk c) : 1 ≤ depth c := by
  have := hc.three; unfold depth; omega

theorem CfgOk.shift_eq (hc : CfgOk c) : inpBucketShift c = c.treeBit * (depth c - 1) := by
  have h1 := hc.split
  unfold inpBucketShift inpBucketBit
  omega

theorem CfgOk.bits (hc : CfgOk c) : inpBucketShift c + inpBucketBit c = c.bit := by
  have h1 := hc.split
  rw [hc.shift_eq]
  unfold inpBucketBit
  omega

theorem CfgOk.small (hc : CfgOk c) : c.treeBit * depth c ≤ sizeBit := by
  have h1 := hc.split
  have h2 := hc.high
  have h3 := hc.depth_pos
  have e : c.treeBit * depth c = c.treeBit * (depth c - 1) + c.treeBit := by
    rw [← Nat.mul_succ]; congr 1; omega
  omega

theorem CfgOk.shift_lt (hc : CfgOk c) : inpBucketShift c < sizeBit := by
  have h1 := hc.bits
  have h2 := hc.high
  have h3 := hc.trie.bit_pos
  have h4 : inpBucketBit c = c.bit % c.treeBit + 3 * c.treeBit := rfl
  omega

theorem CfgOk.key_lt (hc : CfgOk c) (k : Nat) : k >>> inpBucketShift c < inpBucketMax c ↔ k < 2 ^ c.bit := by
  unfold inpBucketMax
  rw [Nat.one_shiftLeft, Nat.shiftRight_eq_div_pow, Nat.div_lt_iff_lt_mul (Nat.two_pow_pos _), ← Nat.pow_add,
    Nat.add_comm, hc.bits]

theorem CfgOk.top (hc : CfgOk c) (k : Nat) :
    k >>> (c.treeBit * depth c) = (k >>> inpBucketShift c) / c.treeMax := by
  have h2 := hc.depth_pos
  have e : c.treeBit * depth c = inpBucketShift c + c.treeBit := by
    rw [hc.shift_eq, ← Nat.mul_succ]; congr 1; omega
  rw [e, Nat.shiftRight_add, hc.trie.max, ← Nat.shiftRight_eq_div_pow]

theorem CfgOk.shift_succ (hc : CfgOk c) : ∀ n', depth c = n' + 1 → inpBucketShift c = c.treeBit * n' := by
  intro n' h; rw [hc.shift_eq, h]; rfl

/-! ### The invariant of a trie -/

/-- The buckets `ch` of the trie at `base` contain the elements `es`. -/
structure TopOk (c : TrieCfg) (m : TMem) (base : Ptr) (ch : Nat → IT) (es : List Elem) : Prop where
  size : m.csize base = inpBucketMax c
  kids : ∀ i, i < inpBucketMax c → IRep c m (ch i) (depth c) (i / c.treeMax) (m.cell base i)
  top : ∀ i, i < inpBucketMax c → ∀ e ∈ (ch i).elems c.treeMax, e.hash >>> inpBucketShift c = i
  order : ∀ k, k < 2 ^ c.bit → ((ch (k >>> inpBucketShift c)).elems c.treeMax).filter (fun e => e.hash = k) =
    es.filter (fun e => e.hash = k)
  nodup : (es.map Elem.node).Nodup
  keys : ∀ e ∈ es, e.hash < 2 ^ c.bit
  base : base ∉ es.map Elem.node

/-- The trie `t` contains the elements `es`. -/
structure TrieOk (c : TrieCfg) (m : TMem) (t : InpTrie) (es : List Elem) : Prop where
  top : ∃ ch, TopOk c m t.base ch es
  count : t.count = es.length

variable {m m' : TMem} {base : Ptr} {ch : Nat → IT} {es : List Elem}

theorem TopOk.perm (hc : CfgOk c) (h : TopOk c m base ch es) :
    ((List.range (inpBucketMax c)).flatMap fun i => (ch i).elems c.treeMax).Perm es := by
  refine perm_of_filter fun k => ?_
  by_cases hk : k < 2 ^ c.bit
  · rw [← h.order k hk]
    refine filter_flatMap_one (fun e : Elem => decide (e.hash = k)) (fun i => (ch i).elems c.treeMax)
      ((hc.key_lt k).2 hk) fun j hj hne => ?_
    rw [List.filter_eq_nil_iff]
    intro e he hek
    simp only [decide_eq_true_eq] at hek
    exact hne (by rw [← h.top j hj e he, hek])
  · have : es.filter (fun e => e.hash = k) = [] := by
      rw [List.filter_eq_nil_iff]
      intro e he hek
      simp only [decide_eq_true_eq] at hek
      exact hk (hek ▸ h.keys e he)
    rw [this, List.filter_eq_nil_iff]
    intro e he hek
    simp only [decide_eq_true_eq] at hek
    obtain ⟨i, hi, he⟩ := List.mem_flatMap.1 he
    have hi := List.mem_range.1 hi
    exact hk ((hc.key_lt k).1 (by rw [← hek, h.top i hi e he]; exact hi))

theorem TopOk.mem (hc : CfgOk c) (h : TopOk c m base ch es) {i : Nat} (hi : i < inpBucketMax c) {e : Elem}
    (he : e ∈ (ch i).elems c.treeMax) : e ∈ es :=
  (h.perm hc).mem_iff.1 (List.mem_flatMap.2 ⟨i, List.mem_range.2 hi, he⟩)

theorem TopOk.nmem (hc : CfgOk c) (h : TopOk c m base ch es) {i : Nat} (hi : i < inpBucketMax c) {q : Ptr}
    (hq : q ∈ ((ch i).elems c.treeMax).map Elem.node) : q ∈ es.map Elem.node := by
  obtain ⟨e, he, rfl⟩ := List.mem_map.1 hq
  exact List.mem_map_of_mem (h.mem hc hi he)

theorem TopOk.mem_iff (hc : CfgOk c) (h : TopOk c m base ch es) {e : Elem} (he : e ∈ es) :
    e ∈ (ch (e.hash >>> inpBucketShift c)).elems c.treeMax := by
  have : e ∈ es.filter (fun x => x.hash = e.hash) := List.mem_filter.2 ⟨he, by simp⟩
  rw [← h.order _ (h.keys e he)] at this
  exact (List.mem_filter.1 this).1

theorem TopOk.all_nodup (hc : CfgOk c) (h : TopOk c m base ch es) :
    ((List.range (inpBucketMax c)).flatMap fun i => ((ch i).elems c.treeMax).map Elem.node).Nodup := by
  rw [← List.map_flatMap]
  exact ((h.perm hc).map Elem.node).nodup_iff.2 h.nodup

theorem TopOk.ok (hc : CfgOk c) (h : TopOk c m base ch es) {e : Elem} (he : e ∈ es) :
    m.heap.ok e.node ∧ m.heap.data e.node = e.data ∧ m.heap.index e.node = e.hash ∧ m.csize e.node = c.treeMax :=
  (h.kids _ ((hc.key_lt _).2 (h.keys e he))).ok e (h.mem_iff hc he)

theorem TopOk.congr (hc : CfgOk c) (h : TopOk c m base ch es) {N B : Ptr → Prop} (f : Fr m m' N B)
    (hN : ∀ e ∈ es, ¬ N e.node) (hB : ∀ b, (b = base ∨ b ∈ es.map Elem.node) → ¬ B b) : TopOk c m' base ch es :=
  { h with
    size := by rw [(f.obj base (hB _ (Or.inl rfl))).1, h.size]
    kids := fun i hi => by
      rw [(f.obj base (hB _ (Or.inl rfl))).2 i]
      refine (h.kids i hi).congr fun e he => ?_
      have he := h.mem hc hi he
      have := f.obj e.node (hB _ (Or.inr (List.mem_map_of_mem he)))
      exact ⟨f.node _ (hN e he), this.1, fun i _ => this.2 i⟩ }

theorem TrieOk.congr (hc : CfgOk c) {t : InpTrie} (h : TrieOk c m t es) {N B : Ptr → Prop} (f : Fr m m' N B)
    (hN : ∀ e ∈ es, ¬ N e.node) (hB : ∀ b, (b = t.base ∨ b ∈ es.map Elem.node) → ¬ B b) : TrieOk c m' t es := by
  obtain ⟨ch, ht⟩ := h.top
  exact ⟨⟨ch, ht.congr hc f hN hB⟩, h.count⟩

/-- The buckets not concerned by a change. -/
theorem TopOk.others (hc : CfgOk c) (h : TopOk c m base ch es) {i : Nat} (hi : i < inpBucketMax c) {N B : Ptr → Prop}
    (fr : TFr m m' N B ⟨base, i⟩) (sz : m'.csize = m.csize)
    (hN : ∀ q, N q → q ∈ ((ch i).elems c.treeMax).map Elem.node ∨ q ∉ es.map Elem.node)
    (hB : ∀ d, B d → d ∈ ((ch i).elems c.treeMax).map Elem.node) {t : IT}
    (ht : IRep c m' t (depth c) (i / c.treeMax) (m'.cell base i)) :
    ∀ j, j < inpBucketMax c → IRep c m' (upd ch i t j) (depth c) (j / c.treeMax) (m'.cell base j) := by
  have nb : ¬ B base := fun hb => h.base (h.nmem hc hi (hB _ hb))
  intro j hj
  by_cases hji : j = i
  · subst hji; rw [upd_same]; exact ht
  · rw [upd_ne hji, fr.cell base j nb (by simp [hji])]
    have hij : i ≠ j := fun h => hji h.symm
    refine (h.kids j hj).congr fun e he => ⟨fr.node _ fun hq => ?_, by rw [sz], fun a _ => fr.cell _ a (fun hb => ?_) ?_⟩
    · rcases hN _ hq with h1 | h1
      · exact flatMap_disj (h.all_nodup hc) hi hj hij h1 (List.mem_map_of_mem he)
      · exact h1 (List.mem_map_of_mem (h.mem hc hj he))
    · exact flatMap_disj (h.all_nodup hc) hi hj hij (hB _ hb) (List.mem_map_of_mem he)
    · rintro ⟨h1, _⟩
      exact h.base (by rw [← show e.node = base from h1]; exact List.mem_map_of_mem (h.mem hc hj he))

/-! ### The functions -/

omit [Arch] in
theorem inpInit_spec (c : TrieCfg) {t : InpTrie} (h : m.csize t.base = inpBucketMax c) :
    ∃ t' m', inpInit c t m = some (t', m') ∧ t'.base = t.base ∧ TrieOk c m' t' [] ∧ m'.csize = m.csize ∧
      Fr m m' (fun _ => False) (fun b => b = t.base) := by
  have hcl := clearCells_run (b := t.base) (inpBucketMax c) 0 m (by rw [h]; omega)
  refine ⟨{ t with count := 0 },
    { m with cell := upd m.cell t.base fun j => if 0 ≤ j ∧ j < 0 + inpBucketMax c then 0 else m.cell t.base j },
    by simp only [inpInit, run_bind, hcl, Option.bind_some]; rfl,
    rfl, ⟨⟨fun _ => .nil, h, ?_, ?_, ?_, by simp, by simp, by simp⟩, rfl⟩, rfl, ?_⟩
  · intro i hi
    show IRep c _ .nil (depth c) (i / c.treeMax) (upd m.cell t.base _ t.base i)
    rw [upd_same, if_pos (by omega)]
    simp only [IRep]
  · intro i _ e he; simp [IT.elems] at he
  · intro k _; rfl
  · refine ⟨fun q _ => HashSpec.SameNode.refl _ q, rfl, fun b hb => ⟨rfl, fun i => ?_⟩⟩
    show upd m.cell t.base _ b i = _
    rw [upd_ne hb]

theorem inpInsert_spec (hc : CfgOk c) {t : InpTrie} (h : TrieOk c m t es) {x : Elem} (ok : m.heap.ok x.node)
    (sz : m.csize x.node = c.treeMax) (fresh : x.node ∉ es.map Elem.node) (xb : t.base ≠ x.node)
    (key : x.hash < 2 ^ c.bit) (hlen : es.length + 1 < 2 ^ sizeBit) :
    ∃ t' m', inpInsert c t x.node x.data x.hash m = some (t', m') ∧ t'.base = t.base ∧
      TrieOk c m' t' (es ++ [x]) ∧ m'.csize = m.csize ∧
      Fr m m' (fun q => q = x.node ∨ ∃ e ∈ es, e.hash = x.hash ∧ e.node = q)
        (fun b => b = x.node ∨ b = t.base ∨ b ∈ es.map Elem.node) := by
  obtain ⟨ch, T⟩ := h.top
  have hb := (hc.key_lt x.hash).2 key
  let h1 : Heap := { m.heap with data := upd m.heap.data x.node x.data, index := upd m.heap.index x.node x.hash }
  let m1 : TMem := { m with
    heap := h1
    cell := upd m.cell x.node (fun j => if 0 ≤ j ∧ j < 0 + c.treeMax then 0 else m.cell x.node j) }
  have f1 : Fr m m1 (fun q => q = x.node) (fun b => b = x.node) :=
    ⟨fun q hq => ⟨fun h => h, rfl, rfl, upd_ne hq, upd_ne hq⟩, rfl, fun b hb => ⟨rfl, fun i => by
      show upd m.cell x.node _ b i = _
      rw [upd_ne hb]⟩⟩
  have T1 : TopOk c m1 t.base ch es := T.congr hc f1
    (fun e he hx => fresh (hx ▸ List.mem_map_of_mem he)) (by
      rintro b (h | h) hx
      · exact xb (h.symm.trans hx)
      · exact fresh (hx ▸ h))
  have kid := T1.kids _ hb
  have sub : ∀ e ∈ (ch (x.hash >>> inpBucketShift c)).elems c.treeMax, e ∈ es := fun e he => T1.mem hc hb he
  have ip : InsPre c m1 ⟨t.base, x.hash >>> inpBucketShift c⟩ (depth c) (x.hash >>> inpBucketShift c / c.treeMax)
      (inpBucketShift c) (ch (x.hash >>> inpBucketShift c)) x := by
    refine ⟨ok, upd_same _ _ _, upd_same _ _ _, sz, ?_, fun hx => fresh (T1.nmem hc hb hx),
      flatMap_nodup (T1.all_nodup hc) hb, fun hx => T1.base (T1.nmem hc hb hx), xb, ?_, hc.top _, hc.shift_succ, hc.small⟩
    · intro i hi
      show upd m.cell x.node _ x.node i = 0
      rw [upd_same, if_pos (by omega)]
    · show _ < m.csize t.base
      rw [T.size]; exact hb
  obtain ⟨m', t', e1, R⟩ := insert_run hc.trie _ _ m1 ⟨t.base, x.hash >>> inpBucketShift c⟩ _ _ kid ip
  have oth := T1.others hc hb R.fr R.size
    (by
      rintro q (rfl | ⟨e, he, _, rfl⟩)
      · exact Or.inr fresh
      · exact Or.inl (List.mem_map_of_mem he))
    (fun d hd => hd) R.rep
  have perm1 := perm_of_filter R.elems
  refine ⟨{ t with count := sizeT (t.count + 1) }, m', ?_, rfl,
    ⟨⟨upd ch (x.hash >>> inpBucketShift c) t', by rw [R.size]; exact T1.size, oth, ?_, ?_, ?_, ?_, ?_⟩, ?_⟩, R.size, ?_⟩
  · simp only [inpInsert, run_bind, shrKey_run _ hc.shift_lt, Option.bind_some, assertT_run hb,
      onN_run (setData_run (v := x.data) ok)]
    rw [onN_run (m := { m with heap := _ }) (setIndex_run (v := x.hash) (h := { m.heap with data := upd m.heap.data x.node x.data }) ok)]
    simp only [Option.bind_some]
    rw [clearCells_run c.treeMax 0 _ (by show 0 + c.treeMax ≤ m.csize x.node; rw [sz]; omega)]
    simp only [Option.bind_some]
    refine Eq.trans (congrArg (fun z => Option.bind z _) (show _ = some ((), m') from e1)) ?_
    rfl
  · intro i hi e he
    by_cases hix : i = x.hash >>> inpBucketShift c
    · subst hix
      rw [upd_same] at he
      rcases List.mem_append.1 (perm1.mem_iff.1 he) with he | he
      · exact T1.top _ hi e he
      · simp at he; rw [he]
    · rw [upd_ne hix] at he; exact T1.top i hi e he
  · intro k hk
    by_cases hkx : k >>> inpBucketShift c = x.hash >>> inpBucketShift c
    · rw [hkx, upd_same, R.elems, List.filter_append, List.filter_append, ← hkx, T1.order k hk]
    · rw [upd_ne hkx, T1.order k hk, List.filter_append,
        filter_nil_of_key' (L := [x]) (k := x.hash) (by simp) (fun h => hkx (by rw [h])), List.append_nil]
  · rw [List.map_append, List.nodup_append]
    refine ⟨T.nodup, by simp, ?_⟩
    intro a ha b hb hab
    simp at hb
    exact fresh (hb ▸ hab ▸ ha)
  · intro e he
    rcases List.mem_append.1 he with he | he
    · exact T.keys e he
    · simp at he; rw [he]; exact key
  · rw [List.map_append, List.mem_append]
    rintro (h | h)
    · exact T.base h
    · simp at h; exact xb h
  · show sizeT (t.count + 1) = _
    rw [h.count, List.length_append]
    exact Nat.mod_eq_of_lt hlen
  · refine (f1.mono (fun q hq => Or.inl hq) (fun _ h => Or.inl h)).trans (R.fr.fr.mono ?_ ?_)
    · rintro q (hq | ⟨e, he, hh, hq⟩)
      · exact Or.inl hq
      · exact Or.inr ⟨e, sub e he, hh, hq⟩
    · rintro b (hq | hq)
      · exact Or.inr (Or.inr (T1.nmem hc hb hq))
      · exact Or.inr (Or.inl hq)

theorem TopOk.rempre (hc : CfgOk c) (T : TopOk c m base ch es) {k : Nat} (hb : k >>> inpBucketShift c < inpBucketMax c) :
    RemPre c m ⟨base, k >>> inpBucketShift c⟩ (depth c) (k >>> inpBucketShift c / c.treeMax) (inpBucketShift c)
      (ch (k >>> inpBucketShift c)) k :=
  ⟨flatMap_nodup (T.all_nodup hc) hb, fun hx => T.base (T.nmem hc hb hx),
    by simp only; rw [T.size]; exact hb, hc.top _, hc.shift_succ, hc.small⟩

/-- Removal of a chosen element. -/
theorem bucketRemove_spec (hc : CfgOk c) {t : InpTrie} (h : TrieOk c m t es) {e : Elem} {rm : Ptr} (he : e ∈ es)
    (hp : rm = e.node ∨ rm = 0 ∧ (es.filter fun f => f.hash = e.hash).head? = some e) :
    ∃ m', inpBucketRemove c (inpBucketShift c) ⟨t.base, e.hash >>> inpBucketShift c⟩ rm e.hash m = some (e.node, m') ∧
      m'.heap.ok e.node ∧ m'.heap.data e.node = e.data ∧
      TrieOk c m' { t with count := decT t.count } (es.filter fun f => f.node ≠ e.node) ∧ m'.csize = m.csize ∧
      Fr m m' (fun q => ∃ f ∈ es, f.hash = e.hash ∧ f.node = q) (fun b => b = t.base ∨ b ∈ es.map Elem.node) := by
  obtain ⟨ch, T⟩ := h.top
  have hb := (hc.key_lt e.hash).2 (T.keys e he)
  have kid := T.kids _ hb
  have sub : ∀ f ∈ (ch (e.hash >>> inpBucketShift c)).elems c.treeMax, f ∈ es := fun f hf => T.mem hc hb hf
  have pk : Picks c (ch (e.hash >>> inpBucketShift c)) rm e.hash e := by
    refine ⟨T.mem_iff hc he, rfl, ?_⟩
    rw [T.order _ (T.keys e he)]; exact hp
  obtain ⟨m', t', run, R⟩ := remove_run hc.trie _ _ m ⟨t.base, e.hash >>> inpBucketShift c⟩ _ _ kid
    (T.rempre hc hb) pk
  have oth := T.others hc hb R.fr R.size (by rintro q ⟨f, hf, _, rfl⟩; exact Or.inl (List.mem_map_of_mem hf))
    (fun d hd => hd) R.rep
  have perm1 := perm_of_filter R.elems
  have eok := T.ok hc he
  have hlen1 : 0 < es.length := List.length_pos_of_mem he
  refine ⟨m', run, ?_, ?_,
    ⟨⟨upd ch (e.hash >>> inpBucketShift c) t', by rw [R.size]; exact T.size, oth, ?_, ?_, ?_, ?_, ?_⟩, ?_⟩, R.size, ?_⟩
  · exact ⟨eok.1.1, by rw [R.fr.valid]; exact eok.1.2⟩
  · rw [R.fr.data]; exact eok.2.1
  · intro i hi f hf
    by_cases hix : i = e.hash >>> inpBucketShift c
    · subst hix
      rw [upd_same] at hf
      exact T.top _ hi f (List.mem_filter.1 (perm1.mem_iff.1 hf)).1
    · rw [upd_ne hix] at hf; exact T.top i hi f hf
  · intro k hk
    have sw : ∀ X : List Elem, (X.filter (fun f => f.node ≠ e.node)).filter (fun e => e.hash = k) =
        (X.filter (fun e => e.hash = k)).filter (fun f => f.node ≠ e.node) := by
      intro X; rw [List.filter_filter, List.filter_filter]; congr 1; funext f; exact Bool.and_comm _ _
    rw [sw es, ← T.order k hk]
    by_cases hkx : k >>> inpBucketShift c = e.hash >>> inpBucketShift c
    · rw [hkx, upd_same, R.elems, sw]
    · rw [upd_ne hkx, eq_comm, List.filter_eq_self]
      intro f hf
      have hf := List.mem_filter.1 hf
      have : f.node ≠ e.node := by
        intro hx
        have hfe : f = e := List.inj_on_of_nodup_map T.nodup (T.mem hc ((hc.key_lt k).2 hk) hf.1) he hx
        have := hf.2
        simp only [decide_eq_true_eq] at this
        exact hkx (by rw [← this, hfe])
      simpa using this
  · exact T.nodup.sublist (List.filter_sublist.map _)
  · intro f hf; exact T.keys f (List.mem_filter.1 hf).1
  · intro hx
    obtain ⟨f, hf, hx⟩ := List.mem_map.1 hx
    exact T.base (by rw [← show f.node = t.base from hx]; exact List.mem_map_of_mem (List.mem_filter.1 hf).1)
  · show decT t.count = _
    unfold decT
    rw [h.count, if_neg (by omega)]
    obtain ⟨as, bs, hab⟩ := List.append_of_mem he
    have nd2 := T.nodup
    rw [hab] at nd2 ⊢
    simp only [List.map_append, List.map_cons, List.nodup_append, List.nodup_cons] at nd2
    rw [List.filter_append, List.filter_cons]
    have h1 : as.filter (fun f => f.node ≠ e.node) = as := by
      rw [List.filter_eq_self]; intro f hf
      have := nd2.2.2 f.node (List.mem_map_of_mem hf) e.node (by simp)
      simpa using this
    have h2 : bs.filter (fun f => f.node ≠ e.node) = bs := by
      rw [List.filter_eq_self]; intro f hf
      have : f.node ≠ e.node := fun h => nd2.2.1.1 (h ▸ List.mem_map_of_mem hf)
      simpa using this
    rw [h1, h2]; simp
  · refine R.fr.fr.mono ?_ ?_
    · rintro q ⟨f, hf, hh, hq⟩; exact ⟨f, sub f hf, hh, hq⟩
    · rintro b (hq | hq)
      · exact Or.inr (T.nmem hc hb hq)
      · exact Or.inl hq

theorem inpRemoveExisting_spec (hc : CfgOk c) {t : InpTrie} (h : TrieOk c m t es) {e : Elem} (he : e ∈ es) :
    ∃ t' m', inpRemoveExisting c t e.node m = some ((t', e.data), m') ∧ t'.base = t.base ∧
      TrieOk c m' t' (es.filter fun f => f.node ≠ e.node) ∧ m'.csize = m.csize ∧
      Fr m m' (fun q => ∃ f ∈ es, f.hash = e.hash ∧ f.node = q) (fun b => b = t.base ∨ b ∈ es.map Elem.node) := by
  obtain ⟨m', run, ok, da, T', sz, fr⟩ := bucketRemove_spec hc h (rm := e.node) he (Or.inl rfl)
  obtain ⟨ch, T⟩ := h.top
  have hb := (hc.key_lt e.hash).2 (T.keys e he)
  have eok := T.ok hc he
  refine ⟨{ t with count := decT t.count }, m', ?_, rfl, T', sz, fr⟩
  simp only [inpRemoveExisting, run_bind, onN_run (getIndex_run eok.1), Option.bind_some, eok.2.2.1,
    shrKey_run _ hc.shift_lt, assertT_run hb]
  rw [show ({ m with heap := m.heap } : TMem) = m from rfl, run]
  simp only [Option.bind_some, assertT_run, onN_run (getData_run ok), da]
  rfl

theorem inpRemove_spec (hc : CfgOk c) {t : InpTrie} (h : TrieOk c m t es) {k : Nat} (hk : k < 2 ^ c.bit) :
    ∃ t' m', inpRemove c t k m = some ((t', ((first es k).map Elem.data).getD 0), m') ∧ t'.base = t.base ∧
      TrieOk c m' t' (es.eraseP fun f => f.hash = k) ∧ m'.csize = m.csize ∧
      Fr m m' (fun q => ∃ f ∈ es, f.hash = k ∧ f.node = q) (fun b => b = t.base ∨ b ∈ es.map Elem.node) := by
  have hb := (hc.key_lt k).2 hk
  cases hf : first es k with
  | some e =>
    have he : e ∈ es := List.mem_of_find?_eq_some hf
    have hek : e.hash = k := by simpa using List.find?_some hf
    subst hek
    obtain ⟨m', run, ok, da, T', sz, fr⟩ := bucketRemove_spec hc h (rm := 0) he
      (Or.inr ⟨rfl, by rw [head_filter]; exact hf⟩)
    obtain ⟨ch, T⟩ := h.top
    rw [eraseP_eq_filter T.nodup hf]
    refine ⟨{ t with count := decT t.count }, m', ?_, rfl, T', sz, fr⟩
    simp only [inpRemove, run_bind, shrKey_run _ hc.shift_lt, Option.bind_some, assertT_run hb, run, run_ite, ok.1, if_false,
      onN_run (getData_run ok), da]
    rfl
  | none =>
    obtain ⟨ch, T⟩ := h.top
    have hf' : es.filter (fun f => f.hash = k) = [] := by
      rw [List.filter_eq_nil_iff]
      exact List.find?_eq_none.1 hf
    have run := remove_none_run hc.trie (rm := 0) (ch (k >>> inpBucketShift c)) (depth c) m ⟨t.base, k >>> inpBucketShift c⟩ _
      (inpBucketShift c) (T.kids _ hb) (T.rempre hc hb) (by rw [T.order k hk]; exact hf')
    refine ⟨t, m, ?_, rfl, ?_, rfl, Fr.refl _ _ _⟩
    · simp only [inpRemove, run_bind, shrKey_run _ hc.shift_lt, Option.bind_some, assertT_run hb, run, run_ite, if_true,
        run_pure]
      rfl
    · have e1 : (es.eraseP fun f => f.hash = k) = es :=
        List.eraseP_of_forall_not fun f hf2 => by
          have := List.find?_eq_none.1 hf f hf2
          simpa using this
      rw [e1]; exact h

theorem inpBucket_spec (hc : CfgOk c) {t : InpTrie} (h : TrieOk c m t es) {k : Nat} (hk : k < 2 ^ c.bit) :
    ∃ q, inpBucket c t k m = some (q, m) ∧ ERep m.heap q (es.filter fun e => e.hash = k) := by
  obtain ⟨ch, T⟩ := h.top
  have hb := (hc.key_lt k).2 hk
  obtain ⟨q, run, er⟩ := bucket_run hc.trie k _ _ _ (inpBucketShift c) _ (T.kids _ hb) (hc.top k) hc.shift_succ hc.small
  rw [T.order k hk] at er
  refine ⟨q, ?_, er⟩
  simp only [inpBucket, run_bind, shrKey_run _ hc.shift_lt, Option.bind_some, assertT_run hb]
  rw [cellGet_run (by simp only; rw [T.size]; exact hb)]
  exact run

theorem inpSearch_spec (hc : CfgOk c) {t : InpTrie} (h : TrieOk c m t es) {k : Nat} (hk : k < 2 ^ c.bit) :
    inpSearch c t k m = some (((first es k).map Elem.data).getD 0, m) := by
  obtain ⟨q, run, er⟩ := inpBucket_spec hc h hk
  simp only [inpSearch, run_bind, run, Option.bind_some, run_ite]
  cases hf : es.filter (fun e => e.hash = k) with
  | nil =>
    rw [hf] at er
    have : q = 0 := er.list.head
    rw [if_pos this, ← head_filter, hf]
    rfl
  | cons e M =>
    rw [hf] at er
    have hq : q = e.node := er.list.head
    have ok := er.ok (e := e) (by simp)
    have da := er.data e (by simp)
    subst hq
    rw [if_neg ok.1, onN_run (getData_run ok), da, ← head_filter, hf]
    rfl

theorem walkBucket_spec (hc : CfgOk c) {t : InpTrie} (h : TrieOk c m t es) {k : Nat} (hk : k < 2 ^ c.bit) :
    walkBucket c t k m = some (es.filter fun e => e.hash = k, m) := by
  obtain ⟨q, run, er⟩ := inpBucket_spec hc h hk
  simp only [walkBucket, run_bind, run, Option.bind_some, onN_run er.walk]

/-! ### Histories -/

structure Inv (c : TrieCfg) (s : St) (a : Ab) : Prop where
  live : a.live = s.mem.heap.valid
  liveOk : LiveOk a.live
  node : ∀ p, a.live p = true → s.mem.csize p = c.treeMax ∧ a.busy p = false
  trie : ∀ v es, a.val v = some es → TrieOk c s.mem (s.var v) es
  sep : ∀ v w es es', v ≠ w → a.val v = some es → a.val w = some es' → ∀ x ∈ es.map Elem.node, x ∉ es'.map Elem.node
  bbase : ∀ v, a.busy (s.var v).base = true
  inj : ∀ v w, (s.var v).base = (s.var w).base → v = w
  size : ∀ v, s.mem.csize (s.var v).base = inpBucketMax c

variable {s : St} {a : Ab}

theorem Inv.ok (i : Inv c s a) {p : Ptr} (hp : a.live p = true) : s.mem.heap.ok p := by
  refine ⟨?_, by rw [← i.live]; exact hp⟩
  rintro rfl
  rw [i.liveOk.zero] at hp; exact absurd hp (by simp)

theorem Inv.stored_live (hc : CfgOk c) (i : Inv c s a) {p : Ptr} (h : a.stored p) : a.live p = true := by
  obtain ⟨v, es, hv, hp⟩ := h
  obtain ⟨e, he, rfl⟩ := List.mem_map.1 hp
  obtain ⟨ch, T⟩ := (i.trie v es hv).top
  rw [i.live]; exact (T.ok hc he).1.2

theorem Inv.base_not_live (i : Inv c s a) {p : Ptr} (h : a.live p = true) (v : Nat) : (s.var v).base ≠ p := by
  intro e
  have := (i.node p h).2
  rw [← e, i.bbase] at this
  cases this

theorem Inv.length_lt (i : Inv c s a) (hc : CfgOk c) {v : Nat} {es : List Elem} (hv : a.val v = some es) :
    es.length < 2 ^ (bktBit - 1) := by
  obtain ⟨ch, T⟩ := (i.trie v es hv).top
  have := HashSpec.length_le_of_live i.liveOk T.nodup fun x hx => by
    obtain ⟨e, he, rfl⟩ := List.mem_map.1 hx
    rw [i.live]; exact (T.ok hc he).1.2
  simpa using this

/-- A call which changes only the trie `v` and nodes in no trie. -/
theorem Inv.change (hc : CfgOk c) (i : Inv c s a) {v : Nat} {m' : TMem} {t' : InpTrie} {es' : List Elem}
    {N B : Ptr → Prop} (T' : TrieOk c m' t' es') (hb : t'.base = (s.var v).base)
    (fr : Fr s.mem m' N B) (sz : m'.csize = s.mem.csize)
    (hN : ∀ q, N q → (∃ es, a.val v = some es ∧ q ∈ es.map Elem.node) ∨ ¬ a.stored q)
    (hB : ∀ b, B b → b = (s.var v).base ∨ (∃ es, a.val v = some es ∧ b ∈ es.map Elem.node) ∨
      (¬ a.stored b ∧ a.live b = true))
    (hes : ∀ q ∈ es'.map Elem.node, (∃ es, a.val v = some es ∧ q ∈ es.map Elem.node) ∨ ¬ a.stored q) :
    Inv c ⟨m', upd s.var v t'⟩ { a with val := upd a.val v (some es') } := by
  have nB : ∀ w es, w ≠ v → a.val w = some es → ∀ b, (b = (s.var w).base ∨ b ∈ es.map Elem.node) → ¬ B b := by
    intro w es hw hv b hbw hBb
    rcases hB b hBb with h1 | ⟨es1, h1, h1'⟩ | h1
    · rcases hbw with h2 | h2
      · exact hw (i.inj w v (h2.symm.trans h1))
      · exact i.base_not_live (i.stored_live hc ⟨w, es, hv, h2⟩) v h1.symm
    · rcases hbw with h2 | h2
      · exact i.base_not_live (i.stored_live hc ⟨v, es1, h1, h1'⟩) w h2.symm
      · exact i.sep w v es es1 hw hv h1 b h2 h1'
    · rcases hbw with h2 | h2
      · exact i.base_not_live h1.2 w h2.symm
      · exact h1.1 ⟨w, es, hv, h2⟩
  have bas : ∀ w, (upd s.var v t' w).base = (s.var w).base := by
    intro w
    by_cases e : w = v
    · rw [e, upd_same, hb]
    · rw [upd_ne e]
  refine ⟨by rw [fr.valid]; exact i.live, i.liveOk, ?_, ?_, ?_, ?_, ?_, ?_⟩
  · intro p hp; simp only [sz]; exact i.node p hp
  · intro w es hw
    by_cases e : w = v
    · subst e
      simp only [upd_same, Option.some.injEq] at hw ⊢
      subst hw; exact T'
    · simp only [upd_ne e] at hw ⊢
      refine (i.trie w es hw).congr hc fr ?_ (nB w es e hw)
      intro x hx hNx
      rcases hN _ hNx with ⟨es1, h1, h2⟩ | h1
      · exact i.sep v w es1 es (Ne.symm e) h1 hw _ h2 (List.mem_map_of_mem hx)
      · exact h1 ⟨w, es, hw, List.mem_map_of_mem hx⟩
  · intro w u es1 es2 hne hw hu x hx hx'
    by_cases e : w = v
    · subst e
      have e' : u ≠ w := Ne.symm hne
      simp only [upd_same, upd_ne e', Option.some.injEq] at hw hu
      subst hw
      rcases hes x hx with ⟨es3, h1, h2⟩ | h1
      · exact i.sep w u es3 es2 hne h1 hu x h2 hx'
      · exact h1 ⟨u, es2, hu, hx'⟩
    · simp only [upd_ne e] at hw
      by_cases e' : u = v
      · subst e'
        simp only [upd_same, Option.some.injEq] at hu
        subst hu
        rcases hes x hx' with ⟨es3, h1, h2⟩ | h1
        · exact i.sep w u es1 es3 hne hw h1 x hx h2
        · exact h1 ⟨w, es1, hw, hx⟩
      · simp only [upd_ne e'] at hu
        exact i.sep w u es1 es2 hne hw hu x hx hx'
  · intro w
    show a.busy (upd s.var v t' w).base = true
    rw [bas]; exact i.bbase w
  · intro w u h
    simp only [bas] at h
    exact i.inj w u h
  · intro w
    simp only [bas, sz]; exact i.size w

/-- A client action on a node in no trie. -/
theorem Inv.outside (hc : CfgOk c) (i : Inv c s a) {m' : TMem} {live' : Ptr → Bool} (hl : live' = m'.heap.valid)
    (hk : LiveOk live') (p : Ptr)
    (hn : ∀ q, q ≠ p → SameNode s.mem.heap m'.heap q)
    (ho : ∀ b, b ≠ p → m'.csize b = s.mem.csize b ∧ ∀ j, m'.cell b j = s.mem.cell b j)
    (hs : ¬ a.stored p) (hbusy : a.busy p = false)
    (hlive : ∀ q, live' q = true → m'.csize q = c.treeMax ∧ a.busy q = false) :
    Inv c { s with mem := m' } { a with live := live' } := by
  have pb : ∀ v, (s.var v).base ≠ p := by
    intro v h
    have := i.bbase v
    rw [h, hbusy] at this; cases this
  refine ⟨hl, hk, hlive, ?_, i.sep, i.bbase, i.inj, fun v => (ho _ (pb v)).1.trans (i.size v)⟩
  intro v es hv
  have T := i.trie v es hv
  obtain ⟨ch, T1⟩ := T.top
  refine ⟨⟨ch, { T1 with size := (ho _ (pb v)).1.trans T1.size, kids := ?_ }⟩, T.count⟩
  intro j hj
  rw [(ho _ (pb v)).2]
  refine (T1.kids j hj).congr fun e he => ?_
  have ep : e.node ≠ p := fun h => hs ⟨v, es, hv, h ▸ List.mem_map_of_mem (T1.mem hc hj he)⟩
  exact ⟨hn _ ep, (ho _ ep).1, fun k _ => (ho _ ep).2 k⟩

theorem init_inv (s : St) (a : Ab) (h : (sys c).init s a) : Inv c s a := by
  obtain ⟨h1, h2, h3, h4, h5, h6⟩ := h
  refine ⟨h2, h3, h4, ?_, ?_, fun v => (h5 v).2, h6, fun v => (h5 v).1⟩
  · intro v es hv; rw [h1 v] at hv; cases hv
  · intro v w es es' _ hv; rw [h1 v] at hv; cases hv

omit [Arch] in
theorem call_eq {α : Type} {x : TM α} {res : α → Out} {var : α → Nat → InpTrie} {r : α} {m' : TMem}
    (h : x s.mem = some (r, m')) : call s x res var = some (res r, ⟨m', var r⟩) := by
  unfold call
  rw [h]
  rfl

/-- The invariant and the frame of every legal call. -/
theorem step_inv (hc : CfgOk c) (s : St) (a : Ab) (op : Op) (i : Inv c s a) (hleg : legal c a op) :
    ∃ out s', step c op s = some (out, s') ∧ allowed c a op out ∧ Inv c s' (next a op out) ∧
      (isCall op → Fr s.mem s'.mem (mayNode a op) (mayObj s a op) ∧ ∀ w, ¬ mayVar op w → s'.var w = s.var w) := by
  cases op with
  | init v =>
    obtain ⟨t', m', run, hb, T', sz, fr⟩ := inpInit_spec c (m := s.mem) (t := s.var v) (i.size v)
    have ec := call_eq (res := fun _ => Out.unit) (var := fun t => upd s.var v t) run
    refine ⟨_, _, ec, rfl, ?_, fun _ => ⟨fr.mono (fun _ h => h) (fun _ h => h), fun w hw => upd_ne hw⟩⟩
    exact i.change hc T' hb fr sz (fun _ h => h.elim) (fun b h => Or.inl h) (by simp)
  | insert v p d k =>
    obtain ⟨hv, hl, hs, hk⟩ := hleg
    obtain ⟨es, hv⟩ := Option.isSome_iff_exists.1 hv
    have fresh : p ∉ es.map Elem.node := fun h => hs ⟨v, es, hv, h⟩
    have len := i.length_lt hc hv
    obtain ⟨t', m', run, hb, T', sz, fr⟩ := inpInsert_spec hc (i.trie v es hv) (x := ⟨p, d, k⟩)
      (i.ok hl) (i.node p hl).1 fresh (i.base_not_live hl v) hk (by arch)
    have ec := call_eq (res := fun _ => Out.unit) (var := fun t => upd s.var v t) run
    refine ⟨_, _, ec, rfl, ?_, fun _ => ⟨fr.mono ?_ ?_, fun w hw => upd_ne hw⟩⟩
    · have := i.change hc T' hb fr sz ?_ ?_ ?_
      · simp only [next, Ab.onTrie, hv, Option.map_some]
        exact this
      · rintro q (rfl | ⟨e, he, _, rfl⟩)
        · exact Or.inr hs
        · exact Or.inl ⟨es, hv, List.mem_map_of_mem he⟩
      · rintro b (rfl | h | h)
        · exact Or.inr (Or.inr ⟨hs, hl⟩)
        · exact Or.inl h
        · exact Or.inr (Or.inl ⟨es, hv, h⟩)
      · intro q hq
        rw [List.map_append, List.mem_append] at hq
        rcases hq with hq | hq
        · exact Or.inl ⟨es, hv, hq⟩
        · simp at hq; exact Or.inr (hq ▸ hs)
    · rintro q (hq | ⟨e, he, hh, hq⟩)
      · exact Or.inl hq
      · exact Or.inr ⟨es, hv, e, he, hh, hq⟩
    · rintro b (h | h | h)
      · exact Or.inl h
      · exact Or.inr (Or.inl h)
      · exact Or.inr (Or.inr ⟨es, hv, h⟩)
  | remove v k =>
    obtain ⟨hv, hk⟩ := hleg
    obtain ⟨es, hv⟩ := Option.isSome_iff_exists.1 hv
    obtain ⟨t', m', run, hb, T', sz, fr⟩ := inpRemove_spec hc (i.trie v es hv) hk
    have ec := call_eq (res := fun r => Out.val r.2) (var := fun r => upd s.var v r.1) run
    refine ⟨_, _, ec, ?_, ?_, fun _ => ⟨fr.mono ?_ ?_, fun w hw => upd_ne hw⟩⟩
    · intro es1 h1
      rw [hv] at h1; cases h1; rfl
    · have := i.change hc T' hb fr sz ?_ ?_ ?_
      · simp only [next, Ab.onTrie, hv, Option.map_some]
        exact this
      · rintro q ⟨e, he, _, rfl⟩; exact Or.inl ⟨es, hv, List.mem_map_of_mem he⟩
      · rintro b (h | h)
        · exact Or.inl h
        · exact Or.inr (Or.inl ⟨es, hv, h⟩)
      · intro q hq
        obtain ⟨e, he, rfl⟩ := List.mem_map.1 hq
        exact Or.inl ⟨es, hv, List.mem_map_of_mem (List.mem_of_mem_eraseP he)⟩
    · rintro q ⟨e, he, hh, hq⟩
      exact ⟨es, hv, e, he, hh, hq⟩
    · rintro b (h | h)
      · exact Or.inl h
      · exact Or.inr ⟨es, hv, h⟩
  | removeExisting v p =>
    obtain ⟨es, hv, hp⟩ := hleg
    obtain ⟨e, he, rfl⟩ := List.mem_map.1 hp
    obtain ⟨t', m', run, hb, T', sz, fr⟩ := inpRemoveExisting_spec hc (i.trie v es hv) he
    have ec := call_eq (res := fun r => Out.val r.2) (var := fun r => upd s.var v r.1) run
    refine ⟨_, _, ec, ?_, ?_, fun _ => ⟨fr.mono ?_ ?_, fun w hw => upd_ne hw⟩⟩
    · intro es1 h1
      rw [hv] at h1; cases h1
      exact ⟨e, he, rfl, rfl⟩
    · have := i.change hc T' hb fr sz ?_ ?_ ?_
      · simp only [next, Ab.onTrie, hv, Option.map_some]
        exact this
      · rintro q ⟨e, he, _, rfl⟩; exact Or.inl ⟨es, hv, List.mem_map_of_mem he⟩
      · rintro b (h | h)
        · exact Or.inl h
        · exact Or.inr (Or.inl ⟨es, hv, h⟩)
      · intro q hq
        obtain ⟨e, he, rfl⟩ := List.mem_map.1 hq
        exact Or.inl ⟨es, hv, List.mem_map_of_mem (List.mem_filter.1 he).1⟩
    · rintro q ⟨f, hf, hh, hq⟩
      exact ⟨es, hv, f, hf, e, he, rfl, hh, hq⟩
    · rintro b (h | h)
      · exact Or.inl h
      · exact Or.inr ⟨es, hv, h⟩
  | search v k =>
    obtain ⟨hv, hk⟩ := hleg
    obtain ⟨es, hv⟩ := Option.isSome_iff_exists.1 hv
    have run := inpSearch_spec hc (i.trie v es hv) hk
    have ec := call_eq (res := Out.val) (var := fun _ => s.var) run
    refine ⟨_, _, ec, ?_, i, fun _ => ⟨Fr.refl _ _ _, fun _ _ => rfl⟩⟩
    intro es1 h1; rw [hv] at h1; cases h1; rfl
  | bucket v k =>
    obtain ⟨hv, hk⟩ := hleg
    obtain ⟨es, hv⟩ := Option.isSome_iff_exists.1 hv
    have run := walkBucket_spec hc (i.trie v es hv) hk
    have ec := call_eq (res := Out.elems) (var := fun _ => s.var) run
    refine ⟨_, _, ec, ?_, i, fun _ => ⟨Fr.refl _ _ _, fun _ _ => rfl⟩⟩
    intro es1 h1; rw [hv] at h1; cases h1; rfl
  | count v =>
    refine ⟨_, _, rfl, ?_, i, fun _ => ⟨Fr.refl _ _ _, fun _ _ => rfl⟩⟩
    intro es hv
    rw [inpCount, (i.trie v es hv).count]
  | memoryUsage v =>
    refine ⟨_, _, rfl, ?_, i, fun _ => ⟨Fr.refl _ _ _, fun _ _ => rfl⟩⟩
    intro es hv
    have T := i.trie v es hv
    have e : inpNodeSize c = ptrSize * (c.treeMax + 4) := by unfold inpNodeSize; arch
    simp only [inpMemoryUsage, inpCount, T.count, sizeT, e]
  | alloc p =>
    obtain ⟨hf, hbu⟩ := hleg
    have hnl : ¬ a.stored p := by
      intro h
      have h := i.stored_live hc h
      have h' : (p : Nat) + nodeSize ≤ p ∨ (p : Nat) + nodeSize ≤ p := hf.2.2 p h
      rcases h' with h' | h' <;> exact absurd h' (Nat.not_le_of_lt (Nat.lt_add_of_pos_right (by arch)))
    refine ⟨_, _, rfl, rfl, ?_, fun h => h.elim⟩
    refine i.outside hc (by rw [i.live]) (i.liveOk.alloc hf) p ?_ ?_ hnl hbu ?_
    · intro q hq
      refine ⟨fun h => ⟨h.1, ?_⟩, rfl, rfl, rfl, rfl⟩
      show upd s.mem.heap.valid p true q = true
      rw [upd_ne hq]; exact h.2
    · intro b hb; exact ⟨upd_ne hb, fun _ => rfl⟩
    · intro q hq
      show upd s.mem.csize p c.treeMax q = c.treeMax ∧ _
      by_cases h : q = p
      · rw [h, upd_same]; exact ⟨rfl, hbu⟩
      · rw [upd_ne h] at hq ⊢; exact i.node q hq
  | free p =>
    obtain ⟨hl, hs⟩ := hleg
    refine ⟨_, _, rfl, rfl, ?_, fun h => h.elim⟩
    refine i.outside hc (by rw [i.live]) (i.liveOk.free p) p ?_ ?_ hs (i.node p hl).2 ?_
    · intro q hq
      refine ⟨fun h => ⟨h.1, ?_⟩, rfl, rfl, rfl, rfl⟩
      show upd s.mem.heap.valid p false q = true
      rw [upd_ne hq]; exact h.2
    · intro b hb; exact ⟨upd_ne hb, fun _ => rfl⟩
    · intro q hq
      show upd s.mem.csize p 0 q = c.treeMax ∧ _
      by_cases h : q = p
      · rw [h, upd_same] at hq; cases hq
      · rw [upd_ne h] at hq ⊢; exact i.node q hq
  | scribble p n pr d k f =>
    obtain ⟨hl, hs⟩ := hleg
    refine ⟨_, _, rfl, rfl, ?_, fun h => h.elim⟩
    refine i.outside hc i.live i.liveOk p
      (fun q hq => ⟨id, upd_ne hq, upd_ne hq, upd_ne hq, upd_ne hq⟩) ?_ hs (i.node p hl).2 i.node
    intro b hb
    refine ⟨rfl, fun j => ?_⟩
    show upd s.mem.cell p f b j = _
    rw [upd_ne hb]

theorem reach_inv (hc : CfgOk c) : ∀ s a, (sys c).Reach s a → Inv c s a :=
  Sys.reach_inv (fun s a h => init_inv s a h) fun s a op i hl =>
    let ⟨out, s', e, al, i', _⟩ := step_inv hc s a op i hl
    ⟨out, s', e, al, i'⟩

theorem correct (hc : CfgOk c) : (sys c).Correct :=
  Sys.correct_of_inv (fun s a h => init_inv s a h) fun s a op i hl =>
    let ⟨out, s', e, al, i', _⟩ := step_inv hc s a op i hl
    ⟨out, s', e, al, i'⟩

end InpSpec
end Tommy
