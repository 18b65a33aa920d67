import Verif.Proof.HashProps
/-! Amortized cost of the resizes of tommy_hashdyn, and of the moves of nodes in tommy_hashlin. -/
set_option linter.unusedSimpArgs false
namespace Tommy

variable [Arch]
namespace HashSpec

/-! ### tommy_hashlin -/

/-- The part of the potential which depends only on the counters. -/
def Num.mpot (n : Num) : Nat :=
  3 * (n.count - 2 ^ n.bit / 4) +
    if n.bit = 6 then 0 else if n.state = .shrink then 2 ^ n.bit / 8 - n.count else 2 ^ n.bit / 4 - n.count

omit [Arch] in
theorem Num.insert_mpot {n : Num} (i : n.Inv) :
    if n.state = .stable ∧ n.count + 1 > 2 ^ n.bit / 2 then n.insert.mpot + (n.count + 1) ≤ n.mpot + 4
    else n.insert.mpot ≤ n.mpot + 3 := by
  obtain ⟨bit, split, count, work, state⟩ := n
  obtain ⟨i1, i2, i3, i4⟩ := i
  cases state with
  | stable =>
    obtain ⟨a, b, c⟩ := i2 rfl
    simp only at a b c i1
    obtain ⟨d, hd, hd0⟩ := pow_64 i1
    by_cases h : count + 1 > 2 ^ bit / 2
    · have hlt : ¬ (2 ^ bit ≤ 2 * (count + 1) - 2 ^ bit) := by omega
      simp only [Num.insert, Num.growStep, Num.growStart, Num.growTo, Num.low, ne_eq, reduceCtorEq, not_false_eq_true,
        h, and_self, if_true, if_false, Nat.add_sub_cancel, Nat.sub_zero, Nat.add_zero, hlt, Num.mpot]
      rw [Nat.pow_succ, if_neg (by omega)]
      split_ifs <;> omega
    · simp only [Num.insert, Num.growStep, Num.growStart, ne_eq, reduceCtorEq, not_false_eq_true,
        h, and_false, if_false, Num.mpot]
      split_ifs <;> omega
  | grow =>
    obtain ⟨a, b, c, d, e⟩ := i3 rfl
    simp only [Num.low, reduceCtorEq, if_false] at a b c d e i1
    simp only [Num.insert, Num.growStep, Num.growStart, Num.growTo, Num.low, ne_eq, reduceCtorEq, not_true_eq_false,
      false_and, if_true, if_false, Num.mpot]
    split
    · simp only [reduceCtorEq, if_false]; split_ifs <;> omega
    · simp only [reduceCtorEq, if_false]; split_ifs <;> omega
  | shrink =>
    obtain ⟨a, b, c, d, e⟩ := i4 rfl
    simp only [Num.low, reduceCtorEq, if_false] at a b c d e i1
    obtain ⟨f, hf, hf0⟩ := pow_64 (k := bit - 1) (by omega)
    have hb := pow_half (k := bit) (by omega)
    by_cases h : count + 1 > 2 ^ bit / 2
    · have hlt : 2 ^ (bit - 1) - split ≤ 2 * (count + 1) - (2 ^ (bit - 1) + split) := by omega
      simp only [Num.insert, Num.growStep, Num.growStart, Num.growTo, Num.low, ne_eq, reduceCtorEq, not_false_eq_true,
        h, and_self, if_true, if_false, hlt, Num.mpot, false_and]
      split_ifs <;> omega
    · simp only [Num.insert, Num.growStep, Num.growStart, ne_eq, reduceCtorEq, not_false_eq_true,
        h, and_false, if_false, if_true, Num.mpot, Num.low]
      split_ifs <;> omega

omit [Arch] in
theorem Num.remove_mpot {n : Num} (i : n.Inv) (h0 : 0 < n.count) :
    n.remove.mpot + (if n.remove.state = .shrink ∧ n.state ≠ .shrink then n.remove.count else 0) ≤ n.mpot + 1 ∧
    n.remove.count = n.count - 1 ∧
    (n.remove.state = .grow → n.state = .grow ∧ n.remove.split = n.split ∧ n.remove.bit = n.bit) := by
  obtain ⟨bit, split, count, work, state⟩ := n
  obtain ⟨i1, i2, i3, i4⟩ := i
  simp only at h0
  have hB : hashlinBIT = 6 := rfl
  cases state with
  | stable =>
    obtain ⟨a, b, c⟩ := i2 rfl
    simp only at a b c i1
    obtain ⟨d, hd, hd0⟩ := pow_64 i1
    by_cases h : count - 1 < 2 ^ bit / 8
    · by_cases h6 : bit > hashlinBIT
      · have h6' : 6 < bit := h6
        have hb := pow_half (k := bit) (by omega)
        obtain ⟨f, hf, hf0⟩ := pow_64 (k := bit - 1) (by omega)
        have hlt : ¬ (2 ^ bit / 2 ≤ 2 ^ (bit - 1) + 2 ^ bit / 2 - 8 * (count - 1)) := by omega
        simp only [Num.remove, Num.shrinkStep, Num.shrinkStart, Num.shrinkTo, Num.low, ne_eq, reduceCtorEq,
          not_false_eq_true, h, h6, and_self, if_true, if_false, hlt, Num.mpot]
        refine ⟨?_, trivial, by simp⟩
        split_ifs <;> omega
      · simp only [Num.remove, Num.shrinkStep, Num.shrinkStart, ne_eq, reduceCtorEq, not_false_eq_true,
          h, h6, and_self, if_true, if_false, Num.mpot, false_and]
        refine ⟨?_, trivial, by simp⟩
        split_ifs <;> omega
    · simp only [Num.remove, Num.shrinkStep, Num.shrinkStart, ne_eq, reduceCtorEq, not_false_eq_true,
        h, and_false, if_false, Num.mpot, false_and]
      refine ⟨?_, trivial, by simp⟩
      split_ifs <;> omega
  | grow =>
    obtain ⟨a, b, c, d, e⟩ := i3 rfl
    simp only [Num.low, reduceCtorEq, if_false] at a b c d e i1
    obtain ⟨f, hf, hf0⟩ := pow_64 (k := bit - 1) (by omega)
    have hb := pow_half (k := bit) (by omega)
    have h6 : bit > hashlinBIT := a
    by_cases h : count - 1 < 2 ^ bit / 8
    · simp only [Num.remove, Num.shrinkStep, Num.shrinkStart, Num.shrinkTo, Num.low, ne_eq, reduceCtorEq,
        not_false_eq_true, h, h6, and_self, if_true, if_false, Num.mpot]
      split
      · simp only [reduceCtorEq, if_false, false_and, false_implies, and_true]
        split_ifs <;> omega
      · simp only [if_true, reduceCtorEq, if_false, not_false_eq_true, and_self, false_implies, and_true]
        split_ifs <;> omega
    · simp only [Num.remove, Num.shrinkStep, Num.shrinkStart, ne_eq, reduceCtorEq, not_false_eq_true,
        h, and_false, if_false, Num.mpot, false_and]
      refine ⟨?_, trivial, by simp⟩
      split_ifs <;> omega
  | shrink =>
    obtain ⟨a, b, c, d, e⟩ := i4 rfl
    simp only [Num.low, reduceCtorEq, if_false] at a b c d e i1
    obtain ⟨f, hf, hf0⟩ := pow_64 (k := bit - 1) (by omega)
    have hb := pow_half (k := bit) (by omega)
    simp only [Num.remove, Num.shrinkStep, Num.shrinkStart, Num.shrinkTo, Num.low, ne_eq, reduceCtorEq,
      not_true_eq_false, false_and, and_false, if_true, if_false, Num.mpot]
    split
    · simp only [reduceCtorEq, if_false, false_implies, and_true]
      split_ifs <;> omega
    · simp only [if_true, reduceCtorEq, if_false, false_implies, and_true]
      split_ifs <;> omega

omit [Arch] in
theorem pend_sublist {t : Hashlin} {es es' : List Elem} (h : es'.Sublist es) : pend t es' ≤ pend t es := by
  unfold pend
  cases t.state with
  | stable => exact Nat.le_refl _
  | grow => exact (h.filter _).length_le
  | shrink => exact h.length_le

/-- What the removal of a stored element does to the potential. -/
theorem pend_remove {m0 : Mem} {s : St Hashlin} {a : Ab} (i : Inv (LinInv m0) s a) {t' : Hashlin} {m' : Mem} {es' : List Elem}
    (i' : LinInv m0 t' m' es') (hn : Hashlin.num t' = (Hashlin.num s.tbl).remove) (hs : es'.Sublist a.elems)
    (h0 : 0 < a.elems.length) :
    pend t' es' + (Hashlin.num t').mpot ≤ pend s.tbl a.elems + (Hashlin.num s.tbl).mpot + 1 := by
  have hc : (Hashlin.num s.tbl).count = a.elems.length := i.p.count
  obtain ⟨h1, h2, h3⟩ := Num.remove_mpot i.p.num (by rw [hc]; exact h0)
  rw [← hn] at h1 h2 h3
  have hc' : (Hashlin.num t').count = es'.length := i'.count
  have hst : ∀ t : Hashlin, (Hashlin.num t).state = t.state := fun _ => rfl
  rw [hst, hst, hc'] at h1
  suffices hp : pend t' es' ≤ pend s.tbl a.elems +
      (if t'.state = .shrink ∧ s.tbl.state ≠ .shrink then es'.length else 0) by omega
  cases e : t'.state with
  | stable => simp [pend, e]
  | grow =>
    obtain ⟨g1, g2, g3⟩ := h3 e
    have hl : t'.lowMax = s.tbl.lowMax := by
      rw [i'.low, i.p.low]; unfold Num.low; rw [g3, g1, hst, e]
    have hsp : t'.split = s.tbl.split := g2
    have : pend t' es' = pend s.tbl es' := by
      have g1' : s.tbl.state = .grow := g1
      simp only [pend, e, g1', hl, hsp]
    rw [this]
    exact Nat.le_add_right_of_le (pend_sublist hs)
  | shrink =>
    by_cases hsh : s.tbl.state = .shrink
    · simp only [pend, e, hsh]
      exact Nat.le_add_right_of_le hs.length_le
    · simp [pend, e, hsh]

theorem lin_step_moved {m0 : Mem} {s : St Hashlin} {a : Ab} (i : Inv (LinInv m0) s a) {op : Op} (hleg : legal a op)
    {out : Out} {s' : St Hashlin} (e : step hashlinImpl op s = some (out, s')) (i' : Inv (LinInv m0) s' (next a op out)) :
    s'.tbl.moved + pend s'.tbl (next a op out).elems + (Hashlin.num s'.tbl).mpot ≤
      s.tbl.moved + pend s.tbl a.elems + (Hashlin.num s.tbl).mpot + movedCost op := by
  obtain ⟨hn, hm⟩ := lin_step_num i hleg e
  have hc : (Hashlin.num s.tbl).count = a.elems.length := i.p.count
  have hmax : s.tbl.bucketMax = 2 ^ (Hashlin.num s.tbl).bit := i.p.max
  have hst : (Hashlin.num s.tbl).state = s.tbl.state := rfl
  have same : ∀ {x : Nat}, Hashlin.num s'.tbl = Hashlin.num s.tbl → s'.tbl.moved = s.tbl.moved →
      (next a op out).elems = a.elems →
      s'.tbl.moved + pend s'.tbl (next a op out).elems + (Hashlin.num s'.tbl).mpot ≤
      s.tbl.moved + pend s.tbl a.elems + (Hashlin.num s.tbl).mpot + x := by
    intro x h1 h2 h3
    have hl : s'.tbl.lowMax = s.tbl.lowMax := by rw [i'.p.low, i.p.low, h1]
    have hs : s'.tbl.split = s.tbl.split := congrArg Num.split h1
    have ht : s'.tbl.state = s.tbl.state := congrArg Num.state h1
    have : pend s'.tbl a.elems = pend s.tbl a.elems := by simp only [pend, hl, hs, ht]
    rw [h1, h2, h3, this]; omega
  cases op with
  | insert p d h =>
    simp only at hn hm
    have hs := Num.insert_mpot i.p.num
    rw [hst, hc, ← hmax] at hs
    have hcc : s.tbl.count = a.elems.length := i.p.count
    rw [hcc] at hm
    simp only [next, movedCost, hn]
    by_cases hf : s.tbl.state = .stable ∧ a.elems.length + 1 > s.tbl.bucketMax / 2
    · rw [if_pos hf] at hm hs; omega
    · rw [if_neg hf] at hm hs; omega
  | remove cmp h =>
    simp only at hn hm
    cases hf : a.elems.find? (hit cmp h) with
    | none =>
      rw [hf] at hn
      refine same (by simpa using hn) hm ?_
      simp only [next]
      exact List.eraseP_of_forall_not fun x hx => by
        have := List.find?_eq_none.1 hf x hx; simpa using this
    | some x =>
      rw [hf] at hn
      have := pend_remove i i'.p (by simpa using hn) List.eraseP_sublist
        (List.length_pos_of_mem (List.mem_of_find?_eq_some hf))
      rw [hm]; simp only [movedCost]; omega
  | removeExisting p =>
    simp only at hn hm
    obtain ⟨x, hx, _⟩ := List.mem_map.1 hleg
    have := pend_remove i i'.p hn List.filter_sublist (List.length_pos_of_mem hx)
    rw [hm]; simp only [movedCost]; omega
  | search | bucket | count | alloc | free | scribble => exact same hn hm rfl

theorem lin_moved {m0 : Mem} {s : St Hashlin} {a : Ab} {n : Nat} (h : (linSys m0).ReachCost movedCost s a n) :
    s.tbl.moved + pend s.tbl a.elems + (Hashlin.num s.tbl).mpot ≤ n := by
  induction h with
  | init hi =>
    obtain ⟨h0, e, ha, _⟩ := hi
    obtain ⟨t, m, e1, _, _, hn, hm⟩ := hashlinInit_spec h0
    rw [e] at e1
    simp only [Option.some.injEq, Prod.mk.injEq] at e1
    obtain ⟨rfl, rfl⟩ := e1
    have hst : (Hashlin.num _).state = _ := congrArg Num.state hn
    rw [hm, hn]
    simp only [Hashlin.num] at hst
    simp [Num.mpot, pend, hst]
  | step hr hl e ih =>
    have i := (linSys_correct m0).2 _ _ hr.reach
    have i' := (linSys_correct m0).2 _ _ (.step hr.reach hl e)
    have := lin_step_moved i hl e i'
    simp only [sys] at this ⊢
    omega

/-! ### tommy_hashdyn -/

abbrev dynSys (m0 : Mem) := sys hashdynImpl hashdynInit m0

/-- The potential of a tommy_hashdyn with `n` elements. -/
def dynPot (max n : Nat) : Nat := 6 * (n - max / 4) + if max = 16 then 0 else 4 * (max / 4 - n)

/-- How a call changes the number of buckets and the work. -/
theorem dyn_step {m0 : Mem} {s : St Hashdyn} {a : Ab} (i : Inv (DynInv m0) s a) {op : Op} (hleg : legal a op)
    {out : Out} {s' : St Hashdyn} (e : step hashdynImpl op s = some (out, s')) :
    (s'.tbl.bucketMax = s.tbl.bucketMax ∧ s'.tbl.work = s.tbl.work) ∨
    ((∃ p d h, op = .insert p d h) ∧ s'.tbl.bucketMax = 2 * s.tbl.bucketMax ∧ s.tbl.bucketMax = 2 * (a.elems.length + 1) ∧
      s'.tbl.work = s.tbl.work + (s.tbl.bucketMax + (a.elems.length + 1))) ∨
    (((∃ cmp h, op = .remove cmp h ∧ (a.elems.find? (hit cmp h)).isSome) ∨ ∃ p, op = .removeExisting p) ∧
      s.tbl.bucketMax = 2 * s'.tbl.bucketMax ∧ 16 < s.tbl.bucketMax ∧ 8 * (a.elems.length - 1) ≤ s.tbl.bucketMax ∧
      s'.tbl.work = s.tbl.work + s'.tbl.bucketMax) := by
  have ho := hashdyn_ok m0
  have hlen := i.length_le ho
  cases op with
  | insert p d h =>
    obtain ⟨hp, hns⟩ := hleg
    have hlen' : a.elems.length + 1 < 2 ^ (bktBit - 1) := by
      have := length_le_of_live i.liveOk (xs := p :: a.elems.map Elem.node)
        (List.nodup_cons.2 ⟨hns, ho.nodup i.p⟩) (fun x hx => by
          rcases List.mem_cons.1 hx with rfl | hx
          · exact hp
          · obtain ⟨e, he, rfl⟩ := List.mem_map.1 hx
            rw [i.live]; exact (ho.ok i.p e he).2)
      simpa using this
    obtain ⟨t', m', e1, _, w, _⟩ := DynInv.insert d h i.p (i.ok hp) hns hlen'
    simp only [step, hashdynImpl, e1, Option.map_some, Option.some.injEq, Prod.mk.injEq] at e
    obtain ⟨rfl, rfl⟩ := e
    rcases w with w | w
    · exact Or.inl w
    · exact Or.inr (Or.inl ⟨⟨_, _, _, rfl⟩, w⟩)
  | remove cmp h =>
    cases hf : a.elems.find? (hit cmp h) with
    | none =>
      simp only [step, ho.remove_none i.p hf, Option.map_some, Option.some.injEq, Prod.mk.injEq] at e
      obtain ⟨rfl, rfl⟩ := e
      exact Or.inl ⟨rfl, rfl⟩
    | some x =>
      obtain ⟨he, hh⟩ := hit_of_find hf
      obtain ⟨t', m', e1, _, w, _⟩ := i.p.removeNode he
      obtain ⟨p, hp, ef⟩ := i.p.flat.findNode cmp h
      rw [hf] at ef
      have h0 : x.node ≠ 0 := (i.p.flat.ok x he).1
      simp only [step, hashdynImpl, hashdynRemove, i.p.and_mask] at e
      rw [run_bind, readRef_run hp, Option.bind_some, run_bind, ef, Option.bind_some] at e
      simp only [Option.map_some, Option.getD_some, ne_eq, h0, not_false_eq_true, if_true] at e
      rw [← hh] at e
      rw [e1] at e
      simp only [Option.map_some, Option.some.injEq, Prod.mk.injEq] at e
      obtain ⟨rfl, rfl⟩ := e
      rcases w with w | w
      · exact Or.inl w
      · exact Or.inr (Or.inr ⟨Or.inl ⟨_, _, rfl, by rw [hf]; rfl⟩, w⟩)
  | removeExisting p =>
    obtain ⟨x, he, rfl⟩ := List.mem_map.1 hleg
    obtain ⟨t', m', e1, _, w, _⟩ := i.p.removeNode he
    obtain ⟨B, bi⟩ := i.p.flat.binv
    simp only [step, hashdynImpl, hashdynRemoveExisting] at e
    rw [run_bind, onNodes_run (getIndex_run (i.p.flat.ok x he)), bi.index he] at e
    simp only [Option.bind_some, i.p.and_mask] at e
    rw [e1] at e
    simp only [Option.map_some, Option.some.injEq, Prod.mk.injEq] at e
    obtain ⟨rfl, rfl⟩ := e
    rcases w with w | w
    · exact Or.inl w
    · exact Or.inr (Or.inr ⟨Or.inr ⟨_, rfl⟩, w⟩)
  | search cmp h =>
    simp only [step, ho.search cmp h i.p, Option.map_some, Option.some.injEq, Prod.mk.injEq] at e
    obtain ⟨rfl, rfl⟩ := e; exact Or.inl ⟨rfl, rfl⟩
  | bucket h =>
    obtain ⟨l, e1, _⟩ := ho.bucket h i.p
    simp only [step, e1, Option.map_some, Option.some.injEq, Prod.mk.injEq] at e
    obtain ⟨rfl, rfl⟩ := e; exact Or.inl ⟨rfl, rfl⟩
  | count | alloc | free | scribble =>
    simp only [step, Option.some.injEq, Prod.mk.injEq] at e
    obtain ⟨rfl, rfl⟩ := e; exact Or.inl ⟨rfl, rfl⟩

theorem DynInv.max16 {m0 m : Mem} {t : Hashdyn} {es : List Elem} (i : DynInv m0 t m es) : ∃ c, t.bucketMax = 16 * c ∧ 0 < c := by
  refine ⟨2 ^ (t.bucketBit - 4), ?_, Nat.two_pow_pos _⟩
  rw [i.max]
  have : t.bucketBit = 4 + (t.bucketBit - 4) := by have := i.bit; omega
  conv => lhs; rw [this, Nat.pow_add]

theorem DynInv.low16 {m0 m : Mem} {t : Hashdyn} {es : List Elem} (i : DynInv m0 t m es) :
    t.bucketMax = 16 ∨ t.bucketMax < 8 * es.length := by
  rcases i.low with h | h
  · left; rw [i.max, h]; rfl
  · exact Or.inr h

theorem length_next {m0 : Mem} {s : St Hashdyn} {a : Ab} (i : Inv (DynInv m0) s a) {op : Op} (hleg : legal a op) (out : Out) :
    (next a op out).elems.length = match op with
      | .insert _ _ _ => a.elems.length + 1
      | .remove cmp h => if (a.elems.find? (hit cmp h)).isSome then a.elems.length - 1 else a.elems.length
      | .removeExisting _ => a.elems.length - 1
      | _ => a.elems.length := by
  cases op with
  | insert p d h => simp [next]
  | remove cmp h =>
    simp only [next]
    cases hf : a.elems.find? (hit cmp h) with
    | none =>
      simp only [Option.isSome_none, Bool.false_eq_true, if_false]
      rw [List.eraseP_of_forall_not fun x hx => by
        have := List.find?_eq_none.1 hf x hx; simpa using this]
    | some x =>
      simp only [Option.isSome_some, if_true]
      exact List.length_eraseP_of_mem (List.mem_of_find?_eq_some hf) (List.find?_some hf)
  | removeExisting p =>
    obtain ⟨x, he, rfl⟩ := List.mem_map.1 hleg
    exact (length_filter_node i.p.flat.nodup he).1
  | search | bucket | count | alloc | free | scribble => rfl

theorem dyn_step_work {m0 : Mem} {s : St Hashdyn} {a : Ab} (i : Inv (DynInv m0) s a) {op : Op} (hleg : legal a op)
    {out : Out} {s' : St Hashdyn} (e : step hashdynImpl op s = some (out, s')) :
    s'.tbl.work + dynPot s'.tbl.bucketMax (next a op out).elems.length ≤
      s.tbl.work + dynPot s.tbl.bucketMax a.elems.length + dynCost op := by
  obtain ⟨c, hc, hc0⟩ := i.p.max16
  have hload := i.p.load
  have hlow := i.p.low16
  have hl := length_next i hleg out
  rcases dyn_step i hleg e with ⟨h1, h2⟩ | ⟨⟨p, d, h, rfl⟩, h1, h2, h3⟩ | ⟨ho, h1, h2, h3, h4⟩
  · rw [h1, h2]
    unfold dynPot
    cases op with
    | insert p d h => simp only [hl, dynCost]; split_ifs <;> omega
    | remove cmp h => simp only [hl, dynCost]; split_ifs <;> omega
    | removeExisting p => simp only [hl, dynCost]; split_ifs <;> omega
    | search | bucket | count | alloc | free | scribble => simp only [hl, dynCost]; split_ifs <;> omega
  · simp only [hl, dynCost, dynPot]
    split_ifs <;> omega
  · have hl' : (next a op out).elems.length = a.elems.length - 1 ∧ dynCost op = 4 := by
      rcases ho with ⟨cmp, h, rfl, hs⟩ | ⟨p, rfl⟩
      · rw [hl]; exact ⟨if_pos hs, rfl⟩
      · exact ⟨hl, rfl⟩
    rw [hl'.1, hl'.2]
    unfold dynPot
    split_ifs <;> omega

theorem dyn_work {m0 : Mem} {s : St Hashdyn} {a : Ab} {n : Nat} (h : (dynSys m0).ReachCost dynCost s a n) :
    s.tbl.work + dynPot s.tbl.bucketMax a.elems.length ≤ n := by
  induction h with
  | init hi =>
    obtain ⟨h0, e, ha, _⟩ := hi
    simp only [hashdynInit, shlT, hashdynBIT, vcalloc, run_bind, run_pure] at e
    simp [show 4 < sizeBit by arch] at e
    rw [← e.1, ha]
    simp [dynPot]
  | step hr hl e ih =>
    have i := (dynSys_correct m0).2 _ _ hr.reach
    have := dyn_step_work i hl e
    simp only [sys] at this ⊢
    omega

end HashSpec
end Tommy
