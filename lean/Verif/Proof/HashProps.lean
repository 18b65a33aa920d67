import Verif.Proof.LinPath
/-! The properties of the hashtables that follow from the invariants. -/
set_option linter.unusedSimpArgs false
namespace Tommy

variable [Arch]
namespace HashSpec

section generic
variable {T : Type} {I : Impl T} {m0 : Mem} {P : T → Mem → List Elem → Prop}

theorem step_frame (ho : ImplOk I m0 P) {s : St T} {a : Ab} (i : Inv P s a) {op : Op} (hleg : legal a op)
    (hc : isCall op) {out : Out} {s' : St T} (e : step I op s = some (out, s')) :
    s'.mem.heap.valid = s.mem.heap.valid ∧ ∀ q, ¬ mayWrite a op q → SameNode s.mem.heap s'.mem.heap q := by
  have hlen := i.length_le ho
  cases op with
  | insert p d h =>
    obtain ⟨hp, hns⟩ := hleg
    have hok := i.ok hp
    have hlen' : a.elems.length + 1 < 2 ^ (bktBit - 1) := by
      have := length_le_of_live i.liveOk (xs := p :: a.elems.map Elem.node)
        (List.nodup_cons.2 ⟨hns, ho.nodup i.p⟩) (fun x hx => by
          rcases List.mem_cons.1 hx with rfl | hx
          · exact hp
          · obtain ⟨e, he, rfl⟩ := List.mem_map.1 hx
            rw [i.live]; exact (ho.ok i.p e he).2)
      simpa using this
    obtain ⟨t', m', e1, p', v, S⟩ := ho.insert d h i.p hok hns hlen'
    simp only [step, e1, Option.map_some, Option.some.injEq, Prod.mk.injEq] at e
    obtain ⟨rfl, rfl⟩ := e
    exact ⟨v, fun q hq => S q (fun h => hq (Or.inr h)) (fun h => hq (Or.inl h))⟩
  | remove cmp h =>
    cases hf : a.elems.find? (hit cmp h) with
    | none =>
      simp only [step, ho.remove_none i.p hf, Option.map_some, Option.some.injEq, Prod.mk.injEq] at e
      obtain ⟨rfl, rfl⟩ := e
      exact ⟨rfl, fun q _ => SameNode.refl _ _⟩
    | some x =>
      obtain ⟨t', m', e1, p', v, S⟩ := ho.remove_some i.p hf hlen
      simp only [step, e1, Option.map_some, Option.some.injEq, Prod.mk.injEq] at e
      obtain ⟨rfl, rfl⟩ := e
      exact ⟨v, fun q hq => S q (fun h => hq (Or.inl h))⟩
  | removeExisting p =>
    obtain ⟨x, he, rfl⟩ := List.mem_map.1 hleg
    obtain ⟨t', m', e1, p', v, S⟩ := ho.removeExisting i.p he hlen
    simp only [step, e1, Option.map_some, Option.some.injEq, Prod.mk.injEq] at e
    obtain ⟨rfl, rfl⟩ := e
    exact ⟨v, fun q hq => S q (fun h => hq (Or.inl h))⟩
  | search cmp h =>
    simp only [step, ho.search cmp h i.p, Option.map_some, Option.some.injEq, Prod.mk.injEq] at e
    obtain ⟨rfl, rfl⟩ := e
    exact ⟨rfl, fun q _ => SameNode.refl _ _⟩
  | bucket h =>
    obtain ⟨l, e1, _⟩ := ho.bucket h i.p
    simp only [step, e1, Option.map_some, Option.some.injEq, Prod.mk.injEq] at e
    obtain ⟨rfl, rfl⟩ := e
    exact ⟨rfl, fun q _ => SameNode.refl _ _⟩
  | count =>
    simp only [step, Option.some.injEq, Prod.mk.injEq] at e
    obtain ⟨rfl, rfl⟩ := e
    exact ⟨rfl, fun q _ => SameNode.refl _ _⟩
  | alloc p => exact hc.elim
  | free p => exact hc.elim
  | scribble => exact hc.elim

end generic

theorem tblSys_correct {n : Nat} (hn : n ≤ maxBuckets) (m0 : Mem) :
    (sys hashtableImpl (hashtableInit n) m0).Correct ∧
      ∀ s a, (sys hashtableImpl (hashtableInit n) m0).Reach s a → Inv (TblInv m0) s a :=
  correct (hashtable_ok m0) (fun h0 => by
    obtain ⟨t, m, e, i, h, _⟩ := hashtableInit_spec hn h0
    exact ⟨t, m, e, i, h⟩)

theorem dynSys_correct (m0 : Mem) : (sys hashdynImpl hashdynInit m0).Correct ∧
    ∀ s a, (sys hashdynImpl hashdynInit m0).Reach s a → Inv (DynInv m0) s a :=
  correct (hashdyn_ok m0) (fun h0 => by
    obtain ⟨t, m, e, i, h⟩ := hashdynInit_spec h0
    exact ⟨t, m, e, i, h⟩)

/-! ### hashlin: how a call changes the counters -/

theorem lin_step_num {m0 : Mem} {s : St Hashlin} {a : Ab} (i : Inv (LinInv m0) s a) {op : Op} (hleg : legal a op)
    {out : Out} {s' : St Hashlin} (e : step hashlinImpl op s = some (out, s')) :
    (Hashlin.num s'.tbl = match op with
      | .insert _ _ _ => (Hashlin.num s.tbl).insert
      | .remove cmp h => if (a.elems.find? (hit cmp h)).isSome then (Hashlin.num s.tbl).remove else Hashlin.num s.tbl
      | .removeExisting _ => (Hashlin.num s.tbl).remove
      | _ => Hashlin.num s.tbl) ∧ (match op with
      | .insert p d h =>
          if s.tbl.state = .stable ∧ s.tbl.count + 1 > s.tbl.bucketMax / 2 then
            s'.tbl.moved + pend s'.tbl (a.elems ++ [⟨p, d, h⟩]) = s.tbl.moved + (a.elems.length + 1)
          else s'.tbl.moved + pend s'.tbl (a.elems ++ [⟨p, d, h⟩]) ≤ s.tbl.moved + (pend s.tbl a.elems + 1)
      | _ => s'.tbl.moved = s.tbl.moved) := by
  have ho := hashlin_ok m0
  have hlen := i.length_le ho
  cases op with
  | insert p d h =>
    obtain ⟨hp, hns⟩ := hleg
    have hlen' : a.elems.length + 1 < 2 ^ (bktBit - 1) := by
      have := length_le_of_live i.liveOk (xs := p :: a.elems.map Elem.node)
        (List.nodup_cons.2 ⟨hns, ho.nodup i.p⟩) (fun x hx => by
          rcases List.mem_cons.1 hx with rfl | hx
          · exact hp
          · obtain ⟨e, he, rfl⟩ := List.mem_map.1 hx
            rw [i.live]; exact (ho.ok i.p e he).2)
      simpa using this
    obtain ⟨t', m', e1, _, n', mv', _⟩ := LinInv.insert i.p (i.ok hp) hns d h hlen'
    simp only [step, hashlinImpl, e1, Option.map_some, Option.some.injEq, Prod.mk.injEq] at e
    obtain ⟨rfl, rfl⟩ := e
    exact ⟨n', mv'⟩
  | remove cmp h =>
    cases hf : a.elems.find? (hit cmp h) with
    | none =>
      simp only [step, ho.remove_none i.p hf, Option.map_some, Option.some.injEq, Prod.mk.injEq] at e
      obtain ⟨rfl, rfl⟩ := e
      simp only [hf, Option.isSome_none, Bool.false_eq_true, if_false, and_self]
    | some x =>
      have hx := List.mem_of_find?_eq_some hf
      have hh := hit_hash (List.find?_some hf)
      obtain ⟨t', m', e1, _, n', mv', _⟩ := LinInv.removeNode i.p hx hlen
      obtain ⟨B, b⟩ := i.p.binv
      obtain ⟨p, hp, ef⟩ := b.findNode cmp h
      rw [hf] at ef
      simp only [Option.map_some, Option.getD_some] at ef
      have h0 : x.node ≠ 0 := (b.ok hx).1
      simp only [step, hashlinImpl, hashlinRemove] at e
      rw [hh, run_bind, i.p.toLinBase.bucketRef] at e1
      rw [run_bind, i.p.toLinBase.bucketRef] at e
      simp only [Option.bind_some, run_bind, readRef_run hp, ef, h0, ne_eq, not_false_eq_true, if_true] at e e1
      rw [e1] at e
      simp only [Option.map_some, Option.some.injEq, Prod.mk.injEq] at e
      obtain ⟨rfl, rfl⟩ := e
      simp only [hf, Option.isSome_some, if_true]
      exact ⟨n', mv'⟩
  | removeExisting p =>
    obtain ⟨x, he, rfl⟩ := List.mem_map.1 hleg
    obtain ⟨t', m', e1, _, n', mv', _⟩ := LinInv.removeNode i.p he hlen
    obtain ⟨B, b⟩ := i.p.binv
    simp only [step, hashlinImpl, hashlinRemoveExisting] at e
    rw [run_bind, onNodes_run (getIndex_run (b.ok he)), b.index he] at e
    simp only [Option.bind_some] at e
    rw [e1] at e
    simp only [Option.map_some, Option.some.injEq, Prod.mk.injEq] at e
    obtain ⟨rfl, rfl⟩ := e
    exact ⟨n', mv'⟩
  | search cmp h =>
    simp only [step, ho.search cmp h i.p, Option.map_some, Option.some.injEq, Prod.mk.injEq] at e
    obtain ⟨rfl, rfl⟩ := e; exact ⟨rfl, rfl⟩
  | bucket h =>
    obtain ⟨l, e1, _⟩ := ho.bucket h i.p
    simp only [step, e1, Option.map_some, Option.some.injEq, Prod.mk.injEq] at e
    obtain ⟨rfl, rfl⟩ := e; exact ⟨rfl, rfl⟩
  | count =>
    simp only [step, Option.some.injEq, Prod.mk.injEq] at e
    obtain ⟨rfl, rfl⟩ := e; exact ⟨rfl, rfl⟩
  | alloc p =>
    simp only [step, Option.some.injEq, Prod.mk.injEq] at e
    obtain ⟨rfl, rfl⟩ := e; exact ⟨rfl, rfl⟩
  | free p =>
    simp only [step, Option.some.injEq, Prod.mk.injEq] at e
    obtain ⟨rfl, rfl⟩ := e; exact ⟨rfl, rfl⟩
  | scribble =>
    simp only [step, Option.some.injEq, Prod.mk.injEq] at e
    obtain ⟨rfl, rfl⟩ := e; exact ⟨rfl, rfl⟩

theorem lin_step_work {m0 : Mem} {s : St Hashlin} {a : Ab} (i : Inv (LinInv m0) s a) {op : Op} (hleg : legal a op)
    {out : Out} {s' : St Hashlin} (e : step hashlinImpl op s = some (out, s')) :
    (Hashlin.num s'.tbl).work + (Hashlin.num s'.tbl).pot ≤
      (Hashlin.num s.tbl).work + (Hashlin.num s.tbl).pot + linCost op ∧
    (((∀ p d h, op ≠ .insert p d h) ∨ s.tbl.state ≠ .shrink) → s'.tbl.work ≤ s.tbl.work + linCost op) := by
  have hn := (lin_step_num i hleg e).1
  have hw : ∀ t : Hashlin, t.work = (Hashlin.num t).work := fun _ => rfl
  have hst : ∀ t : Hashlin, t.state = (Hashlin.num t).state := fun _ => rfl
  have hc : (Hashlin.num s.tbl).count = a.elems.length := i.p.count
  rw [hw, hw, hn]
  cases op with
  | insert p d h =>
    have := Num.insert_spec i.p.num
    exact ⟨this.2.1, fun h => this.2.2 (by rcases h with h | h; exact absurd rfl (h _ _ _); exact h)⟩
  | remove cmp h =>
    simp only
    split
    · rename_i hs
      have h0 : 0 < (Hashlin.num s.tbl).count := by
        rw [hc]
        obtain ⟨x, hx⟩ := Option.isSome_iff_exists.1 hs
        exact List.length_pos_of_mem (List.mem_of_find?_eq_some hx)
      have := Num.remove_spec i.p.num h0
      exact ⟨this.2.1, fun _ => this.2.2⟩
    · simp only [linCost]; omega
  | removeExisting p =>
    have h0 : 0 < (Hashlin.num s.tbl).count := by
      rw [hc]
      obtain ⟨x, hx, _⟩ := List.mem_map.1 hleg
      exact List.length_pos_of_mem hx
    have := Num.remove_spec i.p.num h0
    exact ⟨this.2.1, fun _ => this.2.2⟩
  | search | bucket | count | alloc | free | scribble => simp [linCost]

theorem lin_work {m0 : Mem} {s : St Hashlin} {a : Ab} {n : Nat} (h : (linSys m0).ReachCost linCost s a n) :
    (Hashlin.num s.tbl).work + (Hashlin.num s.tbl).pot ≤ n := by
  induction h with
  | init hi =>
    obtain ⟨h0, e, _⟩ := hi
    obtain ⟨t, m, e1, _, _, hn, _⟩ := hashlinInit_spec h0
    rw [e] at e1
    simp only [Option.some.injEq, Prod.mk.injEq] at e1
    obtain ⟨rfl, rfl⟩ := e1
    rw [hn]; simp [Num.pot]
  | step hr hl e ih =>
    have i := (linSys_correct m0).2 _ _ hr.reach
    have := (lin_step_work i hl e).1
    omega

/-! ### Memory usage -/

omit [Arch] in
theorem Flat.vecs {m0 m : Mem} {r : Ref} {n : Nat} {es : List Elem} (f : Flat m0 m r n es) :
    NewVecs m0 m [r.vec] ∧ cellCount m [r.vec] = n := by
  refine ⟨⟨by simp, fun v => ?_⟩, by simp [cellCount, f.vlen]⟩
  simp only [List.mem_singleton, f.vlen, upd_apply]
  constructor
  · rintro rfl; exact ⟨f.new, by simp⟩
  · rintro ⟨h1, h2⟩
    by_contra hne
    rw [if_neg hne] at h2
    exact h2 h1

omit [Arch] in
theorem slen_sum (m : Mem) (vs : Nat → Nat) : ∀ k, 6 ≤ k → (∀ i, 5 ≤ i → i < k → m.vlen (vs i) = some (slen i)) →
    cellCount m ((List.range' 5 (k - 5)).map vs) = 2 ^ k := by
  intro k hk
  induction k with
  | zero => omega
  | succ k ih =>
    intro hl
    by_cases h5 : k = 5
    · subst h5
      simp [cellCount, hl 5 (by omega) (by omega), slen]
    · have e : k + 1 - 5 = (k - 5) + 1 := by omega
      have := ih (by omega) (fun i h1 h2 => hl i h1 (by omega))
      have e2 : 5 + (k - 5) = k := by omega
      unfold cellCount at *
      rw [e, List.range'_1_concat, List.map_append, List.map_append, List.sum_append, this, e2]
      simp only [List.map_cons, List.map_nil, List.sum_cons, List.sum_nil, hl k (by omega) (by omega), Option.getD_some]
      have : slen k = 2 ^ k := by unfold slen; rw [if_neg (by omega)]
      rw [this, Nat.pow_succ]; omega

omit [Arch] in
theorem Segs.vecs {m0 m : Mem} {bk : Nat → Option Ref} {k : Nat} {vs : Nat → Nat} (s : Segs m0 m bk k vs) (hk : 6 ≤ k) :
    NewVecs m0 m ((List.range' 5 (k - 5)).map vs) ∧ cellCount m ((List.range' 5 (k - 5)).map vs) = 2 ^ k := by
  refine ⟨⟨?_, fun v => ?_⟩, slen_sum m vs k hk s.len⟩
  · refine List.Nodup.map_on ?_ List.nodup_range'
    intro i hi j hj hij
    simp only [List.mem_range'_1] at hi hj
    exact s.inj i j hi.1 (by omega) hj.1 (by omega) hij
  · simp only [List.mem_map, List.mem_range'_1]
    constructor
    · rintro ⟨i, hi, rfl⟩
      exact ⟨s.new i hi.1 (by omega), by rw [s.len i hi.1 (by omega)]; simp⟩
    · rintro ⟨h1, h2⟩
      by_contra hne
      refine h2 ?_
      rw [s.other v (fun i h3 h4 h5 => hne ⟨i, ⟨h3, by omega⟩, h5⟩)]
      exact h1

end HashSpec
end Tommy
