import Verif.Spec.HashSize
import Verif.Proof.HashCost
/-! When the dynamic hashtables are resized. -/
set_option linter.unusedSimpArgs false
namespace Tommy

variable [Arch]
namespace HashSpec

theorem dyn_size_inv {m0 : Mem} {s : St Hashdyn} {a : Ab} (i : Inv (DynInv m0) s a) {op : Op} (hleg : legal a op)
    {out : Out} {s' : St Hashdyn} (e : step hashdynImpl op s = some (out, s')) (i' : Inv (DynInv m0) s' (next a op out)) :
    s'.tbl.bucketMax = dynSize s.tbl.bucketMax a.elems.length (next a op out).elems.length := by
  have hd := dyn_step i hleg e
  have hl := length_next i hleg out
  have l1 := i.p.load
  have l2 := i'.p.load
  have w1 := i.p.low16
  have w2 := i'.p.low16
  unfold dynSize
  cases op with
  | insert p d h =>
    simp only at hl
    rw [hl] at l2 w2 ⊢
    rcases hd with ⟨h1, _⟩ | ⟨_, h1, h2, _⟩ | ⟨ho, _⟩
    · rw [if_neg (by omega), if_neg (by omega)]; exact h1
    · rw [if_pos (by omega)]; exact h1
    · rcases ho with ⟨_, _, ho, _⟩ | ⟨_, ho⟩ <;> simp at ho
  | remove cmp h =>
    simp only at hl
    rw [hl] at l2 w2 ⊢
    rcases hd with ⟨h1, _⟩ | ⟨⟨_, _, _, ho⟩, _⟩ | ⟨ho, h1, h2, h3, _⟩
    · split at l2 <;> rename_i hs <;> simp only [hs, if_true, Bool.false_eq_true, if_false] at w2 ⊢ <;> split_ifs <;> omega
    · simp at ho
    · rcases ho with ⟨_, _, ho, hs⟩ | ⟨_, ho⟩
      · simp only [Op.remove.injEq] at ho
        obtain ⟨rfl, rfl⟩ := ho
        rw [if_pos hs] at l2 w2 ⊢
        have : 0 < a.elems.length := by
          obtain ⟨x, hx⟩ := Option.isSome_iff_exists.1 hs
          exact List.length_pos_of_mem (List.mem_of_find?_eq_some hx)
        rw [if_neg (by omega), if_pos (by omega)]; omega
      · simp at ho
  | removeExisting p =>
    simp only at hl
    rw [hl] at l2 w2 ⊢
    have : 0 < a.elems.length := by
      obtain ⟨x, hx, _⟩ := List.mem_map.1 hleg
      exact List.length_pos_of_mem hx
    rcases hd with ⟨h1, _⟩ | ⟨⟨_, _, _, ho⟩, _⟩ | ⟨ho, h1, h2, h3, _⟩
    · split_ifs <;> omega
    · simp at ho
    · rw [if_neg (by omega), if_pos (by omega)]; omega
  | search | bucket | count | alloc | free | scribble =>
    simp only at hl
    rw [hl] at l2 w2 ⊢
    rcases hd with ⟨h1, _⟩ | ⟨⟨_, _, _, ho⟩, _⟩ | ⟨ho, h1, h2, h3, _⟩
    · split_ifs <;> omega
    · simp at ho
    · rcases ho with ⟨_, _, ho, _⟩ | ⟨_, ho⟩ <;> simp at ho

theorem dyn_size {m0 : Mem} {s : St Hashdyn} {a : Ab} (hr : (dynSys m0).Reach s a) {op : Op} (hleg : legal a op)
    {out : Out} {s' : St Hashdyn} (e : step hashdynImpl op s = some (out, s')) :
    s'.tbl.bucketMax = dynSize s.tbl.bucketMax a.elems.length (next a op out).elems.length :=
  dyn_size_inv ((dynSys_correct m0).2 _ _ hr) hleg e ((dynSys_correct m0).2 _ _ (.step hr hleg e))

/-- The size given by the counters. -/
def Num.size (n : Num) : LinSize := ⟨2 ^ n.bit, n.low + n.split, n.state⟩

omit [Arch] in
theorem Num.insert_size {n : Num} (i : n.Inv) : n.insert.size = n.size.grow (n.count + 1) := by
  obtain ⟨bit, split, count, work, state⟩ := n
  obtain ⟨i1, i2, i3, i4⟩ := i
  cases state with
  | stable =>
    obtain ⟨a, b, c⟩ := i2 rfl
    simp only at a b c i1
    obtain ⟨d, hd, hd0⟩ := pow_64 i1
    subst a
    by_cases h : count + 1 > 2 ^ bit / 2
    · have hlt : ¬ (2 ^ bit ≤ 2 * (count + 1) - 2 ^ bit) := by omega
      have h' : 2 ^ bit < 2 * (count + 1) := by omega
      have h'' : ¬ 2 * 2 ^ bit ≤ 2 * (count + 1) := by omega
      simp only [Num.insert, Num.growStep, Num.growStart, Num.growTo, Num.low, Num.size, LinSize.grow, ne_eq, reduceCtorEq, not_false_eq_true,
        h, h', h'', and_self, if_true, if_false, Nat.add_sub_cancel, Nat.sub_zero, Nat.add_zero, hlt, not_true_eq_false]
      rw [Nat.pow_succ']
      congr 1; omega
    · have h' : ¬ 2 ^ bit < 2 * (count + 1) := by omega
      simp only [Num.insert, Num.growStep, Num.growStart, Num.low, Num.size, LinSize.grow, ne_eq, reduceCtorEq, not_false_eq_true,
        h, h', and_false, if_false, if_true]
  | grow =>
    obtain ⟨a, b, c, d, e⟩ := i3 rfl
    simp only [Num.low, reduceCtorEq, if_false] at a b c d e i1
    have hb := pow_half (k := bit) (by omega)
    simp only [Num.insert, Num.growStep, Num.growStart, Num.growTo, Num.low, Num.size, LinSize.grow, ne_eq, reduceCtorEq, not_true_eq_false,
      false_and, if_true, if_false]
    by_cases hg : 2 ^ (bit - 1) - split ≤ 2 * (count + 1) - (2 ^ (bit - 1) + split)
    · simp only [hg, show 2 ^ bit ≤ 2 * (count + 1) by omega, if_true, Nat.add_zero]
    · simp only [hg, show ¬ 2 ^ bit ≤ 2 * (count + 1) by omega, reduceCtorEq, if_false]; congr 1; omega
  | shrink =>
    obtain ⟨a, b, c, d, e⟩ := i4 rfl
    simp only [Num.low, reduceCtorEq, if_false] at a b c d e i1
    have hb := pow_half (k := bit) (by omega)
    by_cases h : count + 1 > 2 ^ bit / 2
    · have hlt : 2 ^ (bit - 1) - split ≤ 2 * (count + 1) - (2 ^ (bit - 1) + split) := by omega
      have h' : 2 ^ bit < 2 * (count + 1) := by omega
      have h'' : 2 ^ bit ≤ 2 * (count + 1) := by omega
      simp only [Num.insert, Num.growStep, Num.growStart, Num.growTo, Num.low, Num.size, LinSize.grow, ne_eq, reduceCtorEq, not_false_eq_true,
        h, h', h'', and_self, if_true, if_false, hlt, not_true_eq_false, Nat.add_zero]
    · have h' : ¬ 2 ^ bit < 2 * (count + 1) := by omega
      simp only [Num.insert, Num.growStep, Num.growStart, Num.low, Num.size, LinSize.grow, ne_eq, reduceCtorEq, not_false_eq_true,
        h, h', and_false, if_false, if_true]

omit [Arch] in
theorem Num.remove_size {n : Num} (i : n.Inv) (h0 : 0 < n.count) : n.remove.size = n.size.shrink (n.count - 1) := by
  obtain ⟨bit, split, count, work, state⟩ := n
  obtain ⟨i1, i2, i3, i4⟩ := i
  simp only at h0
  have hB : hashlinBIT = 6 := rfl
  cases state with
  | stable =>
    obtain ⟨a, b, c⟩ := i2 rfl
    simp only at a b c i1
    obtain ⟨d, hd, hd0⟩ := pow_64 i1
    subst a
    by_cases h : count - 1 < 2 ^ bit / 8
    · by_cases h6 : bit > hashlinBIT
      · have h6' : 6 < bit := h6
        have hb := pow_half (k := bit) (by omega)
        obtain ⟨f, hf, hf0⟩ := pow_64 (k := bit - 1) (by omega)
        have hlt : ¬ (2 ^ bit / 2 ≤ 2 ^ (bit - 1) + 2 ^ bit / 2 - 8 * (count - 1)) := by omega
        have h' : 8 * (count - 1) < 2 ^ bit := by omega
        have h'' : 64 < 2 ^ bit := by omega
        have h3 : ¬ 8 * (count - 1) ≤ 2 ^ bit / 2 := by omega
        simp only [Num.remove, Num.shrinkStep, Num.shrinkStart, Num.shrinkTo, Num.low, Num.size, LinSize.shrink, ne_eq, reduceCtorEq,
          not_false_eq_true, h, h6, h', h'', h3, and_self, if_true, if_false, hlt, not_true_eq_false]
        congr 1; omega
      · have : bit = 6 := by omega
        subst this
        simp only [Num.remove, Num.shrinkStep, Num.shrinkStart, Num.low, Num.size, LinSize.shrink, ne_eq, reduceCtorEq, not_false_eq_true,
          h, h6, and_self, if_true, if_false]
        norm_num
        intro hx; cases hx
    · have h' : ¬ 8 * (count - 1) < 2 ^ bit := by omega
      simp only [Num.remove, Num.shrinkStep, Num.shrinkStart, Num.low, Num.size, LinSize.shrink, ne_eq, reduceCtorEq, not_false_eq_true,
        h, h', and_false, false_and, if_false, if_true]
  | grow =>
    obtain ⟨a, b, c, d, e⟩ := i3 rfl
    simp only [Num.low, reduceCtorEq, if_false] at a b c d e i1
    obtain ⟨f, hf, hf0⟩ := pow_64 (k := bit - 1) (by omega)
    have hb := pow_half (k := bit) (by omega)
    have h6 : bit > hashlinBIT := a
    have h'' : 64 < 2 ^ bit := by omega
    by_cases h : count - 1 < 2 ^ bit / 8
    · have h' : 8 * (count - 1) < 2 ^ bit := by omega
      simp only [Num.remove, Num.shrinkStep, Num.shrinkStart, Num.shrinkTo, Num.low, Num.size, LinSize.shrink, ne_eq, reduceCtorEq,
        not_false_eq_true, h, h6, h', h'', and_self, if_true, if_false, not_true_eq_false]
      by_cases hg : split ≤ 2 ^ (bit - 1) + split - 8 * (count - 1)
      · simp only [hg, show 8 * (count - 1) ≤ 2 ^ bit / 2 by omega, if_true, Nat.add_zero]; congr 1 <;> omega
      · simp only [hg, show ¬ 8 * (count - 1) ≤ 2 ^ bit / 2 by omega, reduceCtorEq, if_false]; congr 1; omega
    · have h' : ¬ 8 * (count - 1) < 2 ^ bit := by omega
      simp only [Num.remove, Num.shrinkStep, Num.shrinkStart, Num.low, Num.size, LinSize.shrink, ne_eq, reduceCtorEq, not_false_eq_true,
        h, h', and_false, false_and, if_false, if_true]
  | shrink =>
    obtain ⟨a, b, c, d, e⟩ := i4 rfl
    simp only [Num.low, reduceCtorEq, if_false] at a b c d e i1
    have hb := pow_half (k := bit) (by omega)
    simp only [Num.remove, Num.shrinkStep, Num.shrinkStart, Num.shrinkTo, Num.low, Num.size, LinSize.shrink, ne_eq, reduceCtorEq,
      not_true_eq_false, false_and, if_true, if_false]
    by_cases hg : split ≤ 2 ^ (bit - 1) + split - 8 * (count - 1)
    · simp only [hg, show 8 * (count - 1) ≤ 2 ^ bit / 2 by omega, if_true, Nat.add_zero]; congr 1 <;> omega
    · simp only [hg, show ¬ 8 * (count - 1) ≤ 2 ^ bit / 2 by omega, reduceCtorEq, if_false]; congr 1; omega

theorem linSize_num {m0 m : Mem} {t : Hashlin} {es : List Elem} (i : LinInv m0 t m es) : linSize t = (Hashlin.num t).size := by
  simp only [linSize, Num.size, i.max, i.low]; rfl

theorem length_next_lin {m0 : Mem} {s : St Hashlin} {a : Ab} (i : Inv (LinInv m0) s a) {op : Op} (hleg : legal a op) (out : Out) :
    (next a op out).elems.length = match op with
      | .insert _ _ _ => a.elems.length + 1
      | .remove cmp h => if (a.elems.find? (hit cmp h)).isSome then a.elems.length - 1 else a.elems.length
      | .removeExisting _ => a.elems.length - 1
      | _ => a.elems.length := by
  cases op with
  | insert p d h => simp [next]
  | remove cmp h =>
    simp only [next]
    cases hf : a.elems.find? (hit cmp h) with
    | none =>
      simp only [Option.isSome_none, Bool.false_eq_true, if_false]
      rw [List.eraseP_of_forall_not fun x hx => by
        have := List.find?_eq_none.1 hf x hx; simpa using this]
    | some x =>
      simp only [Option.isSome_some, if_true]
      exact List.length_eraseP_of_mem (List.mem_of_find?_eq_some hf) (List.find?_some hf)
  | removeExisting p =>
    obtain ⟨x, he, rfl⟩ := List.mem_map.1 hleg
    exact (length_filter_node ((hashlin_ok m0).nodup i.p) he).1
  | search | bucket | count | alloc | free | scribble => rfl

theorem lin_size_inv {m0 : Mem} {s : St Hashlin} {a : Ab} (i : Inv (LinInv m0) s a) {op : Op} (hleg : legal a op)
    {out : Out} {s' : St Hashlin} (e : step hashlinImpl op s = some (out, s')) (i' : Inv (LinInv m0) s' (next a op out)) :
    linSize s'.tbl = (linSize s.tbl).next a.elems.length (next a op out).elems.length := by
  have hn := (lin_step_num i hleg e).1
  have hl := length_next_lin i hleg out
  have hc : (Hashlin.num s.tbl).count = a.elems.length := i.p.count
  rw [linSize_num i'.p, linSize_num i.p, hl, hn]
  cases op with
  | insert p d h =>
    simp only [LinSize.next]
    rw [if_pos (by omega), Num.insert_size i.p.num, hc]
  | remove cmp h =>
    simp only [LinSize.next]
    cases hf : a.elems.find? (hit cmp h) with
    | none => simp
    | some x =>
      have : 0 < a.elems.length := List.length_pos_of_mem (List.mem_of_find?_eq_some hf)
      simp only [Option.isSome_some, if_true]
      rw [if_neg (by omega), if_pos (by omega), Num.remove_size i.p.num (by omega), hc]
  | removeExisting p =>
    simp only [LinSize.next]
    have : 0 < a.elems.length := by
      obtain ⟨x, hx, _⟩ := List.mem_map.1 hleg
      exact List.length_pos_of_mem hx
    rw [if_neg (by omega), if_pos (by omega), Num.remove_size i.p.num (by omega), hc]
  | search | bucket | count | alloc | free | scribble => simp [LinSize.next]

theorem lin_size {m0 : Mem} {s : St Hashlin} {a : Ab} (hr : (linSys m0).Reach s a) {op : Op} (hleg : legal a op)
    {out : Out} {s' : St Hashlin} (e : step hashlinImpl op s = some (out, s')) :
    linSize s'.tbl = (linSize s.tbl).next a.elems.length (next a op out).elems.length :=
  lin_size_inv ((linSys_correct m0).2 _ _ hr) hleg e ((linSys_correct m0).2 _ _ (.step hr hleg e))

end HashSpec
end Tommy
