import Verif.Proof.Hashlin
/-! Histories of tommy_hashlin that reach given counters: used for the worst case of a call. -/
set_option linter.unusedSimpArgs false
namespace Tommy

variable [Arch]
namespace HashSpec

/-- A memory with `N` nodes. -/
def pathMem (N : Nat) : Mem where
  heap := { valid := fun p => decide (p % nodeSize = 0 ∧ 0 < p ∧ p ≤ nodeSize * N), next := fun _ => 0, prev := fun _ => 0,
            data := fun _ => 0, index := fun _ => 0 }
  vlen := fun _ => none
  vcell := fun _ _ => none
  vnext := 0

theorem pathMem_ok {N : Nat} (h : N < 2 ^ (bktBit - 1) - 1) : StartOk (pathMem N) := by
  refine ⟨⟨?_, ?_, ?_⟩, fun _ _ => rfl⟩
  · simp [pathMem]
  · intro p hp
    simp only [pathMem, decide_eq_true_eq] at hp
    have h1 : (p : Nat) ≤ nodeSize * N := hp.2.2
    have : ∀ a : Nat, a ≤ nodeSize * N → a + nodeSize ≤ 2 ^ sizeBit := by arch
    exact this p h1
  · intro p q hp hq hne
    simp only [pathMem, decide_eq_true_eq] at hp hq
    have h1 : (p : Nat) % nodeSize = 0 := hp.1
    have h2 : (q : Nat) % nodeSize = 0 := hq.1
    have h3 : (p : Nat) ≠ q := hne
    have : ∀ a b : Nat, a % nodeSize = 0 → b % nodeSize = 0 → a ≠ b → a + nodeSize ≤ b ∨ b + nodeSize ≤ a := by arch
    exact this p q h1 h2 h3

def pathElems (c : Nat) : List Elem := (List.range c).map (fun j => ⟨nodeSize * (j + 1), 0, 0⟩)

def pathAb (N c : Nat) : Ab := ⟨pathElems c, (pathMem N).heap.valid⟩

/-- The system with `N` nodes. -/
abbrev linSys (m0 : Mem) := sys hashlinImpl hashlinInit m0

theorem linSys_correct (m0 : Mem) : (linSys m0).Correct ∧ ∀ s a, (linSys m0).Reach s a → Inv (LinInv m0) s a :=
  correct (hashlin_ok m0) (fun h0 => by
    obtain ⟨t, m, e, i, h, _⟩ := hashlinInit_spec h0
    exact ⟨t, m, e, i, h⟩)

/-- `c` elements and the counters `n` can be reached. -/
def LR (N c : Nat) (n : Num) : Prop := ∃ s, (linSys (pathMem N)).Reach s (pathAb N c) ∧ Hashlin.num s.tbl = n

theorem pathElems_succ (c : Nat) : pathElems (c + 1) = pathElems c ++ [⟨nodeSize * (c + 1), 0, 0⟩] := by
  simp [pathElems, List.range_succ]

theorem pathElems_mem {c : Nat} {p : Ptr} (h : p ∈ (pathElems c).map Elem.node) : p ≤ nodeSize * c := by
  simp only [pathElems, List.map_map, List.mem_map, List.mem_range, Function.comp] at h
  obtain ⟨j, hj, rfl⟩ := h
  have : ∀ a b : Nat, a < b → nodeSize * (a + 1) ≤ nodeSize * b := by arch
  exact this j c hj

theorem pathElems_not_mem (c : Nat) : (nodeSize * (c + 1) : Nat) ∉ (pathElems c).map Elem.node := by
  intro h
  have : (nodeSize * (c + 1) : Nat) ≤ nodeSize * c := pathElems_mem h
  arch

theorem pathElems_length (c : Nat) : (pathElems c).length = c := by simp [pathElems]

theorem LR.init {N : Nat} (h : N < 2 ^ (bktBit - 1) - 1) : LR N 0 ⟨6, 0, 0, 0, .stable⟩ := by
  obtain ⟨t, m, e, i, hh, hn, _⟩ := hashlinInit_spec (pathMem_ok h)
  exact ⟨⟨m, t⟩, .init ⟨pathMem_ok h, e, rfl, rfl⟩, hn⟩

/-- An insertion of the next node. -/
def pathInsert (c : Nat) : Op := .insert (nodeSize * (c + 1) : Nat) 0 0

theorem pathInsert_legal {N c : Nat} (hc : c < N) : legal (pathAb N c) (pathInsert c) := by
  refine ⟨?_, pathElems_not_mem c⟩
  simp only [pathAb, pathMem, decide_eq_true_eq]
  have : (nodeSize * (c + 1) : Nat) % nodeSize = 0 ∧ 0 < nodeSize * (c + 1) ∧ nodeSize * (c + 1) ≤ nodeSize * N := by arch
  exact this

theorem path_insert {N c : Nat} (hc : c < N) {s : St Hashlin} (hr : (linSys (pathMem N)).Reach s (pathAb N c)) :
    ∃ s', step hashlinImpl (pathInsert c) s = some (.unit, s') ∧ (linSys (pathMem N)).Reach s' (pathAb N (c + 1)) ∧
      Hashlin.num s'.tbl = (Hashlin.num s.tbl).insert := by
  have i := (linSys_correct (pathMem N)).2 _ _ hr
  have hleg := pathInsert_legal hc
  have hlen : (pathElems c).length + 1 < 2 ^ (bktBit - 1) := by
    have := i.length_le (hashlin_ok _)
    have hx := length_le_of_live i.liveOk (xs := (nodeSize * (c + 1) : Nat) :: (pathElems c).map Elem.node)
      (List.nodup_cons.2 ⟨pathElems_not_mem c, (hashlin_ok _).nodup i.p⟩) (fun x hx => by
        rcases List.mem_cons.1 hx with rfl | hx
        · exact hleg.1
        · obtain ⟨e, he, rfl⟩ := List.mem_map.1 hx
          rw [i.live]; exact ((hashlin_ok _).ok i.p e he).2)
    simpa using hx
  obtain ⟨t', m', e, i', n', _⟩ := LinInv.insert (t := s.tbl) i.p (i.ok hleg.1) (pathElems_not_mem c) 0 0 hlen
  have hs : step hashlinImpl (pathInsert c) s = some (.unit, ⟨m', t'⟩) := by
    simp only [step, pathInsert, hashlinImpl, e, Option.map_some]
  refine ⟨⟨m', t'⟩, hs, ?_, n'⟩
  have := Sys.Reach.step (sys := linSys (pathMem N)) (op := pathInsert c) hr hleg hs
  simp only [sys, next, pathInsert, pathAb] at this
  rw [← pathElems_succ] at this
  exact this

theorem LR.insert {N c : Nat} {n : Num} (r : LR N c n) (hc : c < N) : LR N (c + 1) n.insert := by
  obtain ⟨s, hr, rfl⟩ := r
  obtain ⟨s', _, hr', hn⟩ := path_insert hc hr
  exact ⟨s', hr', hn⟩

theorem LR.remove {N c : Nat} {n : Num} (r : LR N (c + 1) n) : LR N c n.remove := by
  obtain ⟨s, hr, rfl⟩ := r
  have i := (linSys_correct (pathMem N)).2 _ _ hr
  have he : (⟨nodeSize * (c + 1), 0, 0⟩ : Elem) ∈ (pathAb N (c + 1)).elems := by
    simp [pathAb, pathElems_succ]
  have hleg : legal (pathAb N (c + 1)) (.removeExisting (nodeSize * (c + 1) : Nat)) := List.mem_map_of_mem he
  obtain ⟨t', m', e, i', n', _⟩ := LinInv.removeNode (t := s.tbl) i.p he (i.length_le (hashlin_ok _))
  have hs : step hashlinImpl (.removeExisting (nodeSize * (c + 1) : Nat)) s = some (.val 0, ⟨m', t'⟩) := by
    obtain ⟨B, b⟩ := i.p.binv
    simp only [step, hashlinImpl, hashlinRemoveExisting]
    rw [run_bind, onNodes_run (getIndex_run (b.ok he)), b.index he]
    simp only [Option.bind_some]
    rw [e]; rfl
  refine ⟨⟨m', t'⟩, ?_, n'⟩
  have := Sys.Reach.step (sys := linSys (pathMem N)) (op := .removeExisting (nodeSize * (c + 1) : Nat)) hr hleg hs
  simp only [sys, next, pathAb] at this
  have hf : (pathElems (c + 1)).filter (fun e => e.node ≠ (nodeSize * (c + 1) : Nat)) = pathElems c := by
    rw [pathElems_succ, List.filter_append]
    have h1 : (pathElems c).filter (fun e => e.node ≠ (nodeSize * (c + 1) : Nat)) = pathElems c := by
      rw [List.filter_eq_self]
      intro x hx
      have : x.node ≠ (nodeSize * (c + 1) : Nat) := fun h => pathElems_not_mem c (h ▸ List.mem_map_of_mem hx)
      simpa using this
    rw [h1]; simp
  rw [hf] at this
  exact this

/-- Ignoring the work done. -/
def LQ (N bit split c : Nat) (st : LinState) : Prop := ∃ w, LR N c ⟨bit, split, c, w, st⟩

variable {N : Nat}

theorem LQ.small (h : N < 2 ^ (bktBit - 1) - 1) : ∀ c, c ≤ 32 → c ≤ N → LQ N 6 0 c .stable := by
  intro c
  induction c with
  | zero => intro _ _; exact ⟨0, LR.init h⟩
  | succ c ih =>
    intro hc hN
    obtain ⟨w, r⟩ := ih (by omega) (by omega)
    have := r.insert (by omega)
    have hn : ¬ (c + 1 > 2 ^ 6 / 2) := by omega
    simp only [Num.insert, Num.growStep, Num.growStart, ne_eq, reduceCtorEq, not_false_eq_true, hn, and_false,
      if_false] at this
    exact ⟨w, this⟩

theorem LQ.growPart {k : Nat} (hk : 6 ≤ k) (q : LQ N k 0 (2 ^ (k - 1)) .stable) : ∀ j, 1 ≤ j → j < 2 ^ (k - 1) →
    2 ^ (k - 1) + j ≤ N → LQ N (k + 1) (2 * j) (2 ^ (k - 1) + j) .grow := by
  have hp := pow_half (k := k) (by omega)
  obtain ⟨d, hd, hd0⟩ := pow_64 hk
  intro j
  induction j with
  | zero => intro h; omega
  | succ j ih =>
    intro _ hj hN
    by_cases h0 : j = 0
    · subst h0
      obtain ⟨w, r⟩ := q
      have := r.insert (by omega)
      have h1 : 2 ^ (k - 1) + 1 > 2 ^ k / 2 := by omega
      have h2 : ¬ (2 ^ k ≤ 2 * (2 ^ (k - 1) + 1) - 2 ^ k) := by omega
      have h3 : 2 * (2 ^ (k - 1) + 1) - 2 ^ k = 2 := by omega
      simp only [Num.insert, Num.growStep, Num.growStart, Num.growTo, Num.low, ne_eq, reduceCtorEq, not_false_eq_true,
        h1, and_self, if_true, if_false, Nat.add_sub_cancel, Nat.sub_zero, Nat.add_zero, h3, Nat.zero_add] at this
      rw [if_neg (by omega)] at this
      exact ⟨_, this⟩
    · obtain ⟨w, r⟩ := ih (by omega) (by omega) (by omega)
      have := r.insert (by omega)
      have h2 : ¬ (2 ^ k - 2 * j ≤ 2 * (2 ^ (k - 1) + j + 1) - (2 ^ k + 2 * j)) := by omega
      have h3 : 2 * j + (2 * (2 ^ (k - 1) + j + 1) - (2 ^ k + 2 * j)) = 2 * (j + 1) := by omega
      simp only [Num.insert, Num.growStep, Num.growStart, Num.growTo, Num.low, ne_eq, reduceCtorEq, not_true_eq_false,
        false_and, if_true, if_false, Nat.add_sub_cancel, h2, h3] at this
      exact ⟨_, this⟩

theorem LQ.growAll {k : Nat} (hk : 6 ≤ k) (q : LQ N k 0 (2 ^ (k - 1)) .stable) (hN : 2 ^ k ≤ N) :
    LQ N (k + 1) 0 (2 ^ k) .stable := by
  have hp := pow_half (k := k) (by omega)
  obtain ⟨d, hd, hd0⟩ := pow_64 hk
  obtain ⟨w, r⟩ := q.growPart hk (2 ^ (k - 1) - 1) (by omega) (by omega) (by omega)
  have := r.insert (by omega)
  have h2 : 2 ^ k - 2 * (2 ^ (k - 1) - 1) ≤ 2 * (2 ^ (k - 1) + (2 ^ (k - 1) - 1) + 1) - (2 ^ k + 2 * (2 ^ (k - 1) - 1)) := by
    omega
  simp only [Num.insert, Num.growStep, Num.growStart, Num.growTo, Num.low, ne_eq, reduceCtorEq, not_true_eq_false,
    false_and, if_true, if_false, Nat.add_sub_cancel, h2] at this
  have e : 2 ^ (k - 1) + (2 ^ (k - 1) - 1) + 1 = 2 ^ k := by omega
  rw [e] at this
  exact ⟨_, this⟩

theorem LQ.full (h : N < 2 ^ (bktBit - 1) - 1) : ∀ k, 6 ≤ k → 2 ^ (k - 1) ≤ N → LQ N k 0 (2 ^ (k - 1)) .stable := by
  intro k hk
  induction k with
  | zero => omega
  | succ k ih =>
    intro hN
    by_cases h6 : k = 5
    · subst h6; exact LQ.small h 32 (by arch) (by simpa using hN)
    · simp only [Nat.add_sub_cancel] at hN ⊢
      have hp := pow_half (k := k) (by omega)
      exact (ih (by omega) (by omega)).growAll (by omega) hN

theorem LQ.empty {k : Nat} (hk : 6 ≤ k) (q : LQ N (k + 1) 0 (2 ^ k) .stable) : ∀ j, j ≤ 2 ^ k - 2 ^ (k - 2) →
    LQ N (k + 1) 0 (2 ^ k - j) .stable := by
  have hp := pow_half (k := k) (by omega)
  have hp1 := pow_half (k := k - 1) (by omega)
  have hp2 : 2 ^ (k + 1) = 2 * 2 ^ k := by rw [Nat.pow_succ]; omega
  have e : k - 1 - 1 = k - 2 := by omega
  rw [e] at hp1
  intro j
  induction j with
  | zero => intro _; exact q
  | succ j ih =>
    intro hj
    obtain ⟨w, r⟩ := ih (by omega)
    have hc : 2 ^ k - j = (2 ^ k - (j + 1)) + 1 := by omega
    rw [hc] at r
    have := r.remove
    have h1 : ¬ (2 ^ k - (j + 1) < 2 ^ (k + 1) / 8) := by omega
    simp only [Num.remove, Num.shrinkStep, Num.shrinkStart, ne_eq, reduceCtorEq, not_false_eq_true, Nat.add_sub_cancel,
      h1, and_false, if_false] at this
    exact ⟨_, this⟩

theorem LQ.shrinkPart {k : Nat} (hk : 6 ≤ k) (q : LQ N (k + 1) 0 (2 ^ (k - 2)) .stable) : ∀ j, 1 ≤ j → j < 2 ^ (k - 3) →
    LQ N (k + 1) (2 ^ k - 8 * j) (2 ^ (k - 2) - j) .shrink := by
  have hp := pow_half (k := k) (by omega)
  have hp1 := pow_half (k := k - 1) (by omega)
  have hp3 := pow_half (k := k - 2) (by omega)
  have hp2 : 2 ^ (k + 1) = 2 * 2 ^ k := by rw [Nat.pow_succ]; omega
  have e : k - 1 - 1 = k - 2 := by omega
  have e3 : k - 2 - 1 = k - 3 := by omega
  rw [e] at hp1
  rw [e3] at hp3
  intro j
  induction j with
  | zero => intro h; omega
  | succ j ih =>
    intro _ hj
    by_cases h0 : j = 0
    · subst h0
      obtain ⟨w, r⟩ := q
      have hc : 2 ^ (k - 2) = (2 ^ (k - 2) - (0 + 1)) + 1 := by omega
      rw [hc] at r
      have := r.remove
      have h1 : 2 ^ (k - 2) - (0 + 1) < 2 ^ (k + 1) / 8 := by omega
      have h6 : k + 1 > hashlinBIT := by unfold hashlinBIT; omega
      have h2 : ¬ (2 ^ (k + 1) / 2 ≤ 2 ^ k + 2 ^ (k + 1) / 2 - 8 * (2 ^ (k - 2) - (0 + 1))) := by omega
      have h3 : 2 ^ (k + 1) / 2 - (2 ^ k + 2 ^ (k + 1) / 2 - 8 * (2 ^ (k - 2) - (0 + 1))) = 2 ^ k - 8 * (0 + 1) := by omega
      simp only [Num.remove, Num.shrinkStep, Num.shrinkStart, Num.shrinkTo, Num.low, ne_eq, reduceCtorEq,
        not_false_eq_true, Nat.add_sub_cancel, h1, h6, and_self, if_true, if_false, h2, h3] at this
      exact ⟨_, this⟩
    · obtain ⟨w, r⟩ := ih (by omega) (by omega)
      have hc : 2 ^ (k - 2) - j = (2 ^ (k - 2) - (j + 1)) + 1 := by omega
      rw [hc] at r
      have := r.remove
      have h2 : ¬ (2 ^ k - 8 * j ≤ 2 ^ k + (2 ^ k - 8 * j) - 8 * (2 ^ (k - 2) - (j + 1))) := by omega
      have h3 : 2 ^ k - 8 * j - (2 ^ k + (2 ^ k - 8 * j) - 8 * (2 ^ (k - 2) - (j + 1))) = 2 ^ k - 8 * (j + 1) := by omega
      simp only [Num.remove, Num.shrinkStep, Num.shrinkStart, Num.shrinkTo, Num.low, ne_eq, reduceCtorEq,
        not_true_eq_false, false_and, if_true, if_false, Nat.add_sub_cancel, h2, h3] at this
      exact ⟨_, this⟩

theorem LQ.refill {k s c : Nat} (q : LQ N (k + 1) s c .shrink) (hN : 2 ^ k ≤ N) : ∀ j, c + j ≤ 2 ^ k →
    LQ N (k + 1) s (c + j) .shrink := by
  have hp2 : 2 ^ (k + 1) = 2 * 2 ^ k := by rw [Nat.pow_succ]; omega
  intro j
  induction j with
  | zero => intro _; exact q
  | succ j ih =>
    intro hj
    obtain ⟨w, r⟩ := ih (by omega)
    have := r.insert (by omega)
    have h1 : ¬ (c + j + 1 > 2 ^ (k + 1) / 2) := by omega
    simp only [Num.insert, Num.growStep, Num.growStart, ne_eq, reduceCtorEq, not_false_eq_true, h1, and_false,
      if_false] at this
    exact ⟨_, this⟩

/-- A table that is shrinking, at its last 8 splits, but full. -/
theorem LQ.worst (h : N < 2 ^ (bktBit - 1) - 1) {k : Nat} (hk : 6 ≤ k) (hN : 2 ^ k ≤ N) : LQ N (k + 1) 8 (2 ^ k) .shrink := by
  have hp := pow_half (k := k) (by omega)
  have hp1 := pow_half (k := k - 1) (by omega)
  have hp3 := pow_half (k := k - 2) (by omega)
  have e : k - 1 - 1 = k - 2 := by omega
  have e3 : k - 2 - 1 = k - 3 := by omega
  rw [e] at hp1
  rw [e3] at hp3
  have q0 : LQ N (k + 1) 0 (2 ^ k) .stable := LQ.full h (k + 1) (by omega) hN
  have h8 : 8 ≤ 2 ^ (k - 3) := Nat.pow_le_pow_right (n := 2) (by omega) (show 3 ≤ k - 3 by omega)
  have q1 := q0.empty hk (2 ^ k - 2 ^ (k - 2)) (Nat.le_refl _)
  have e1 : 2 ^ k - (2 ^ k - 2 ^ (k - 2)) = 2 ^ (k - 2) := by omega
  rw [e1] at q1
  have q2 := q1.shrinkPart hk (2 ^ (k - 3) - 1) (by omega) (by omega)
  have e2 : 2 ^ k - 8 * (2 ^ (k - 3) - 1) = 8 := by omega
  rw [e2] at q2
  have q3 := q2.refill hN (2 ^ k - (2 ^ (k - 2) - (2 ^ (k - 3) - 1))) (by omega)
  have e4 : 2 ^ (k - 2) - (2 ^ (k - 3) - 1) + (2 ^ k - (2 ^ (k - 2) - (2 ^ (k - 3) - 1))) = 2 ^ k := by omega
  rw [e4] at q3
  exact q3

/-- The insert that changes direction. -/
theorem worst_insert (h : N < 2 ^ (bktBit - 1) - 1) {k : Nat} (hk : 6 ≤ k) (hN : 2 ^ k < N) :
    ∃ s s', (linSys (pathMem N)).Reach s (pathAb N (2 ^ k)) ∧
      step hashlinImpl (pathInsert (2 ^ k)) s = some (.unit, s') ∧
      (linSys (pathMem N)).Reach s' (pathAb N (2 ^ k + 1)) ∧ s'.tbl.work = s.tbl.work + (2 ^ k - 8) ∧
      s'.tbl.bucketMax = 2 * 2 ^ k ∧ s'.tbl.state = .stable := by
  obtain ⟨w, s, hr, hn⟩ := LQ.worst h hk (by omega)
  obtain ⟨s', e, hr', hn'⟩ := path_insert hN hr
  have hp2 : 2 ^ (k + 1) = 2 * 2 ^ k := by rw [Nat.pow_succ]; omega
  have h64 : 2 ^ 6 ≤ 2 ^ k := Nat.pow_le_pow_right (by omega) hk
  have h1 : 2 ^ k + 1 > 2 ^ (k + 1) / 2 := by omega
  have h2 : 2 ^ k - 8 ≤ 2 * (2 ^ k + 1) - (2 ^ k + 8) := by omega
  rw [hn] at hn'
  simp only [Num.insert, Num.growStep, Num.growStart, Num.growTo, Num.low, ne_eq, reduceCtorEq, not_false_eq_true,
    h1, and_self, if_true, if_false, Nat.add_sub_cancel, h2] at hn'
  have i' := (linSys_correct (pathMem N)).2 _ _ hr'
  refine ⟨s, s', hr, e, hr', ?_, ?_, ?_⟩
  · have a := congrArg Num.work hn'
    have b := congrArg Num.work hn
    simp only [Hashlin.num] at a b
    omega
  · rw [i'.p.max]
    have a := congrArg Num.bit hn'
    simp only [Hashlin.num] at a
    rw [a, hp2]
  · exact congrArg Num.state hn'

end HashSpec
end Tommy
