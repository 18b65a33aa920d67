import Verif.Spec.TrieSeparate
import Verif.Proof.TrieCost
/-! `remove` and `bucket` followed by `remove_existing`. -/
set_option linter.unusedVariables false
namespace Tommy

variable [Arch]
namespace TrieCost
open TrieSpec (levels)

variable {α β : Type} {c : TrieCfg}

/-- The work does not depend on the value of the counter. -/
def Shift (x : TC α) : Prop := ∀ m k r m' k', x (m, k) = some (r, (m', k')) → k ≤ k' ∧ ∀ j, x (m, j) = some (r, (m', j + (k' - k)))

omit [Arch] in
theorem Shift.pure (a : α) : Shift (pure a) := by
  intro m k r m' k' e
  simp only [run_pure, Option.some.injEq, Prod.mk.injEq] at e
  obtain ⟨rfl, rfl, rfl⟩ := e
  exact ⟨Nat.le_refl _, fun j => by simp⟩

omit [Arch] in
theorem Shift.tick (n : Nat) (y : TM α) : Shift (Tommy.tick n y) := by
  intro m k r m' k' e
  unfold Tommy.tick at e ⊢
  obtain ⟨⟨a, m1⟩, e1, e2⟩ := Option.map_eq_some_iff.1 e
  cases e2
  simp only at e1
  exact ⟨by omega, fun j => by simp only [e1, Option.map_some]; congr 3; omega⟩

omit [Arch] in
theorem Shift.bind {x : TC α} {g : α → TC β} (h1 : Shift x) (h2 : ∀ a, Shift (g a)) : Shift (x >>= g) := by
  intro m k r m' k' e
  rw [run_bind] at e
  obtain ⟨⟨a, m1, k1⟩, e1, e2⟩ := Option.bind_eq_some_iff.1 e
  obtain ⟨a1, a2⟩ := h1 _ _ _ _ _ e1
  obtain ⟨b1, b2⟩ := h2 a _ _ _ _ _ e2
  refine ⟨by omega, fun j => ?_⟩
  rw [run_bind, a2 j]
  show g a (m1, j + (k1 - k)) = _
  rw [b2]
  congr 3; omega

omit [Arch] in
theorem Shift.ite {p : Prop} [Decidable p] {x y : TC α} (h1 : Shift x) (h2 : Shift y) : Shift (if p then x else y) := by
  split
  · exact h1
  · exact h2

omit [Arch] in
theorem Shift.scan (tree : Ptr) : ∀ (k i count last : Nat), Shift (trieScanC tree i count last k) := by
  intro k
  induction k with
  | zero => intro i count last; exact .pure _
  | succ k ih =>
    intro i count last
    unfold trieScanC
    exact .bind (.tick _ _) fun p => .ite (.ite (.pure _) (.ite (.pure _) (ih _ _ _))) (ih _ _ _)

theorem Shift.reduce (c : TrieCfg) : ∀ (back : List Loc) (nc : Nat), Shift (trieReduceC c nc back) := by
  intro back
  induction back with
  | nil => intro nc; exact .pure _
  | cons l back ih =>
    intro nc
    unfold trieReduceC
    refine .bind (.tick _ _) fun p => .bind (.scan _ _ _ _ _) fun r => ?_
    match r with
    | none => exact .pure _
    | some (count, last) =>
      exact .bind (.tick _ _) fun _ => .bind (.tick _ _) fun _ => .bind (.tick _ _) fun _ => .bind (.tick _ _) fun _ => ih _

/-- The end of `trie_bucket_remove_existing`, when the node is known. -/
def remEnd (c : TrieCfg) (nc : Nat) (l : Loc) (back : List Loc) (remove : Ptr) : TC (Nat × Ptr) := do
  let x ← Tommy.tick 1 (cellGet l)
  let x ← Tommy.tick 7 (onN (listRemoveExisting x remove))
  Tommy.tick 1 (cellSet l x.1)
  let now ← Tommy.tick 1 (cellGet l)
  if now ≠ 0 then
    return (nc, remove)
  let nc ← trieReduceC c nc back
  return (nc, remove)

theorem Shift.remEnd (c : TrieCfg) (nc : Nat) (l : Loc) (back : List Loc) (remove : Ptr) : Shift (remEnd c nc l back remove) := by
  unfold TrieCost.remEnd
  exact .bind (.tick _ _) fun _ => .bind (.tick _ _) fun _ => .bind (.tick _ _) fun _ => .bind (.tick _ _) fun _ =>
    .ite (.pure _) (.bind (.reduce _ _ _) fun _ => .pure _)

omit [Arch] in
theorem tick_some {n : Nat} {y : TM α} {m m' : TMem} {k k' : Nat} {r : α} (e : Tommy.tick n y (m, k) = some (r, (m', k'))) :
    y m = some (r, m') ∧ k' = k + n := by
  unfold Tommy.tick at e
  obtain ⟨⟨a, m1⟩, e1, e2⟩ := Option.map_eq_some_iff.1 e
  cases e2
  exact ⟨e1, rfl⟩

omit [Arch] in
theorem tick_run {n : Nat} {y : TM α} {m m' : TMem} {r : α} (e : y m = some (r, m')) (k : Nat) :
    Tommy.tick n y (m, k) = some (r, (m', k + n)) := by
  unfold Tommy.tick; rw [e]; rfl

omit [Arch] in
theorem tbind_some {n : Nat} {y : TM α} {g : α → TC β} {m : TMem} {k : Nat} {r : β × (TMem × Nat)}
    (e : (Tommy.tick n y >>= g) (m, k) = some r) : ∃ a m1, y m = some (a, m1) ∧ g a (m1, k + n) = some r := by
  rw [run_bind] at e
  obtain ⟨⟨a, m1, k1⟩, e1, e2⟩ := Option.bind_eq_some_iff.1 e
  obtain ⟨e3, rfl⟩ := tick_some e1
  exact ⟨a, m1, e3, e2⟩

omit [Arch] in
theorem tbind_run {n : Nat} {y : TM α} {g : α → TC β} {m m1 : TMem} {a : α} (e : y m = some (a, m1)) (k : Nat) :
    (Tommy.tick n y >>= g) (m, k) = g a (m1, k + n) := by
  rw [run_bind, tick_run e]; rfl

theorem remEnd_ret {nc : Nat} {l : Loc} {back : List Loc} {remove : Ptr} {m m' : TMem} {k k' : Nat} {r : Nat × Ptr}
    (e : remEnd c nc l back remove (m, k) = some (r, (m', k'))) : r.2 = remove := by
  unfold remEnd at e
  obtain ⟨_, m1, _, e⟩ := tbind_some e
  obtain ⟨_, m2, _, e⟩ := tbind_some e
  obtain ⟨_, m3, _, e⟩ := tbind_some e
  obtain ⟨_, m4, _, e⟩ := tbind_some e
  split at e
  · cases e; rfl
  · rw [run_bind] at e
    obtain ⟨⟨_, _, _⟩, _, e⟩ := Option.bind_eq_some_iff.1 e
    cases e; rfl

theorem rem_unfold (c : TrieCfg) (nc shift : Nat) (l : Loc) (remove : Ptr) (key : Nat) (back : List Loc) :
    trieBucketRemoveExistingC c nc shift l remove key back = (do
      let ptr ← Tommy.tick 1 (cellGet l)
      if ptr = 0 then
        return (nc, 0)
      if trieIsTree ptr then
        Tommy.tick 0 (assertT (back.length < c.levelMax + 1))
        let i ← Tommy.tick 0 (trieSlot c key shift)
        trieBucketRemoveExistingC c nc (sub32 shift c.treeBit) ⟨trieGetTree ptr, i⟩ remove key (l :: back)
      else
        let remove ← Tommy.tick (if remove = 0 then 1 else 0) (triePick ptr remove key)
        if remove = 0 then
          return (nc, 0)
        remEnd c nc l back remove) := by
  rw [trieBucketRemoveExistingC]; rfl

theorem rem_leaf {key : Nat} {m : TMem} {shift : Nat} {l : Loc} {back : List Loc} (hn : ¬ trieIsTree (m.cell l.base l.idx))
    {k i : Nat} {m1 : TMem} {k1 : Nat} (e : trieBucketLoopC c (m.cell l.base l.idx) shift key (m, k) = some (i, (m1, k1))) : m1 = m ∧ k ≤ k1 ∧
      (i = 0 → ∀ nc k0 r, trieBucketRemoveExistingC c nc shift l 0 key back (m, k0) = some r → r = ((nc, 0), (m, k0 + 1 + (k1 - k)))) ∧
      (i ≠ 0 → onN (getIndex i) m = some (key, m) ∧ ∀ nc k0 r m' k', trieBucketRemoveExistingC c nc shift l 0 key back (m, k0) = some (r, (m', k')) →
        r.2 = i ∧ k0 + 1 ≤ k' ∧ ∀ j, trieBucketRemoveExistingC c nc shift l i key back (m, j) = some (r, (m', j + (k' - k0) - 1))) := by
  rw [trieBucketLoopC] at e
  generalize hp : m.cell l.base l.idx = p at *
  by_cases h0 : p = 0
  · rw [if_pos h0] at e
    cases e
    refine ⟨rfl, Nat.le_refl _, fun _ nc k0 r e => ?_, fun h => absurd rfl h⟩
    rw [rem_unfold] at e
    obtain ⟨q, m2, e1, e2⟩ := tbind_some e
    obtain ⟨rfl, rfl⟩ := cellGet_eq e1
    rw [hp, if_pos h0] at e2
    cases e2
    simp
  · rw [if_neg h0, if_neg hn] at e
    obtain ⟨idx, m2, e1, e2⟩ := tbind_some e
    obtain rfl := getIndex_eq e1
    by_cases hk : idx = key
    · subst hk
      rw [if_neg (by simp)] at e2
      simp only [run_pure, Option.some.injEq, Prod.mk.injEq] at e2
      obtain ⟨hpi, rfl, rfl⟩ := e2
      subst hpi
      refine ⟨rfl, by omega, fun h => absurd h h0, fun _ => ⟨e1, fun nc k0 r m' k' e => ?_⟩⟩
      rw [rem_unfold] at e
      obtain ⟨q, m3, e3, e4⟩ := tbind_some e
      have e3' := e3
      obtain ⟨rfl, rfl⟩ := cellGet_eq e3
      rw [hp, if_neg h0, if_neg hn] at e4
      obtain ⟨q, m4, e5, e6⟩ := tbind_some e4
      have pk : triePick p 0 idx m3 = some (p, m3) := by
        unfold triePick
        rw [if_pos rfl, run_bind, e1]
        simp
      rw [pk] at e5
      cases e5
      rw [if_neg h0, if_pos rfl] at e6
      obtain ⟨b1, b2⟩ := Shift.remEnd _ _ _ _ _ _ _ _ _ _ e6
      refine ⟨remEnd_ret e6, by omega, fun j => ?_⟩
      rw [rem_unfold, tbind_run e3', hp, if_neg h0, if_neg hn, if_neg h0,
        tbind_run (show triePick p p idx m3 = some (p, m3) by unfold triePick; rw [if_neg h0]; rfl), if_neg h0, b2]
      congr 3; omega
    · rw [if_pos hk] at e2
      cases e2
      refine ⟨rfl, by omega, fun _ nc k0 r e => ?_, fun h => absurd rfl h⟩
      rw [rem_unfold] at e
      obtain ⟨q, m3, e3, e4⟩ := tbind_some e
      obtain ⟨rfl, rfl⟩ := cellGet_eq e3
      rw [hp, if_neg h0, if_neg hn] at e4
      obtain ⟨q, m4, e5, e6⟩ := tbind_some e4
      have pk : triePick p 0 key m3 = some (0, m3) := by
        unfold triePick
        rw [if_pos rfl, run_bind, e1]
        simp [hk]
      rw [pk] at e5
      cases e5
      rw [if_pos rfl, if_pos rfl] at e6
      cases e6
      congr 2; omega

/-- Where `bucket` ends, `remove` removes. -/
theorem rem_loop (hc : TrieSpec.CfgOk c) (key : Nat) (m : TMem) : ∀ (n shift : Nat) (l : Loc) (back : List Loc), Deep c m n (m.cell l.base l.idx) →
    ∀ k i m1 k1, trieBucketLoopC c (m.cell l.base l.idx) shift key (m, k) = some (i, (m1, k1)) → m1 = m ∧ k ≤ k1 ∧
      (i = 0 → ∀ nc k0 r, trieBucketRemoveExistingC c nc shift l 0 key back (m, k0) = some r → r = ((nc, 0), (m, k0 + 1 + (k1 - k)))) ∧
      (i ≠ 0 → onN (getIndex i) m = some (key, m) ∧ ∀ nc k0 r m' k', trieBucketRemoveExistingC c nc shift l 0 key back (m, k0) = some (r, (m', k')) →
        r.2 = i ∧ k0 + 1 ≤ k' ∧ ∀ j, trieBucketRemoveExistingC c nc shift l i key back (m, j) = some (r, (m', j + (k' - k0) - 1))) := by
  intro n
  induction n with
  | zero =>
    intro shift l back hd k i m1 k1 e
    exact rem_leaf hd e
  | succ n ih =>
    intro shift l back hd k i m1 k1 e
    by_cases ht : trieIsTree (m.cell l.base l.idx)
    · have h0 : m.cell l.base l.idx ≠ 0 := by
        intro h; rw [h] at ht; exact TrieSpec.not_isTree rfl ht
      rw [trieBucketLoopC, if_neg h0, if_pos ht] at e
      obtain ⟨x, m2, e1, e2⟩ := tbind_some e
      have e1' := e1
      obtain ⟨hx, rfl⟩ := slot_eq hc e1
      obtain ⟨q, m3, e3, e4⟩ := tbind_some e2
      obtain ⟨rfl, rfl⟩ := cellGet_eq e3
      obtain ⟨a1, a2, a3, a4⟩ := ih _ ⟨trieGetTree (m3.cell l.base l.idx), x⟩ (l :: back) (hd ht x hx) _ _ _ _ e4
      refine ⟨a1, by omega, fun hi nc k0 r er => ?_, fun hi => ⟨(a4 hi).1, fun nc k0 r m' k' er => ?_⟩⟩
      · rw [rem_unfold] at er
        obtain ⟨q, m4, e5, er⟩ := tbind_some er
        obtain ⟨rfl, rfl⟩ := cellGet_eq e5
        rw [if_neg h0, if_pos ht] at er
        obtain ⟨_, m5, e6, er⟩ := tbind_some er
        obtain ⟨_, rfl⟩ := assertT_eq e6
        rw [tbind_run e1'] at er
        rw [a3 hi _ _ _ er]
        congr 2; omega
      · rw [rem_unfold] at er
        obtain ⟨q, m4, e5, er⟩ := tbind_some er
        have e5' := e5
        obtain ⟨rfl, rfl⟩ := cellGet_eq e5
        rw [if_neg h0, if_pos ht] at er
        obtain ⟨_, m5, e6, er⟩ := tbind_some er
        have e6' := e6
        obtain ⟨_, rfl⟩ := assertT_eq e6
        rw [tbind_run e1'] at er
        obtain ⟨b1, b2, b3⟩ := (a4 hi).2 _ _ _ _ _ er
        refine ⟨b1, by omega, fun j => ?_⟩
        rw [rem_unfold, tbind_run e5', if_neg h0, if_pos ht, tbind_run e6', tbind_run e1', b3]
        congr 3; omega
    · exact rem_leaf ht e

/-- The same result, the same memory, and the accesses of `bucket` saved. -/
theorem remove_separately (hc : TrieSpec.CfgOk c) {t : Trie} {key : Nat} {n : Nat} {m : TMem} (hd : ∀ i, i < c.bucketMax → Deep c m n (m.cell t.base i))
    {i : Ptr} {m1 : TMem} {b : Nat} (eb : trieBucketC c t key (m, 0) = some (i, (m1, b)))
    {r : Trie × Nat} {m' : TMem} {w : Nat} (er : trieRemoveC c t key (m, 0) = some (r, (m', w))) :
    m1 = m ∧ 0 < b ∧ TrieSpec.bucketRemoveC c t key (m, 0) = some (r, (m', if i = 0 then w else w + b)) ∧ (i = 0 → r = (t, 0) ∧ m' = m ∧ w = b) := by
  unfold trieBucketC at eb
  unfold trieRemoveC at er
  unfold TrieSpec.bucketRemoveC
  have eb0 : trieBucketC c t key (m, 0) = some (i, (m1, b)) := by unfold trieBucketC; exact eb
  rw [run_bind, eb0]
  clear eb0
  obtain ⟨x, m2, e1, eb1⟩ := tbind_some eb
  clear eb
  have e1' := e1
  obtain rfl := shrKey_eq e1
  obtain ⟨u, m3, e2, eb2⟩ := tbind_some eb1
  clear eb1
  have e2' := e2
  obtain ⟨hx, rfl⟩ := assertT_eq e2
  obtain ⟨p, m4, e3, eb⟩ := tbind_some eb2
  clear eb2
  obtain ⟨rfl, rfl⟩ := cellGet_eq e3
  rw [tbind_run e1', tbind_run e2', run_bind] at er
  obtain ⟨⟨q, m5, k5⟩, e5, er2⟩ := Option.bind_eq_some_iff.1 er
  clear er
  obtain ⟨rfl, a2, a3, a4⟩ := rem_loop hc key _ _ _ ⟨t.base, x⟩ [] (hd x hx) _ _ _ _ eb
  refine ⟨rfl, by omega, ?_⟩
  by_cases hi : i = 0
  · obtain ⟨rfl⟩ := a3 hi _ _ _ e5
    simp only [Option.bind_some, if_true, run_pure, Option.some.injEq, Prod.mk.injEq] at er2 ⊢
    obtain ⟨rfl, rfl, rfl⟩ := er2
    simp only [hi, if_true, run_pure, true_and, forall_const]
    refine ⟨?_, by omega⟩
    congr 3; omega
  · obtain ⟨b0, b1⟩ := a4 hi
    obtain ⟨b2, b3, b4⟩ := b1 _ _ _ _ _ e5
    refine ⟨?_, fun h => absurd h hi⟩
    simp only [Option.bind_some] at er2 ⊢
    rw [b2, if_neg hi] at er2
    obtain ⟨d, m6, e6, er⟩ := tbind_some er2
    cases er
    simp only [if_neg hi]
    unfold trieRemoveExistingC
    rw [tbind_run b0, tbind_run e1', tbind_run e2', run_bind, b4]
    show (Tommy.tick 0 (assertT (q.2 = i)) >>= _) (m5, _) = _
    rw [tbind_run (show assertT (q.2 = i) m5 = some ((), m5) by unfold assertT; rw [if_pos b2]), b2, tbind_run e6]
    simp only [run_pure]
    congr 3
    omega

/-! ### tommytrieinp -/

open HashSpec (Elem)

/-- Where `bucket` ends, the descent of `remove` ends. -/
theorem inp_loop (hc : TrieSpec.CfgOk c) (key : Nat) (m : TMem) : ∀ (n shift : Nat) (l : Loc), IDeep c m n (m.cell l.base l.idx) →
    ∀ k i m1 k1, inpBucketLoopC c (m.cell l.base l.idx) shift key (m, k) = some (i, (m1, k1)) → m1 = m ∧ k ≤ k1 ∧
      (i ≠ 0 → onN (getIndex i) m = some (key, m)) ∧
      ∀ k0 r, inpDescendC c shift l key (m, k0) = some r → r.1.2 = i ∧ r.2 = (m, k0 + 1 + (k1 - k)) := by
  intro n
  induction n with
  | zero =>
    intro shift l hd k i m1 k1 e
    have hd : m.cell l.base l.idx = 0 := hd
    rw [inpBucketLoopC, if_pos hd] at e
    simp only [run_pure, Option.some.injEq, Prod.mk.injEq] at e
    obtain ⟨rfl, rfl, rfl⟩ := e
    refine ⟨rfl, Nat.le_refl _, fun h => absurd rfl h, fun k0 r er => ?_⟩
    rw [inpDescendC] at er
    obtain ⟨q, m2, e1, e2⟩ := tbind_some er
    obtain ⟨rfl, rfl⟩ := cellGet_eq e1
    rw [if_pos hd] at e2
    cases e2
    simp
  | succ n ih =>
    intro shift l hd k i m1 k1 e
    rw [inpBucketLoopC] at e
    by_cases h0 : m.cell l.base l.idx = 0
    · rw [if_pos h0] at e
      simp only [run_pure, Option.some.injEq, Prod.mk.injEq] at e
      obtain ⟨rfl, rfl, rfl⟩ := e
      refine ⟨rfl, Nat.le_refl _, fun h => absurd rfl h, fun k0 r er => ?_⟩
      rw [inpDescendC] at er
      obtain ⟨q, m2, e1, e2⟩ := tbind_some er
      obtain ⟨rfl, rfl⟩ := cellGet_eq e1
      rw [if_pos h0] at e2
      cases e2
      simp
    · rw [if_neg h0] at e
      obtain ⟨idx, m2, e1, e2⟩ := tbind_some e
      obtain rfl := getIndex_eq e1
      by_cases hk : idx = key
      · rw [if_pos hk] at e2
        simp only [run_pure, Option.some.injEq, Prod.mk.injEq] at e2
        obtain ⟨rfl, rfl, rfl⟩ := e2
        refine ⟨rfl, by omega, fun _ => hk ▸ e1, fun k0 r er => ?_⟩
        rw [inpDescendC] at er
        obtain ⟨q, m3, e3, e4⟩ := tbind_some er
        obtain ⟨rfl, rfl⟩ := cellGet_eq e3
        rw [if_neg h0, tbind_run e1, if_pos hk] at e4
        cases e4
        simp only [true_and]
        congr 1; omega
      · rw [if_neg hk] at e2
        obtain ⟨x, m3, e3, e4⟩ := tbind_some e2
        have e3' := e3
        obtain ⟨hx, rfl⟩ := slot_eq hc e3
        obtain ⟨q, m4, e5, e6⟩ := tbind_some e4
        obtain ⟨rfl, rfl⟩ := cellGet_eq e5
        obtain ⟨a1, a2, a3, a4⟩ := ih _ ⟨m4.cell l.base l.idx, x⟩ (hd h0 x hx) _ _ _ _ e6
        refine ⟨a1, by omega, a3, fun k0 r er => ?_⟩
        rw [inpDescendC] at er
        obtain ⟨q, m5, e7, e8⟩ := tbind_some er
        obtain ⟨rfl, rfl⟩ := cellGet_eq e7
        rw [if_neg h0, tbind_run e1, if_neg hk, tbind_run e3'] at e8
        obtain ⟨b1, b2⟩ := a4 _ _ e8
        refine ⟨b1, ?_⟩
        rw [b2]
        congr 1; omega

omit [Arch] in
theorem unlink_ret {l : Loc} {node remove q : Ptr} {m m' : TMem} {k k' : Nat}
    (e : inpUnlinkC c l node remove (m, k) = some (q, (m', k'))) : q = remove := by
  unfold inpUnlinkC inpListRemoveC at e
  obtain ⟨_, m1, _, e⟩ := tbind_some e
  obtain ⟨now, m2, _, e⟩ := tbind_some e
  by_cases h1 : now = node
  · rw [if_pos h1] at e; cases e; rfl
  · rw [if_neg h1] at e
    by_cases h2 : now ≠ 0
    · rw [if_pos h2] at e
      obtain ⟨_, m3, _, e⟩ := tbind_some e
      cases e; rfl
    · rw [if_neg h2, run_bind] at e
      obtain ⟨⟨a, m3, k3⟩, _, e⟩ := Option.bind_eq_some_iff.1 e
      obtain ⟨e, _⟩ := tick_some e
      match a, e with
      | (none, _), e => cases e; rfl
      | (some _, _), e =>
        unfold inpReplace at e
        simp only [run_bind] at e
        obtain ⟨_, _, e⟩ := Option.bind_eq_some_iff.1 e
        obtain ⟨_, _, e⟩ := Option.bind_eq_some_iff.1 e
        obtain ⟨⟨_, _⟩, _, e⟩ := Option.bind_eq_some_iff.1 e
        cases e; rfl

theorem inp_remove_separately (hc : InpSpec.CfgOk c) {t : InpTrie} {key : Nat} {es : List Elem} {m : TMem} (ht : InpSpec.TrieOk c m t es)
    {i : Ptr} {m1 : TMem} {b : Nat} (eb : inpBucketC c t key (m, 0) = some (i, (m1, b)))
    {r : InpTrie × Nat} {m' : TMem} (ey : inpRemove c t key m = some (r, m')) {w : Nat} (er : inpRemoveC c t key (m, 0) = some (r, (m', w))) :
    m1 = m ∧ 0 < b ∧ InpSpec.bucketRemoveC c t key (m, 0) = some (r, (m', if i = 0 then w else w + b + 1)) ∧ (i = 0 → r = (t, 0) ∧ m' = m ∧ w = b) := by
  obtain ⟨ch, T⟩ := ht.top
  have eb0 := eb
  unfold inpBucketC at eb
  unfold inpRemoveC at er
  unfold inpRemove at ey
  unfold InpSpec.bucketRemoveC
  rw [run_bind, eb0]
  clear eb0
  obtain ⟨x, m2, e1, eb1⟩ := tbind_some eb
  clear eb
  have e1' := e1
  obtain rfl := shrKey_eq e1
  obtain ⟨u, m3, e2, eb2⟩ := tbind_some eb1
  clear eb1
  have e2' := e2
  obtain ⟨hx, rfl⟩ := assertT_eq e2
  obtain ⟨p, m4, e3, eb⟩ := tbind_some eb2
  clear eb2
  obtain ⟨rfl, rfl⟩ := cellGet_eq e3
  rw [run_bind, e1', Option.bind_some, run_bind, e2', Option.bind_some, run_bind] at ey
  obtain ⟨⟨q, m5⟩, e5, _⟩ := Option.bind_eq_some_iff.1 ey
  clear ey
  obtain ⟨rfl, a2, a3, a4⟩ := inp_loop hc.trie key _ _ _ ⟨t.base, x⟩ (IDeep.of_rep (T.kids x hx) fun _ _ _ => rfl) _ _ _ _ eb
  obtain ⟨d, ed, _⟩ := cost_inpBucketRemove hc.trie _ ⟨t.base, x⟩ 0 key (T.kids x hx) (flatMap_nodup (T.all_nodup hc) hx)
    (fun hy => T.base (T.nmem hc hx hy)) q m5 e5
  rw [tbind_run e1', tbind_run e2', run_bind, ed] at er
  refine ⟨rfl, by omega, ?_⟩
  simp only [Option.bind_some] at er ⊢
  by_cases hi : i = 0
  · have h0 := ed (0 + 0 + 0)
    unfold inpBucketRemoveC at h0
    rw [run_bind] at h0
    obtain ⟨⟨⟨l', i'⟩, m6, k6⟩, e6, e7⟩ := Option.bind_eq_some_iff.1 h0
    obtain ⟨b1, b2⟩ := a4 _ _ e6
    have b1 : i' = i := b1
    have b2 : (m6, k6) = (m1, _) := b2
    cases b2
    rw [b1, hi, if_pos rfl] at e7
    simp only [run_pure, Option.some.injEq, Prod.mk.injEq] at e7
    obtain ⟨rfl, rfl, hd⟩ := e7
    simp only [if_true, run_pure, Option.some.injEq, Prod.mk.injEq] at er
    obtain ⟨rfl, rfl, rfl⟩ := er
    simp only [hi, if_true, run_pure, true_and, forall_const, Option.some.injEq, Prod.mk.injEq]
    omega
  · have eq : ∀ j, inpBucketRemoveC c (inpBucketShift c) ⟨t.base, x⟩ i key (m1, j) = inpBucketRemoveC c (inpBucketShift c) ⟨t.base, x⟩ 0 key (m1, j) := by
      intro j
      have h0 := ed j
      unfold inpBucketRemoveC at h0 ⊢
      rw [run_bind] at h0 ⊢
      rw [run_bind]
      obtain ⟨⟨⟨l', i'⟩, m6, k6⟩, e6, e7⟩ := Option.bind_eq_some_iff.1 h0
      obtain ⟨b1, b2⟩ := a4 _ _ e6
      have b1 : i' = i := b1
      rw [e6]
      simp only [Option.bind_some, b1, if_neg hi, if_true]
    have qi : q = i := by
      have h0 := ed 0
      unfold inpBucketRemoveC at h0
      rw [run_bind] at h0
      obtain ⟨⟨⟨l', i'⟩, m6, k6⟩, e6, e7⟩ := Option.bind_eq_some_iff.1 h0
      obtain ⟨b1, b2⟩ := a4 _ _ e6
      have b1 : i' = i := b1
      simp only [b1, if_neg hi, if_true] at e7
      exact unlink_ret e7
    subst qi
    rw [if_neg hi] at er
    obtain ⟨dd, m7, e8, e9⟩ := tbind_some er
    simp only [run_pure, Option.some.injEq, Prod.mk.injEq] at e9
    obtain ⟨rfl, rfl, rfl⟩ := e9
    refine ⟨?_, fun h => absurd h hi⟩
    simp only [if_neg hi]
    unfold inpRemoveExistingC
    rw [tbind_run (a3 hi), tbind_run e1', tbind_run e2', run_bind, eq, ed]
    show (Tommy.tick 0 (assertT (q = q)) >>= _) (m5, _) = _
    rw [tbind_run (show assertT (q = q) m5 = some ((), m5) by unfold assertT; rw [if_pos rfl]), tbind_run e8]
    simp only [run_pure]
    congr 3
    omega

/-! ### The calls -/

theorem trie_separately (hc : TrieSpec.CfgOk c) {s : TrieSpec.St} {a : TrieSpec.Ab} (hr : (TrieSpec.sys c).Reach s a) {v k : Nat} {es : List Elem}
    (hv : a.val v = some es) (hk : k < 2 ^ c.bit) : ∃ r n r' b, TrieSpec.stepC c (.remove v k) s = some (r, n) ∧
      TrieSpec.stepC c (.bucket v k) s = some (r', b) ∧ 0 < b ∧
      (k ∈ es.map Elem.hash → TrieSpec.separately c v k s = some (r, n + b)) ∧
      (k ∉ es.map Elem.hash → TrieSpec.separately c v k s = some (r, n) ∧ n = b) := by
  have i := TrieSpec.reach_inv hc s a hr
  have so : (a.val v).isSome := by rw [hv]; rfl
  obtain ⟨r, n, _, er, _⟩ := trie_step hc hr (.remove v k) ⟨so, hk⟩
  obtain ⟨r', b, _, eb, _⟩ := trie_step hc hr (.bucket v k) ⟨so, hk⟩
  refine ⟨r, n, r', b, er, eb, ?_⟩
  have T := i.start hc [] hv
  obtain ⟨ch, T1⟩ := T.top
  have deep : ∀ j, j < c.bucketMax → Deep c (TrieSpec.start s []) (levels c) ((TrieSpec.start s []).cell (s.var v).base j) :=
    fun j hj => Deep.of_rep (T1.kids j hj)
  obtain ⟨q, run, rep⟩ := TrieSpec.trieBucket_spec hc T hk
  obtain ⟨d, ed, _⟩ := cost_bucket hc (s.var v) k deep q _ run
  have ed := ed 0
  unfold TrieSpec.stepC TrieSpec.callC at er eb
  obtain ⟨⟨x, m', w⟩, e1, e2⟩ := Option.map_eq_some_iff.1 er
  cases e2
  obtain ⟨⟨y, m2, w2⟩, e3, e4⟩ := Option.map_eq_some_iff.1 eb
  cases e4
  have e1 : trieRemoveC c (s.var v) k (TrieSpec.start s [], 0) = some (x, (m', w)) := e1
  have e3 : (trieBucketC c (s.var v) k >>= fun i => Tommy.tick 0 (onN (HashSpec.walkLoop i []))) (TrieSpec.start s [], 0) = some (y, (m2, w2)) := e3
  rw [run_bind, ed] at e3
  obtain ⟨_, hw⟩ := tick_some e3
  rw [Nat.add_zero, Nat.zero_add] at hw
  rw [Nat.zero_add, ← hw] at ed
  obtain ⟨_, hb, hs, h0⟩ := remove_separately hc deep ed e1
  refine ⟨hb, fun hm => ?_, fun hm => ?_⟩
  · have hq : q ≠ 0 := by
      obtain ⟨e, he, rfl⟩ := List.mem_map.1 hm
      intro hq
      have hm' : e ∈ es.filter (fun f => f.hash = e.hash) := by simp [he]
      obtain ⟨f, L, hL⟩ := List.exists_cons_of_ne_nil (List.ne_nil_of_mem hm')
      rw [hL] at rep
      have hq2 : q = f.node := rep.list.head
      exact (rep.ok (e := f) (by simp)).1 (hq2 ▸ hq)
    rw [if_neg hq] at hs
    unfold TrieSpec.separately TrieSpec.callC
    have hs : TrieSpec.bucketRemoveC c (s.var v) k ({ s.mem with supply := [], freed := [] }, 0) = some (x, (m', w + w2)) := hs
    rw [hs]; rfl
  · have hq : q = 0 := by
      have : es.filter (fun f => f.hash = k) = [] := by
        rw [List.filter_eq_nil_iff]
        intro f hf hfk
        exact hm (List.mem_map.2 ⟨f, hf, by simpa using hfk⟩)
      rw [this] at rep
      exact rep.list.head
    rw [if_pos hq] at hs
    unfold TrieSpec.separately TrieSpec.callC
    have hs : TrieSpec.bucketRemoveC c (s.var v) k ({ s.mem with supply := [], freed := [] }, 0) = some (x, (m', w)) := hs
    rw [hs]
    exact ⟨rfl, (h0 hq).2.2⟩

theorem inp_separately (hc : InpSpec.CfgOk c) {s : InpSpec.St} {a : InpSpec.Ab} (hr : (InpSpec.sys c).Reach s a) {v k : Nat} {es : List Elem}
    (hv : a.val v = some es) (hk : k < 2 ^ c.bit) : ∃ r n r' b, InpSpec.stepC c (.remove v k) s = some (r, n) ∧
      InpSpec.stepC c (.bucket v k) s = some (r', b) ∧ 0 < b ∧
      (k ∈ es.map Elem.hash → InpSpec.separately c v k s = some (r, n + b + 1)) ∧
      (k ∉ es.map Elem.hash → InpSpec.separately c v k s = some (r, n) ∧ n = b) := by
  have i := InpSpec.reach_inv hc s a hr
  have so : (a.val v).isSome := by rw [hv]; rfl
  obtain ⟨r, n, ey, er, _⟩ := inp_step hc hr (.remove v k) ⟨so, hk⟩
  obtain ⟨r', b, _, eb, _⟩ := inp_step hc hr (.bucket v k) ⟨so, hk⟩
  refine ⟨r, n, r', b, er, eb, ?_⟩
  have T := i.trie v es hv
  obtain ⟨ch, T1⟩ := T.top
  obtain ⟨q, run, rep⟩ := InpSpec.inpBucket_spec hc T hk
  obtain ⟨d, ed, _⟩ := cost_inpBucket hc.trie (s.var v) k (n := InpSpec.depth c + 1)
    (fun j hj => IDeep.of_rep (T1.kids j hj) fun _ _ _ => rfl) q _ run
  have ed := ed 0
  unfold InpSpec.stepC InpSpec.callC at er eb
  unfold InpSpec.step InpSpec.call at ey
  obtain ⟨⟨x, m', w⟩, e1, e2⟩ := Option.map_eq_some_iff.1 er
  cases e2
  obtain ⟨⟨y, m2, w2⟩, e3, e4⟩ := Option.map_eq_some_iff.1 eb
  cases e4
  obtain ⟨⟨x', m''⟩, e5, e6⟩ := Option.map_eq_some_iff.1 ey
  obtain ⟨w', e7, _⟩ := cost_inpRemove hc (s.var v) k T x' m'' e5
  have e7 := (e7 0).symm.trans e1
  cases e7
  rw [run_bind, ed] at e3
  obtain ⟨_, hw⟩ := tick_some e3
  rw [Nat.add_zero, Nat.zero_add] at hw
  rw [Nat.zero_add, ← hw] at ed
  obtain ⟨_, hb, hs, h0⟩ := inp_remove_separately hc T ed e5 e1
  refine ⟨hb, fun hm => ?_, fun hm => ?_⟩
  · have hq : q ≠ 0 := by
      obtain ⟨e, he, rfl⟩ := List.mem_map.1 hm
      intro hq
      have hm' : e ∈ es.filter (fun f => f.hash = e.hash) := by simp [he]
      obtain ⟨f, L, hL⟩ := List.exists_cons_of_ne_nil (List.ne_nil_of_mem hm')
      rw [hL] at rep
      have hq2 : q = f.node := rep.list.head
      exact (rep.ok (e := f) (by simp)).1 (hq2 ▸ hq)
    rw [if_neg hq] at hs
    unfold InpSpec.separately InpSpec.callC
    rw [hs]; rfl
  · have hq : q = 0 := by
      have : es.filter (fun f => f.hash = k) = [] := by
        rw [List.filter_eq_nil_iff]
        intro f hf hfk
        exact hm (List.mem_map.2 ⟨f, hf, by simpa using hfk⟩)
      rw [this] at rep
      exact rep.list.head
    rw [if_pos hq] at hs
    unfold InpSpec.separately InpSpec.callC
    rw [hs]
    exact ⟨rfl, (h0 hq).2.2⟩

end TrieCost
end Tommy
