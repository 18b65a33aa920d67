import Verif.Proof.TreeCost
import Verif.Proof.TreeShape
/-! Bounds for the cost of the balance of the tree. -/
set_option linter.unusedSimpArgs false
set_option linter.unusedVariables false
namespace Tommy

variable [Arch]
namespace TreeP
open T

/-- Difference of the indexes. -/
def dist (l r : T) : Nat := (l.idx - r.idx) + (r.idx - l.idx)

/-- Bounds for the result and the cost of the balance. -/
structure Cost (m d i n : Nat) : Prop where
  idx : i = m ∨ i = m + 1
  plain : d ≤ 1 → i = m + 1 ∧ n = 1
  two : d ≤ 2 → n ≤ 11
  upper : n ≤ 16 * d + 1
  lower : d ≤ n
  pos : 1 ≤ n

/-- Balance works, with a cost in these bounds. -/
def OkN (l : T) (x : Nat) (r : T) : Prop :=
  ∃ t n, BalN l x r t n ∧ t.Good ∧ Cost (max l.idx r.idx) (dist l r) t.idx n

omit [Arch] in
theorem OkN.of_mirror {l x r} (h : OkN r.mirror x l.mirror) : OkN l x r := by
  obtain ⟨t, n, h1, h2, h3⟩ := h
  have := h1.mirror
  simp only [mirror_mirror] at this
  refine ⟨t.mirror, n, this, good_mirror h2, ?_⟩
  simp only [idx_mirror, dist] at h3 ⊢
  rw [Nat.max_comm, Nat.add_comm]; exact h3

omit [Arch] in
theorem okN_plain {l x r} (hl : l.Good) (hr : r.Good) (h1 : l.idx ≤ r.idx + 1) (h2 : r.idx ≤ l.idx + 1) : OkN l x r :=
  ⟨_, _, .plain h1 h2, good_plain hl hr h1 h2, ⟨Or.inr rfl, fun _ => ⟨rfl, rfl⟩, by omega, by omega, by unfold dist; omega, by omega⟩⟩

omit [Arch] in
/-- The difference is two, and the double rotation is not undone. -/
theorem twoN_a {l x y j rl rr} (hl : l.Good) (hr : (node y j rl rr).Good) (hd : j = l.idx + 2)
    (hc : rl.idx ≤ rr.idx ∨ ∃ z k u v, rl = node z k u v ∧ v.idx ≤ u.idx) :
    ∃ t n, BalN l x (node y j rl rr) t n ∧ t.Good ∧ (t.idx = j ∨ t.idx = j + 1) ∧ n ≤ 5 ∧ 2 ≤ n := by
  obtain ⟨g1, g2, g3, g4, g5⟩ := hr
  have g5 : j = max rl.idx rr.idx + 1 := by rcases g5 with g | ⟨g, _⟩ <;> omega
  by_cases h1 : rl.idx ≤ rr.idx
  · refine ⟨_, _, .left1 (by omega) h1 (.plain (by omega) (by omega)) (.plain ?_ ?_),
      good_plain (good_plain hl g1 ?_ ?_) g2 ?_ ?_, ?_⟩ <;> (try simp only [idx_node]) <;> omega
  · rcases hc with h | ⟨z, k, u, v, rfl, hc⟩
    · exact absurd h h1
    · simp only [idx_node] at h1 g3 g4 g5
      obtain ⟨e1, e2, e3, e4, e5⟩ := g1
      have e5 : k = max u.idx v.idx + 1 := by rcases e5 with g | ⟨g, _⟩ <;> omega
      refine ⟨_, _, .left2 (by omega) (by omega) (.plain (by omega) (by omega)) (.plain ?_ ?_) (.plain ?_ ?_) (.plain ?_ ?_),
        good_plain (good_plain hl e1 ?_ ?_) (good_plain e2 g2 ?_ ?_) ?_ ?_, ?_⟩ <;> (try simp only [idx_node]) <;> omega

omit [Arch] in
theorem twoN_a' {r x y j ll lr} (hr : r.Good) (hl : (node y j ll lr).Good) (hd : j = r.idx + 2)
    (hc : lr.idx ≤ ll.idx ∨ ∃ z k u v, lr = node z k u v ∧ u.idx ≤ v.idx) :
    ∃ t n, BalN (node y j ll lr) x r t n ∧ t.Good ∧ (t.idx = j ∨ t.idx = j + 1) ∧ n ≤ 5 ∧ 2 ≤ n := by
  obtain ⟨t, n, h1, h2, h3⟩ := twoN_a (x := x) (y := y) (j := j) (rl := lr.mirror) (rr := ll.mirror) (good_mirror hr) (good_mirror hl)
    (by simpa using hd) (by
      rcases hc with h | ⟨z, k, u, v, rfl, h⟩
      · left; simpa using h
      · right; exact ⟨z, k, v.mirror, u.mirror, rfl, by simpa using h⟩)
  have := h1.mirror
  simp only [T.mirror, mirror_mirror] at this
  exact ⟨t.mirror, n, this, good_mirror h2, by simpa using h3⟩

omit [Arch] in
/-- The double rotation to the right of the right child is undone. -/
theorem undoneN {y z k u v rr} (h1 : rr.idx + 1 = k) (h2 : v.idx + 1 = k) (h3 : u.idx + 2 = k) :
    BalN v y rr (node y k v rr) 1 ∧ BalN u z (node y k v rr) (node y (k + 1) (node z k u v) rr) 3 := by
  refine ⟨?_, ?_⟩
  · have := BalN.plain (l := v) (x := y) (r := rr) (by omega) (by omega)
    rwa [show max v.idx rr.idx + 1 = k by omega] at this
  · refine .left1 (by omega) (by omega) (t1 := node z k u v) (n1 := 1) (n2 := 1) ?_ ?_
    · have := BalN.plain (l := u) (x := z) (r := v) (by omega) (by omega)
      rwa [show max u.idx v.idx + 1 = k by omega] at this
    · have := BalN.plain (l := node z k u v) (x := y) (r := rr) (by simp only [idx_node]; omega) (by simp only [idx_node]; omega)
      simp only [idx_node] at this
      rwa [show max k rr.idx + 1 = k + 1 by omega] at this

omit [Arch] in
/-- The difference is two. -/
theorem twoN {l x r} (hl : l.Good) (hr : r.Good) (hd : r.idx = l.idx + 2) : OkN l x r := by
  obtain ⟨y, rl, rr, e, g1, g2, g3, g4, g5⟩ := good_pos hr (by omega)
  unfold OkN dist
  have fin : ∀ i n, (i = r.idx ∨ i = r.idx + 1) → n ≤ 11 → 2 ≤ n →
      Cost (max l.idx r.idx) (l.idx - r.idx + (r.idx - l.idx)) i n := fun i n h1 h2 h3 =>
    ⟨by omega, by omega, by omega, by omega, by omega, by omega⟩
  generalize r.idx = j at *
  subst e
  try simp only [idx_node] at *
  by_cases h1 : rl.idx ≤ rr.idx
  · obtain ⟨t, n, b, g, h, h5, h2⟩ := twoN_a (x := x) hl hr hd (Or.inl h1)
    exact ⟨t, n, b, g, fin _ _ h (by omega) h2⟩
  · obtain ⟨z, u, v, e, e1, e2, e3, e4, e5⟩ := good_pos g1 (by omega)
    generalize hk : rl.idx = k at *
    by_cases h2 : v.idx ≤ u.idx
    · obtain ⟨t, n, b, g, h, h5, h2⟩ := twoN_a (x := x) hl hr hd (Or.inr ⟨z, _, u, v, e, h2⟩)
      exact ⟨t, n, b, g, fin _ _ h (by omega) h2⟩
    · subst e
      obtain ⟨b1, b2⟩ := undoneN (y := y) (z := z) (k := k) (u := u) (v := v) (rr := rr) (by omega) (by omega) (by omega)
      have b3 := BalN.plain (l := l) (x := x) (r := node z k u v) (by simp only [idx_node]; omega) (by simp only [idx_node]; omega)
      have gz : (node z k u v).Good := g1
      simp only [idx_node] at b3
      rw [show max l.idx k + 1 = k + 1 by omega] at b3
      obtain ⟨t, n, b4, gt, ht, h5, h2⟩ := twoN_a' (x := y) (y := x) (j := k + 1) (ll := l) (lr := node z k u v) g2
        ⟨hl, gz, by simp only [idx_node]; omega, by simp only [idx_node]; omega, Or.inl (by simp only [idx_node]; omega)⟩ (by omega)
        (Or.inr ⟨z, k, u, v, rfl, by omega⟩)
      exact ⟨t, _, .left2 (by omega) (by omega) b1 b2 b3 b4, gt, fin _ _ (by omega) (by omega) (by omega)⟩

omit [Arch] in
theorem twoN' {l x r} (hl : l.Good) (hr : r.Good) (hd : l.idx = r.idx + 2) : OkN l x r :=
  OkN.of_mirror (twoN (good_mirror hr) (good_mirror hl) (by simpa using hd))

omit [Arch] in
theorem moreN {n l x r} (ih : ∀ l x r, l.Good → r.Good → l.idx < n → r.idx < n → OkN l x r) (hl : l.Good) (hr : r.Good)
    (hd : l.idx + 2 < r.idx) (hn : r.idx ≤ n) : OkN l x r := by
  obtain ⟨y, rl, rr, e, g1, g2, g3, g4, g5⟩ := good_pos hr (by omega)
  have fin : ∀ i m, (i = r.idx ∨ i = r.idx + 1) → m ≤ 16 * (r.idx - l.idx) + 1 → r.idx - l.idx ≤ m →
      Cost (max l.idx r.idx) (l.idx - r.idx + (r.idx - l.idx)) i m := fun i m h1 h2 h3 =>
    ⟨by omega, by omega, by omega, by omega, by omega, by omega⟩
  unfold OkN dist
  unfold OkN dist at ih
  generalize r.idx = j at *
  subst e
  try simp only [idx_node] at *
  by_cases h1 : rl.idx ≤ rr.idx
  · obtain ⟨t1, m, b1, gt1, ht1⟩ := ih l x rl hl g1 (by omega) (by omega)
    have c1 := ht1.idx; have c2 := ht1.upper; have c3 := ht1.lower
    refine ⟨_, _, .left1 (by omega) h1 b1 (.plain (by omega) (by omega)), good_plain gt1 g2 (by omega) (by omega), ?_⟩
    simp only [idx_node]
    exact fin _ _ (by omega) (by omega) (by omega)
  · obtain ⟨z, u, v, e, e1, e2, e3, e4, e5⟩ := good_pos g1 (by omega)
    generalize hk : rl.idx = k at *
    by_cases h2 : v.idx ≤ u.idx
    · subst e
      obtain ⟨t1, m, b1, gt1, ht1⟩ := ih l x u hl e1 (by omega) (by omega)
      have c1 := ht1.idx; have c2 := ht1.upper; have c3 := ht1.lower
      refine ⟨_, _, .left2 (by omega) (by omega) (.plain (by omega) (by omega)) (.plain ?_ ?_) b1 (.plain ?_ ?_),
        good_plain gt1 (good_plain e2 g2 ?_ ?_) ?_ ?_, fin _ _ ?_ ?_ ?_⟩ <;> (try simp only [idx_node]) <;> omega
    · subst e
      obtain ⟨b1, b2⟩ := undoneN (y := y) (z := z) (k := k) (u := u) (v := v) (rr := rr) (by omega) (by omega) (by omega)
      obtain ⟨t1, m, b3, gt1, ht1⟩ := ih l x (node z k u v) hl g1 (by omega) (by simp only [idx_node]; omega)
      simp only [idx_node] at ht1
      have c1 := ht1.idx; have c2 := ht1.upper; have c3 := ht1.lower
      by_cases h3 : t1.idx = k
      · refine ⟨_, _, .left2 (by omega) (by omega) b1 b2 b3 (.plain (by omega) (by omega)), good_plain gt1 g2 (by omega) (by omega), ?_⟩
        simp only [idx_node]
        exact fin _ _ (by omega) (by omega) (by omega)
      · obtain ⟨t, m', b4, gt, ht⟩ := twoN' (x := y) gt1 g2 (by omega)
        have d1 := ht.idx; have d2 := ht.two (by unfold dist; omega)
        exact ⟨t, _, .left2 (by omega) (by omega) b1 b2 b3 b4, gt, fin _ _ (by omega) (by omega) (by omega)⟩

omit [Arch] in
/-- Balance works for any difference, with a cost proportional to the difference. -/
theorem bal_okN {l x r} (hl : l.Good) (hr : r.Good) : OkN l x r := by
  suffices ∀ n l x r, l.Good → r.Good → l.idx ≤ n → r.idx ≤ n → OkN l x r from
    this (max l.idx r.idx) l x r hl hr (Nat.le_max_left _ _) (Nat.le_max_right _ _)
  intro n
  induction n using Nat.strongRecOn with
  | ind n ihn =>
    intro l x r hl hr h1 h2
    have ih : ∀ l x r, l.Good → r.Good → l.idx < n → r.idx < n → OkN l x r := fun l x r hl hr h1 h2 =>
      ihn (n - 1) (by omega) l x r hl hr (by omega) (by omega)
    by_cases c1 : l.idx + 2 < r.idx
    · exact moreN ih hl hr c1 h2
    · by_cases c2 : r.idx + 2 < l.idx
      · exact OkN.of_mirror (moreN ih (good_mirror hr) (good_mirror hl) (by simpa using c2) (by simpa using h1))
      · by_cases c3 : r.idx = l.idx + 2
        · exact twoN hl hr c3
        · by_cases c4 : l.idx = r.idx + 2
          · exact twoN' hl hr c4
          · exact okN_plain hl hr (by omega) (by omega)

end TreeP
end Tommy
