import Verif.Model.Tree
import Verif.Proof.Arch
/-! Balance of the tree, on inductive trees. -/
namespace Tommy

variable [Arch]
namespace TreeP

/-- Trees: address and index of the node, and children. -/
inductive T
  | nil
  | node (p i : Nat) (l r : T)

namespace T

def idx : T → Nat
  | nil => 0
  | node _ i _ _ => i

omit [Arch] in
theorem idx_node (p i l r) : (node p i l r).idx = i := rfl

def ptr : T → Nat
  | nil => 0
  | node p _ _ _ => p

/-- The nodes in order. -/
def nodes : T → List Nat
  | nil => []
  | node p _ l r => l.nodes ++ p :: r.nodes

def mirror : T → T
  | nil => nil
  | node p i l r => node p i r.mirror l.mirror

omit [Arch] in
@[simp] theorem mirror_mirror (t : T) : t.mirror.mirror = t := by
  induction t <;> simp_all [mirror]

omit [Arch] in
@[simp] theorem idx_mirror (t : T) : t.mirror.idx = t.idx := by cases t <;> rfl

/-- The invariant: it is an AVL tree in `index`, with the exception of the index of the leaves just inserted, that is 0. -/
def Good : T → Prop
  | nil => True
  | node _ i l r => l.Good ∧ r.Good ∧ l.idx ≤ r.idx + 1 ∧ r.idx ≤ l.idx + 1 ∧
      (i = max l.idx r.idx + 1 ∨ (i = 0 ∧ l = nil ∧ r = nil))

omit [Arch] in
theorem good_mirror {t : T} (h : t.Good) : t.mirror.Good := by
  induction t with
  | nil => trivial
  | node p i l r ihl ihr =>
    obtain ⟨h1, h2, h3, h4, h5⟩ := h
    refine ⟨ihr h2, ihl h1, by simpa using h4, by simpa using h3, ?_⟩
    rcases h5 with h5 | ⟨h5, rfl, rfl⟩
    · left; simp [h5, Nat.max_comm]
    · right; exact ⟨h5, rfl, rfl⟩

end T

open T

/-- `Bal l x r t`: balancing the node `x` with children `l` and `r` gives `t`. It follows the code. -/
inductive Bal : T → Nat → T → T → Prop
  | plain {l x r} : l.idx ≤ r.idx + 1 → r.idx ≤ l.idx + 1 → Bal l x r (node x (max l.idx r.idx + 1) l r)
  | left1 {l x y j rl rr t1 t} : l.idx + 1 < j → rl.idx ≤ rr.idx → Bal l x rl t1 → Bal t1 y rr t →
      Bal l x (node y j rl rr) t
  | left2 {l x y j z k u v rr w y2 j2 l2 r2 t1 t} : l.idx + 1 < j → rr.idx < k → Bal v y rr w →
      Bal u z w (node y2 j2 l2 r2) → Bal l x l2 t1 → Bal t1 y2 r2 t → Bal l x (node y j (node z k u v) rr) t
  | right1 {r x y j ll lr t1 t} : r.idx + 1 < j → lr.idx ≤ ll.idx → Bal lr x r t1 → Bal ll y t1 t →
      Bal (node y j ll lr) x r t
  | right2 {r x y j z k u v ll w y2 j2 l2 r2 t1 t} : r.idx + 1 < j → ll.idx < k → Bal ll y u w →
      Bal w z v (node y2 j2 l2 r2) → Bal r2 x r t1 → Bal l2 y2 t1 t → Bal (node y j ll (node z k u v)) x r t

omit [Arch] in
theorem Bal.mirror {l x r t} (h : Bal l x r t) : Bal r.mirror x l.mirror t.mirror := by
  induction h with
  | @plain l x r h1 h2 =>
    simp only [T.mirror]
    have := Bal.plain (l := r.mirror) (x := x) (r := l.mirror) (by simpa using h2) (by simpa using h1)
    simp only [idx_mirror] at this
    rw [Nat.max_comm] at this
    exact this
  | left1 h1 h2 _ _ ih1 ih2 => exact Bal.right1 (by simpa using h1) (by simpa using h2) ih1 ih2
  | left2 h1 h2 _ _ _ _ ih1 ih2 ih3 ih4 => exact Bal.right2 (by simpa using h1) (by simpa using h2) ih1 ih2 ih3 ih4
  | right1 h1 h2 _ _ ih1 ih2 => exact Bal.left1 (by simpa using h1) (by simpa using h2) ih1 ih2
  | right2 h1 h2 _ _ _ _ ih1 ih2 ih3 ih4 => exact Bal.left2 (by simpa using h1) (by simpa using h2) ih1 ih2 ih3 ih4

omit [Arch] in
theorem Bal.nodes {l x r t} (h : Bal l x r t) : t.nodes = l.nodes ++ x :: r.nodes := by
  induction h with
  | plain => rfl
  | left1 _ _ _ _ ih1 ih2 => simp [ih2, ih1, T.nodes]
  | left2 _ _ _ _ _ _ ih1 ih2 ih3 ih4 =>
    simp only [T.nodes, ih1] at ih2
    simp only [T.nodes, ih4, ih3, List.append_assoc, List.cons_append] at ih2 ⊢
    rw [ih2]
  | right1 _ _ _ _ ih1 ih2 => simp [ih2, ih1, T.nodes]
  | right2 _ _ _ _ _ _ ih1 ih2 ih3 ih4 =>
    simp only [T.nodes, ih1] at ih2
    have ih2 := fun s => congrArg (fun l => l ++ s) ih2
    simp only [List.append_assoc, List.cons_append] at ih2
    simp only [T.nodes, ih4, ih3, List.append_assoc, List.cons_append]
    exact ih2 (_ :: _)

/-- Balance works, and returns a good tree with the same index of the higher child, or one more. -/
def Ok (l : T) (x : Nat) (r : T) : Prop :=
  ∃ t, Bal l x r t ∧ t.Good ∧ (t.idx = max l.idx r.idx ∨ t.idx = max l.idx r.idx + 1)

omit [Arch] in
theorem Ok.of_mirror {l x r} (h : Ok r.mirror x l.mirror) : Ok l x r := by
  obtain ⟨t, h1, h2, h3⟩ := h
  have := h1.mirror
  simp only [mirror_mirror] at this
  refine ⟨t.mirror, this, good_mirror h2, ?_⟩
  simp only [idx_mirror] at h3 ⊢
  rw [Nat.max_comm]; exact h3

omit [Arch] in
theorem good_plain {l x r} (hl : l.Good) (hr : r.Good) (h1 : l.idx ≤ r.idx + 1) (h2 : r.idx ≤ l.idx + 1) :
    (node x (max l.idx r.idx + 1) l r).Good := ⟨hl, hr, h1, h2, Or.inl rfl⟩

omit [Arch] in
theorem ok_plain {l x r} (hl : l.Good) (hr : r.Good) (h1 : l.idx ≤ r.idx + 1) (h2 : r.idx ≤ l.idx + 1) : Ok l x r :=
  ⟨_, .plain h1 h2, good_plain hl hr h1 h2, Or.inr rfl⟩

omit [Arch] in
/-- A node with a not zero index. -/
theorem good_pos {t : T} (h : t.Good) (h0 : 0 < t.idx) : ∃ p l r, t = node p t.idx l r ∧ l.Good ∧ r.Good ∧
    l.idx ≤ r.idx + 1 ∧ r.idx ≤ l.idx + 1 ∧ t.idx = max l.idx r.idx + 1 := by
  cases t with
  | nil => cases h0
  | node p i l r =>
    obtain ⟨h1, h2, h3, h4, h5⟩ := h
    refine ⟨p, l, r, rfl, h1, h2, h3, h4, ?_⟩
    rcases h5 with h5 | ⟨h5, _⟩
    · exact h5
    · change 0 < i at h0; omega

omit [Arch] in
/-- The difference is two, and the double rotation is not undone. -/
theorem two_a {l x y j rl rr} (hl : l.Good) (hr : (node y j rl rr).Good) (hd : j = l.idx + 2)
    (hc : rl.idx ≤ rr.idx ∨ ∃ z k u v, rl = node z k u v ∧ v.idx ≤ u.idx) : Ok l x (node y j rl rr) := by
  obtain ⟨g1, g2, g3, g4, g5⟩ := hr
  have g5 : j = max rl.idx rr.idx + 1 := by rcases g5 with g | ⟨g, _⟩ <;> omega
  by_cases h1 : rl.idx ≤ rr.idx
  · refine ⟨_, .left1 (by omega) h1 (.plain (by omega) (by omega)) (.plain ?_ ?_),
      good_plain (good_plain hl g1 ?_ ?_) g2 ?_ ?_, ?_⟩ <;> (try simp only [idx_node]) <;> omega
  · rcases hc with h | ⟨z, k, u, v, rfl, hc⟩
    · exact absurd h h1
    · simp only [idx_node] at h1 g3 g4 g5
      obtain ⟨e1, e2, e3, e4, e5⟩ := g1
      have e5 : k = max u.idx v.idx + 1 := by rcases e5 with g | ⟨g, _⟩ <;> omega
      refine ⟨_, .left2 (by omega) (by omega) (.plain (by omega) (by omega)) (.plain ?_ ?_) (.plain ?_ ?_) (.plain ?_ ?_),
        good_plain (good_plain hl e1 ?_ ?_) (good_plain e2 g2 ?_ ?_) ?_ ?_, ?_⟩ <;> (try simp only [idx_node]) <;> omega

omit [Arch] in
theorem two_a' {r x y j ll lr} (hr : r.Good) (hl : (node y j ll lr).Good) (hd : j = r.idx + 2)
    (hc : lr.idx ≤ ll.idx ∨ ∃ z k u v, lr = node z k u v ∧ u.idx ≤ v.idx) : Ok (node y j ll lr) x r := by
  apply Ok.of_mirror
  refine two_a (good_mirror hr) (good_mirror hl) (by simpa using hd) ?_
  rcases hc with h | ⟨z, k, u, v, rfl, h⟩
  · left; simpa using h
  · right; exact ⟨z, k, v.mirror, u.mirror, rfl, by simpa using h⟩

omit [Arch] in
/-- The double rotation to the right of the right child is undone. -/
theorem undone {y z k u v rr} (h1 : rr.idx + 1 = k) (h2 : v.idx + 1 = k) (h3 : u.idx + 2 = k) :
    Bal v y rr (node y k v rr) ∧ Bal u z (node y k v rr) (node y (k + 1) (node z k u v) rr) := by
  refine ⟨?_, ?_⟩
  · have := Bal.plain (l := v) (x := y) (r := rr) (by omega) (by omega)
    rwa [show max v.idx rr.idx + 1 = k by omega] at this
  · refine .left1 (by omega) (by omega) (t1 := node z k u v) ?_ ?_
    · have := Bal.plain (l := u) (x := z) (r := v) (by omega) (by omega)
      rwa [show max u.idx v.idx + 1 = k by omega] at this
    · have := Bal.plain (l := node z k u v) (x := y) (r := rr) (by simp only [idx_node]; omega) (by simp only [idx_node]; omega)
      simp only [idx_node] at this
      rwa [show max k rr.idx + 1 = k + 1 by omega] at this

omit [Arch] in
/-- The difference is two. -/
theorem two {l x r} (hl : l.Good) (hr : r.Good) (hd : r.idx = l.idx + 2) : Ok l x r := by
  obtain ⟨y, rl, rr, e, g1, g2, g3, g4, g5⟩ := good_pos hr (by omega)
  generalize r.idx = j at *
  subst e
  by_cases h1 : rl.idx ≤ rr.idx
  · exact two_a hl hr hd (Or.inl h1)
  · obtain ⟨z, u, v, e, e1, e2, e3, e4, e5⟩ := good_pos g1 (by omega)
    generalize hk : rl.idx = k at *
    by_cases h2 : v.idx ≤ u.idx
    · exact two_a hl hr hd (Or.inr ⟨z, _, u, v, e, h2⟩)
    · subst e
      obtain ⟨b1, b2⟩ := undone (y := y) (z := z) (k := k) (u := u) (v := v) (rr := rr) (by omega) (by omega) (by omega)
      have b3 := Bal.plain (l := l) (x := x) (r := node z k u v) (by simp only [idx_node]; omega) (by simp only [idx_node]; omega)
      have gz : (node z k u v).Good := g1
      simp only [idx_node] at b3
      rw [show max l.idx k + 1 = k + 1 by omega] at b3
      obtain ⟨t, b4, gt, ht⟩ := two_a' (x := y) (y := x) (j := k + 1) (ll := l) (lr := node z k u v) g2
        ⟨hl, gz, by simp only [idx_node]; omega, by simp only [idx_node]; omega, Or.inl (by simp only [idx_node]; omega)⟩ (by omega)
        (Or.inr ⟨z, k, u, v, rfl, by omega⟩)
      refine ⟨t, .left2 (by omega) (by omega) b1 b2 b3 b4, gt, ?_⟩
      simp only [idx_node] at ht ⊢
      omega

omit [Arch] in
theorem two' {l x r} (hl : l.Good) (hr : r.Good) (hd : l.idx = r.idx + 2) : Ok l x r :=
  Ok.of_mirror (two (good_mirror hr) (good_mirror hl) (by simpa using hd))

omit [Arch] in
theorem more {n l x r} (ih : ∀ l x r, l.Good → r.Good → l.idx < n → r.idx < n → Ok l x r) (hl : l.Good) (hr : r.Good)
    (hd : l.idx + 2 < r.idx) (hn : r.idx ≤ n) : Ok l x r := by
  obtain ⟨y, rl, rr, e, g1, g2, g3, g4, g5⟩ := good_pos hr (by omega)
  generalize r.idx = j at *
  subst e
  by_cases h1 : rl.idx ≤ rr.idx
  · obtain ⟨t1, b1, gt1, ht1⟩ := ih l x rl hl g1 (by omega) (by omega)
    refine ⟨_, .left1 (by omega) h1 b1 (.plain (by omega) (by omega)), good_plain gt1 g2 (by omega) (by omega), ?_⟩
    simp only [idx_node]
    omega
  · obtain ⟨z, u, v, e, e1, e2, e3, e4, e5⟩ := good_pos g1 (by omega)
    generalize hk : rl.idx = k at *
    by_cases h2 : v.idx ≤ u.idx
    · subst e
      obtain ⟨t1, b1, gt1, ht1⟩ := ih l x u hl e1 (by omega) (by omega)
      refine ⟨_, .left2 (by omega) (by omega) (.plain (by omega) (by omega)) (.plain ?_ ?_) b1 (.plain ?_ ?_),
        good_plain gt1 (good_plain e2 g2 ?_ ?_) ?_ ?_, ?_⟩ <;> (try simp only [idx_node]) <;> omega
    · subst e
      obtain ⟨b1, b2⟩ := undone (y := y) (z := z) (k := k) (u := u) (v := v) (rr := rr) (by omega) (by omega) (by omega)
      obtain ⟨t1, b3, gt1, ht1⟩ := ih l x (node z k u v) hl g1 (by omega) (by simp only [idx_node]; omega)
      simp only [idx_node] at ht1
      by_cases h3 : t1.idx = k
      · refine ⟨_, .left2 (by omega) (by omega) b1 b2 b3 (.plain (by omega) (by omega)), good_plain gt1 g2 (by omega) (by omega), ?_⟩
        simp only [idx_node]
        omega
      · obtain ⟨t, b4, gt, ht⟩ := two' (x := y) gt1 g2 (by omega)
        refine ⟨t, .left2 (by omega) (by omega) b1 b2 b3 b4, gt, ?_⟩
        simp only [idx_node]
        omega

omit [Arch] in
/-- Balance works for any difference. -/
theorem bal_ok {l x r} (hl : l.Good) (hr : r.Good) : Ok l x r := by
  suffices ∀ n l x r, l.Good → r.Good → l.idx ≤ n → r.idx ≤ n → Ok l x r from
    this (max l.idx r.idx) l x r hl hr (Nat.le_max_left _ _) (Nat.le_max_right _ _)
  intro n
  induction n using Nat.strongRecOn with
  | ind n ihn =>
    intro l x r hl hr h1 h2
    have ih : ∀ l x r, l.Good → r.Good → l.idx < n → r.idx < n → Ok l x r := fun l x r hl hr h1 h2 =>
      ihn (n - 1) (by omega) l x r hl hr (by omega) (by omega)
    by_cases c1 : l.idx + 2 < r.idx
    · exact more ih hl hr c1 h2
    · by_cases c2 : r.idx + 2 < l.idx
      · exact Ok.of_mirror (more ih (good_mirror hr) (good_mirror hl) (by simpa using c2) (by simpa using h1))
      · by_cases c3 : r.idx = l.idx + 2
        · exact two hl hr c3
        · by_cases c4 : l.idx = r.idx + 2
          · exact two' hl hr c4
          · exact ok_plain hl hr (by omega) (by omega)

end TreeP
end Tommy
