import Verif.Proof.TreeCostBound
/-! Cost of insert and remove on the pointer tree. -/
set_option linter.unusedSimpArgs false
set_option linter.unusedVariables false
namespace Tommy

variable [Arch]
namespace TreeP
open T

theorem balance_runC {l : T} {x : Nat} {r : T} (gl : l.Good) (gr : r.Good) (h : Heap) (k : Nat) (hx : h.ok x)
    (hl : Rep h l (h.prev x)) (hr : Rep h r (h.next x)) (hn : (l.nodes ++ x :: r.nodes).Nodup)
    (hlen : (l.nodes ++ x :: r.nodes).length < 2 ^ (sizeBit - 1)) :
    ∃ t n h', treeBalanceC x k h = some ((t.ptr, k + n), h') ∧ Rep h' t t.ptr ∧ Fr h h' (l.nodes ++ x :: r.nodes) ∧ t.Good ∧
      t.nodes = l.nodes ++ x :: r.nodes ∧ Cost (max l.idx r.idx) (dist l r) t.idx n := by
  obtain ⟨t, n, b, g, c⟩ := bal_okN (x := x) gl gr
  obtain ⟨h', e, rp, f, _⟩ := bal_simC b h k hx hl hr hn (good_sz gl) (good_sz gr) hlen
  exact ⟨t, n, h', e, rp, f, g, b.nodes, c⟩

/-- Sets the left child and balances. -/
theorem set_prev_balanceC {l : T} {x : Nat} {r : T} (gl : l.Good) (gr : r.Good) (h : Heap) (k : Nat) (hx : h.ok x)
    (hl : Rep h l l.ptr) (hr : Rep h r (h.next x)) (hn : (l.nodes ++ x :: r.nodes).Nodup)
    (hlen : (l.nodes ++ x :: r.nodes).length < 2 ^ (sizeBit - 1)) :
    ∃ t n h', treeBalanceC x k { h with prev := upd h.prev x l.ptr } = some ((t.ptr, k + n), h') ∧ Rep h' t t.ptr ∧
      Fr h h' (l.nodes ++ x :: r.nodes) ∧ t.Good ∧ t.nodes = l.nodes ++ x :: r.nodes ∧ Cost (max l.idx r.idx) (dist l r) t.idx n := by
  have hn' := hn
  simp only [List.nodup_append, List.nodup_cons, List.mem_cons] at hn'
  obtain ⟨t, m, h', e, rp, f, g, n, c⟩ := balance_runC gl gr { h with prev := upd h.prev x l.ptr } k hx
    (by simp only [upd_same]; exact hl.setPrev (by grind)) (hr.setPrev (by grind)) hn hlen
  exact ⟨t, m, h', e, rp, (Fr.setPrev (by simp)).trans f, g, n, c⟩

theorem set_next_balanceC {l : T} {x : Nat} {r : T} (gl : l.Good) (gr : r.Good) (h : Heap) (k : Nat) (hx : h.ok x)
    (hl : Rep h l (h.prev x)) (hr : Rep h r r.ptr) (hn : (l.nodes ++ x :: r.nodes).Nodup)
    (hlen : (l.nodes ++ x :: r.nodes).length < 2 ^ (sizeBit - 1)) :
    ∃ t n h', treeBalanceC x k { h with next := upd h.next x r.ptr } = some ((t.ptr, k + n), h') ∧ Rep h' t t.ptr ∧
      Fr h h' (l.nodes ++ x :: r.nodes) ∧ t.Good ∧ t.nodes = l.nodes ++ x :: r.nodes ∧ Cost (max l.idx r.idx) (dist l r) t.idx n := by
  have hn' := hn
  simp only [List.nodup_append, List.nodup_cons, List.mem_cons] at hn'
  obtain ⟨t, m, h', e, rp, f, g, n, c⟩ := balance_runC gl gr { h with next := upd h.next x r.ptr } k hx
    (hl.setNext (by grind)) (by simp only [upd_same]; exact hr.setNext (by grind)) hn hlen
  exact ⟨t, m, h', e, rp, (Fr.setNext (by simp)).trans f, g, n, c⟩

omit [Arch] in
/-- The cost along the right spine is quadratic. -/
theorem spine {a b i m nb N : Nat} (h1 : a ≤ b + 1) (h2 : b ≤ a + 1) (hi : i ≤ m + 1) (e : i = max a b + 1)
    (hb : b * (2 * m - b) ≤ 4 * nb) (hN : m ≤ N + a) : i * (2 * m - i) ≤ 4 * (nb + N) := by
  rcases Nat.lt_or_ge (2 * m) i with h | h
  · rw [Nat.sub_eq_zero_of_le (by omega)]; omega
  · obtain ⟨c, hc⟩ : ∃ c, 2 * m = i + c := ⟨2 * m - i, by omega⟩
    rw [hc, Nat.add_sub_cancel_left]
    have hb' : i = b + 1 ∨ i = b + 2 := by omega
    rcases hb' with rfl | rfl
    · rw [show 2 * m - b = c + 1 by omega] at hb
      have e1 : (b + 1) * c = b * c + c := by rw [Nat.add_mul, Nat.one_mul]
      have e2 : b * (c + 1) = b * c + b := by rw [Nat.mul_add, Nat.mul_one]
      omega
    · rw [show 2 * m - b = c + 2 by omega] at hb
      have e1 : (b + 2) * c = b * c + 2 * c := by rw [Nat.add_mul]
      have e2 : b * (c + 2) = b * c + 2 * b := by rw [Nat.mul_add, Nat.mul_comm b 2]
      omega

theorem moveRight_runC {l r : T} (gl : l.Good) (gr : r.Good) (h : Heap) (k : Nat) {p q M : Nat}
    (hl : Rep h l p) (hr : Rep h r q) (hn : (l.nodes ++ r.nodes).Nodup) (hlen : (l.nodes ++ r.nodes).length < 2 ^ (sizeBit - 1))
    (hM : ∀ m, Nat.fib (m + 2) ≤ (l.nodes ++ r.nodes).length + 1 → m ≤ M) :
    ∃ t n h', treeMoveRightC p q k h = some ((t.ptr, k + n), h') ∧ Rep h' t t.ptr ∧ Fr h h' (l.nodes ++ r.nodes) ∧ t.Good ∧
      t.nodes = l.nodes ++ r.nodes ∧
      r.idx ≤ t.idx ∧ n ≤ l.height * (16 * M + 1) ∧ (l.idx ≤ r.idx + 1 → l.idx * (2 * r.idx - l.idx) ≤ 4 * n) := by
  induction l generalizing h p with
  | nil =>
    have h0 : p = 0 := hl
    refine ⟨r, 0, h, ?_, hr.ptr ▸ hr, Fr.refl _ _, gr, rfl, Nat.le_refl _, Nat.zero_le _, fun _ => by simp [T.idx]⟩
    rw [treeMoveRightC, if_pos h0, hr.ptr]; rfl
  | node x i a b iha ihb =>
    obtain ⟨rfl, ox, ix, ra, rb⟩ := hl
    have hn' := hn
    have hlen' := hlen
    simp only [T.nodes, List.nodup_append, List.nodup_cons, List.mem_append, List.mem_cons] at hn'
    simp only [T.nodes, List.length_append, List.length_cons] at hlen'
    obtain ⟨t1, m1, h1, e1, r1, f1, g1, n1, i1, u1, l1⟩ := ihb gl.2.1 h rb hr (by simp only [List.nodup_append]; grind)
      (by simp only [List.length_append]; omega)
      (fun m hm => hM m (by simp only [T.nodes, List.length_append, List.length_cons] at hm ⊢; omega))
    have hpS : p ∉ b.nodes ++ r.nodes := by simp only [List.mem_append]; grind
    obtain ⟨t, m, h', e, rp, f, g, n, c⟩ := set_next_balanceC (x := p) gl.1 g1 h1 (k + m1) (f1.ok ox)
      (by rw [(f1.out p hpS).2.1]; exact ra.frame f1 (by intro y hy; simp only [List.mem_append]; grind)) r1
      (by rw [n1]; simp only [List.nodup_append, List.nodup_cons, List.mem_append, List.mem_cons]; grind)
      (by rw [n1]; simp only [List.length_append, List.length_cons]; omega)
    have e0 : (a.nodes ++ p :: t1.nodes).length = ((node p i a b).nodes ++ r.nodes).length := by rw [n1]; simp [T.nodes]
    refine ⟨t, m1 + m, h', ?_, rp, ?_, g, by rw [n, n1]; simp [T.nodes], ?_⟩
    · rw [treeMoveRightC, if_neg ox.1]
      simp only [run_bind, getNext_run ox, Option.bind_some, e1, setNext_run (f1.ok ox), e]
      simp only [Nat.add_assoc]
    · have f := f
      rw [n1] at f
      have e : a.nodes ++ p :: (b.nodes ++ r.nodes) = (node p i a b).nodes ++ r.nodes := by simp [T.nodes]
      rw [e] at f
      exact (f1.mono (by simp [T.nodes]; grind)).trans f
    · have da := hM a.idx (Nat.le_trans (good_fib gl.1) (by rw [← e0]; simp))
      have dt := hM t1.idx (Nat.le_trans (good_fib g1) (by rw [← e0]; simp only [List.length_append, List.length_cons]; omega))
      have cu := c.upper; have cl := c.lower; have ci := c.idx
      unfold dist at cu cl
      refine ⟨by omega, ?_, ?_⟩
      · simp only [T.height]
        have : b.height * (16 * M + 1) + (16 * M + 1) ≤ (max a.height b.height + 1) * (16 * M + 1) := by
          rw [← Nat.succ_mul]; exact Nat.mul_le_mul_right _ (by omega)
        omega
      · intro hi
        simp only [idx_node] at hi ⊢
        obtain ⟨_, _, q1, q2, q3⟩ := gl
        rcases q3 with q3 | ⟨q3, _⟩
        · exact spine (by omega) (by omega) hi q3 (l1 (by omega)) (by omega)
        · subst q3; omega

section Cmp
open ListSpec (TotalPreorder)
variable {cmp : Nat → Nat → Int}

omit [Arch] in
theorem insC {p i : Nat} {l r t1 t : T} {m1 m : Nat} (g : (node p i l r).Good) (i1 : t1.idx = l.idx ∨ l ≠ nil ∧ t1.idx = l.idx + 1)
    (c1 : m1 ≤ 12 * l.height) (c : Cost (max t1.idx r.idx) (dist t1 r) t.idx m) :
    (t.idx = (node p i l r).idx ∨ node p i l r ≠ nil ∧ t.idx = (node p i l r).idx + 1) ∧ 1 + m1 + m ≤ 12 * (node p i l r).height := by
  obtain ⟨_, _, q1, q2, q3⟩ := g
  have ci := c.idx; have cp := c.plain; have ct := c.two
  unfold dist at cp ct
  have i2 := i1.imp_right And.right
  have nn : node p i l r ≠ nil := fun e => by cases e
  simp only [idx_node, T.height, nn, not_false_eq_true, ne_eq, true_and]
  have := ct (by omega)
  refine ⟨?_, by omega⟩
  rcases q3 with q3 | ⟨q3, rfl, rfl⟩
  · by_cases hd : (t1.idx - r.idx) + (r.idx - t1.idx) ≤ 1
    · have := (cp hd).1; omega
    · omega
  · have z : nil.idx = 0 := rfl
    simp only [z, ne_eq, not_true_eq_false, false_and, or_false] at i1 cp
    rw [i1] at cp
    have := (cp (by omega)).1
    rw [this, q3]; exact Or.inr rfl

omit [Arch] in
theorem insC' {p i : Nat} {l r t1 t : T} {m1 m : Nat} (g : (node p i l r).Good) (i1 : t1.idx = r.idx ∨ r ≠ nil ∧ t1.idx = r.idx + 1)
    (c1 : m1 ≤ 12 * r.height) (c : Cost (max l.idx t1.idx) (dist l t1) t.idx m) :
    (t.idx = (node p i l r).idx ∨ node p i l r ≠ nil ∧ t.idx = (node p i l r).idx + 1) ∧ 1 + m1 + m ≤ 12 * (node p i l r).height := by
  obtain ⟨_, _, q1, q2, q3⟩ := g
  have ci := c.idx; have cp := c.plain; have ct := c.two
  unfold dist at cp ct
  have i2 := i1.imp_right And.right
  have nn : node p i l r ≠ nil := fun e => by cases e
  simp only [idx_node, T.height, nn, not_false_eq_true, ne_eq, true_and]
  have := ct (by omega)
  refine ⟨?_, by omega⟩
  rcases q3 with q3 | ⟨q3, rfl, rfl⟩
  · by_cases hd : (l.idx - t1.idx) + (t1.idx - l.idx) ≤ 1
    · have := (cp hd).1; omega
    · omega
  · have z : nil.idx = 0 := rfl
    simp only [z, ne_eq, not_true_eq_false, false_and, or_false] at i1 cp
    rw [i1] at cp
    have := (cp (by omega)).1
    rw [this, q3]; exact Or.inr rfl

theorem insertNode_runC (tp : TotalPreorder cmp) {t : T} (g : t.Good) (h : Heap) (k : Nat) {p x : Nat} (hr : Rep h t p)
    (hx : h.ok x) (hxp : h.prev x = 0) (hxn : h.next x = 0) (hxi : h.index x = 0) (hxt : x ∉ t.nodes) (hn : t.nodes.Nodup)
    (hlen : t.nodes.length + 1 < 2 ^ (sizeBit - 1)) (hs : Inc cmp h.data t.nodes) :
    ∃ t' n h' found, treeInsertNodeC cmp p x k h = some (((t'.ptr, found), k + n), h') ∧ Rep h' t' t'.ptr ∧
      Fr h h' (x :: t.nodes) ∧ t'.Good ∧ InsRes cmp h.data x t.nodes found t'.nodes ∧
      (t'.idx = t.idx ∨ t ≠ nil ∧ t'.idx = t.idx + 1) ∧ n ≤ 12 * t.height := by
  induction t generalizing p k with
  | nil =>
    have h0 : p = 0 := hr
    refine ⟨node x 0 nil nil, 0, h, x, ?_, ⟨rfl, hx, hxi, hxp, hxn⟩, Fr.refl _ _,
      ⟨trivial, trivial, by simp [T.idx], by simp [T.idx], Or.inr ⟨rfl, rfl, rfl⟩⟩, ?_, Or.inl rfl, Nat.zero_le _⟩
    · rw [treeInsertNodeC, if_pos h0]; rfl
    · exact Or.inl ⟨rfl, [], [], rfl, rfl, by simp, by simp⟩
  | node q i l r ihl ihr =>
    obtain ⟨rfl, oq, iq, rl, rr⟩ := hr
    obtain ⟨s1, s2, s3, s4, s5⟩ := hs.split
    have hxt' := hxt
    have hn' := hn
    have hlen' := hlen
    simp only [T.nodes, List.mem_append, List.mem_cons, not_or] at hxt'
    simp only [T.nodes, List.nodup_append, List.nodup_cons, List.mem_append, List.mem_cons] at hn'
    simp only [T.nodes, List.length_append, List.length_cons] at hlen'
    rw [treeInsertNodeC]
    by_cases hc : cmp (h.data x) (h.data p) < 0
    · obtain ⟨t1, m1, h1, fd, e1, r1, f1, g1, n1, i1, c1⟩ := ihl g.1 (k + 1) rl hxt'.1 hn'.1 (by omega) s1
      have hpS : p ∉ x :: l.nodes := by simp only [List.mem_cons]; grind
      have mem1 : ∀ y ∈ t1.nodes, y = x ∨ y ∈ l.nodes := by
        intro y hy
        rcases n1.perm with hp | hp
        · simpa using hp.mem_iff.1 hy
        · exact Or.inr (hp ▸ hy)
      have nd1 : t1.nodes.Nodup := by
        rcases n1.perm with hp | hp
        · exact hp.nodup_iff.2 (List.nodup_cons.2 ⟨hxt'.1, hn'.1⟩)
        · rw [hp]; exact hn'.1
      have ln1 : t1.nodes.length ≤ l.nodes.length + 1 := by
        rcases n1.perm with hp | hp
        · rw [hp.length_eq]; simp
        · rw [hp]; omega
      obtain ⟨t', m, h', e, rp, f, gt, n, c⟩ := set_prev_balanceC (x := p) (r := r) g1 g.2.1 h1 (k + 1 + m1) (f1.ok oq) r1
        (by rw [(f1.out p hpS).1]; exact rr.frame f1 (by intro y hy; simp only [List.mem_cons]; grind))
        (by simp only [List.nodup_append, List.nodup_cons, List.mem_cons]; grind)
        (by simp only [List.length_append, List.length_cons]; omega)
      refine ⟨t', 1 + m1 + m, h', fd, ?_, rp, ?_, gt, ?_, insC g i1 c1 c⟩
      · rw [if_neg oq.1]
        simp only [run_bind, getData_run hx, getData_run oq, Option.bind_some]
        rw [if_pos hc]
        simp only [run_bind, getPrev_run oq, Option.bind_some, e1, setPrev_run (f1.ok oq), e, show k + (1 + m1 + m) = k + 1 + m1 + m by omega]
        rfl
      · exact (f1.mono (by simp [T.nodes]; grind)).trans (f.mono (by
          intro y hy; simp only [List.mem_append, List.mem_cons] at hy; simp only [T.nodes, List.mem_append, List.mem_cons]; grind))
      · rw [n]
        rcases n1 with ⟨a1, a, b, a2, a3, a4, a5⟩ | ⟨a1, a2, a3⟩
        · refine Or.inl ⟨a1, a, b ++ p :: r.nodes, by simp [T.nodes, a2], by rw [a3]; simp, a4, ?_⟩
          intro y hy
          simp only [List.mem_append, List.mem_cons] at hy
          rcases hy with hy | rfl | hy
          · exact a5 y hy
          · exact hc
          · exact TP.lt_trans tp hc (Int.le_of_lt (s4 y hy))
        · exact Or.inr ⟨by simp [T.nodes, a1], a2, by rw [a3]; rfl⟩
    · by_cases hd : cmp (h.data x) (h.data p) > 0
      · obtain ⟨t1, m1, h1, fd, e1, r1, f1, g1, n1, i1, c1⟩ := ihr g.2.1 (k + 1) rr hxt'.2.2 hn'.2.1.2 (by omega) s2
        have hpS : p ∉ x :: r.nodes := by simp only [List.mem_cons]; grind
        have mem1 : ∀ y ∈ t1.nodes, y = x ∨ y ∈ r.nodes := by
          intro y hy
          rcases n1.perm with hp | hp
          · simpa using hp.mem_iff.1 hy
          · exact Or.inr (hp ▸ hy)
        have nd1 : t1.nodes.Nodup := by
          rcases n1.perm with hp | hp
          · exact hp.nodup_iff.2 (List.nodup_cons.2 ⟨hxt'.2.2, hn'.2.1.2⟩)
          · rw [hp]; exact hn'.2.1.2
        have ln1 : t1.nodes.length ≤ r.nodes.length + 1 := by
          rcases n1.perm with hp | hp
          · rw [hp.length_eq]; simp
          · rw [hp]; omega
        obtain ⟨t', m, h', e, rp, f, gt, n, c⟩ := set_next_balanceC (x := p) (l := l) g.1 g1 h1 (k + 1 + m1) (f1.ok oq)
          (by rw [(f1.out p hpS).2.1]; exact rl.frame f1 (by intro y hy; simp only [List.mem_cons]; grind)) r1
          (by simp only [List.nodup_append, List.nodup_cons, List.mem_cons]; grind)
          (by simp only [List.length_append, List.length_cons]; omega)
        refine ⟨t', 1 + m1 + m, h', fd, ?_, rp, ?_, gt, ?_, insC' g i1 c1 c⟩
        · rw [if_neg oq.1]
          simp only [run_bind, getData_run hx, getData_run oq, Option.bind_some]
          rw [if_neg hc, if_pos hd]
          simp only [run_bind, getNext_run oq, Option.bind_some, e1, setNext_run (f1.ok oq), e, show k + (1 + m1 + m) = k + 1 + m1 + m by omega]
          rfl
        · exact (f1.mono (by simp [T.nodes]; grind)).trans (f.mono (by
            intro y hy; simp only [List.mem_append, List.mem_cons] at hy; simp only [T.nodes, List.mem_append, List.mem_cons]; grind))
        · rw [n]
          rcases n1 with ⟨a1, a, b, a2, a3, a4, a5⟩ | ⟨a1, a2, a3⟩
          · refine Or.inl ⟨a1, l.nodes ++ p :: a, b, by simp [T.nodes, a2], by rw [a3]; simp, ?_, a5⟩
            intro y hy
            simp only [List.mem_append, List.mem_cons] at hy
            rcases hy with hy | rfl | hy
            · exact (tp.sign _ _).1 (TP.lt_trans tp (s3 y hy) (Int.le_of_lt ((tp.sign _ _).2 hd)))
            · exact hd
            · exact a4 y hy
          · exact Or.inr ⟨by simp [T.nodes, a1], a2, by rw [a3]; rfl⟩
      · refine ⟨node p i l r, 1, h, p, ?_, ⟨rfl, oq, iq, rl, rr⟩, Fr.refl _ _, g, Or.inr ⟨by simp [T.nodes], by omega, rfl⟩,
          Or.inl rfl, by simp only [T.height]; omega⟩
        rw [if_neg oq.1]
        simp only [run_bind, getData_run hx, getData_run oq, Option.bind_some]
        rw [if_neg hc, if_neg hd]
        rfl

omit [Arch] in
theorem remC {a b m1 m M : Nat} (h : a ≤ b) (c1 : m1 ≤ a * (16 * M + 2)) (c : m ≤ 16 * M + 1) :
    1 + m1 + m ≤ (b + 1) * (16 * M + 2) := by
  have : a * (16 * M + 2) ≤ b * (16 * M + 2) := Nat.mul_le_mul_right _ h
  rw [Nat.add_mul, Nat.one_mul]
  omega

theorem removeNode_runC (tp : TotalPreorder cmp) {t : T} (g : t.Good) (h : Heap) (k : Nat) {p M : Nat} (d let_ : Nat) (hr : Rep h t p)
    (hn : t.nodes.Nodup) (hlen : t.nodes.length < 2 ^ (sizeBit - 1)) (hs : Inc cmp h.data t.nodes)
    (hM : ∀ m, Nat.fib (m + 2) ≤ t.nodes.length + 1 → m ≤ M) :
    ∃ t' n h' found, treeRemoveNodeC cmp p d let_ k h = some (((t'.ptr, found), k + n), h') ∧ Rep h' t' t'.ptr ∧
      Fr h h' t.nodes ∧ t'.Good ∧ RemRes cmp h.data d t.nodes let_ found t'.nodes ∧
      n ≤ t.height * (16 * M + 2) ∧
      (∀ q i l r, t = node q i l r → cmp d (h.data q) = 0 → l.idx * (2 * r.idx - l.idx) ≤ 4 * n) := by
  induction t generalizing p k with
  | nil =>
    have h0 : p = 0 := hr
    refine ⟨nil, 0, h, let_, ?_, rfl, Fr.refl _ _, trivial, Or.inl ⟨rfl, rfl, by simp [T.nodes]⟩, Nat.zero_le _, fun _ _ _ _ e => by cases e⟩
    rw [treeRemoveNodeC, if_pos h0]; rfl
  | node q i l r ihl ihr =>
    obtain ⟨rfl, oq, iq, rl, rr⟩ := hr
    obtain ⟨s1, s2, s3, s4, s5⟩ := hs.split
    have hn' := hn
    have hlen' := hlen
    simp only [T.nodes, List.nodup_append, List.nodup_cons, List.mem_append, List.mem_cons] at hn'
    simp only [T.nodes, List.length_append, List.length_cons] at hlen'
    rw [treeRemoveNodeC]
    by_cases hc : cmp d (h.data p) < 0
    · obtain ⟨t1, m1, h1, fd, e1, r1, f1, g1, n1, c1, _⟩ := ihl g.1 (k + 1) rl hn'.1 (by omega) s1
        (fun m hm => hM m (by simp only [T.nodes, List.length_append, List.length_cons]; omega))
      have hpS : p ∉ l.nodes := by grind
      have sb := n1.sublist
      have mem1 : ∀ y ∈ t1.nodes, y ∈ l.nodes := fun y hy => sb.mem hy
      have nd1 : t1.nodes.Nodup := hn'.1.sublist sb
      have ln1 : t1.nodes.length ≤ l.nodes.length := sb.length_le
      obtain ⟨t', m, h', e, rp, f, gt, n, c⟩ := set_prev_balanceC (x := p) (r := r) g1 g.2.1 h1 (k + 1 + m1) (f1.ok oq) r1
        (by rw [(f1.out p hpS).1]; exact rr.frame f1 (by intro y hy; grind))
        (by simp only [List.nodup_append, List.nodup_cons, List.mem_cons]; grind)
        (by simp only [List.length_append, List.length_cons]; omega)
      have dl := hM t1.idx (Nat.le_trans (good_fib g1) (by simp only [T.nodes, List.length_append, List.length_cons]; omega))
      have dr := hM r.idx (Nat.le_trans (good_fib g.2.1) (by simp only [T.nodes, List.length_append, List.length_cons]; omega))
      refine ⟨t', 1 + m1 + m, h', fd, ?_, rp, ?_, gt, ?_, remC (Nat.le_max_left _ _) c1 (by have := c.upper; unfold dist at this; omega),
        fun q' i' l' r' e hq => by cases e; omega⟩
      · rw [if_neg oq.1]
        simp only [run_bind, getData_run oq, Option.bind_some]
        rw [if_pos hc]
        simp only [run_bind, getPrev_run oq, Option.bind_some, e1, setPrev_run (f1.ok oq), e, show k + (1 + m1 + m) = k + 1 + m1 + m by omega]
        rfl
      · exact (f1.mono (by simp [T.nodes]; grind)).trans (f.mono (by
          intro y hy; simp only [List.mem_append, List.mem_cons] at hy; simp only [T.nodes, List.mem_append, List.mem_cons]; grind))
      · rw [n]
        rcases n1 with ⟨a1, a2, a3⟩ | ⟨a1, a, b, a2, a3⟩
        · refine Or.inl ⟨a1, by rw [a2]; rfl, ?_⟩
          intro y hy
          simp only [T.nodes, List.mem_append, List.mem_cons] at hy
          rcases hy with hy | rfl | hy
          · exact a3 y hy
          · omega
          · have := TP.lt_trans tp hc (Int.le_of_lt (s4 y hy)); omega
        · exact Or.inr ⟨a1, a, b ++ p :: r.nodes, by simp [T.nodes, a2], by simp [a3]⟩
    · by_cases hd : cmp d (h.data p) > 0
      · obtain ⟨t1, m1, h1, fd, e1, r1, f1, g1, n1, c1, _⟩ := ihr g.2.1 (k + 1) rr hn'.2.1.2 (by omega) s2
          (fun m hm => hM m (by simp only [T.nodes, List.length_append, List.length_cons]; omega))
        have hpS : p ∉ r.nodes := by grind
        have sb := n1.sublist
        have mem1 : ∀ y ∈ t1.nodes, y ∈ r.nodes := fun y hy => sb.mem hy
        have nd1 : t1.nodes.Nodup := hn'.2.1.2.sublist sb
        have ln1 : t1.nodes.length ≤ r.nodes.length := sb.length_le
        obtain ⟨t', m, h', e, rp, f, gt, n, c⟩ := set_next_balanceC (x := p) (l := l) g.1 g1 h1 (k + 1 + m1) (f1.ok oq)
          (by rw [(f1.out p hpS).2.1]; exact rl.frame f1 (by intro y hy; grind)) r1
          (by simp only [List.nodup_append, List.nodup_cons, List.mem_cons]; grind)
          (by simp only [List.length_append, List.length_cons]; omega)
        have dl := hM t1.idx (Nat.le_trans (good_fib g1) (by simp only [T.nodes, List.length_append, List.length_cons]; omega))
        have dr := hM l.idx (Nat.le_trans (good_fib g.1) (by simp only [T.nodes, List.length_append, List.length_cons]; omega))
        refine ⟨t', 1 + m1 + m, h', fd, ?_, rp, ?_, gt, ?_, remC (Nat.le_max_right _ _) c1 (by have := c.upper; unfold dist at this; omega),
          fun q' i' l' r' e hq => by cases e; omega⟩
        · rw [if_neg oq.1]
          simp only [run_bind, getData_run oq, Option.bind_some]
          rw [if_neg hc, if_pos hd]
          simp only [run_bind, getNext_run oq, Option.bind_some, e1, setNext_run (f1.ok oq), e, show k + (1 + m1 + m) = k + 1 + m1 + m by omega]
          rfl
        · exact (f1.mono (by simp [T.nodes]; grind)).trans (f.mono (by
            intro y hy; simp only [List.mem_append, List.mem_cons] at hy; simp only [T.nodes, List.mem_append, List.mem_cons]; grind))
        · rw [n]
          rcases n1 with ⟨a1, a2, a3⟩ | ⟨a1, a, b, a2, a3⟩
          · refine Or.inl ⟨a1, by rw [a2]; rfl, ?_⟩
            intro y hy
            simp only [T.nodes, List.mem_append, List.mem_cons] at hy
            rcases hy with hy | rfl | hy
            · have := (tp.sign _ _).1 (TP.lt_trans tp (s3 y hy) (Int.le_of_lt ((tp.sign _ _).2 hd))); omega
            · omega
            · exact a3 y hy
          · exact Or.inr ⟨a1, l.nodes ++ p :: a, b, by simp [T.nodes, a2], by simp [a3]⟩
      · obtain ⟨t', m, h', e, rp, f, gt, n, _, c1, c2⟩ := moveRight_runC (M := M) g.1 g.2.1 h (k + 1) rl rr
          (by simp only [List.nodup_append]; grind) (by simp only [List.length_append]; omega)
          (fun m hm => hM m (by simp only [T.nodes, List.length_append, List.length_cons] at hm ⊢; omega))
        refine ⟨t', 1 + m, h', p, ?_, rp, f.mono (by simp [T.nodes]; grind), gt, Or.inr ⟨by omega, l.nodes, r.nodes, rfl, n⟩, ?_, ?_⟩
        rotate_left
        · have a1 : l.height * (16 * M + 1) ≤ l.height * (16 * M + 2) := Nat.mul_le_mul_left _ (by omega)
          exact Nat.le_trans (by omega : 1 + m ≤ 1 + l.height * (16 * M + 2) + 0)
            (remC (Nat.le_max_left _ _) (Nat.le_refl _) (by omega))
        · intro q' i' l' r' e hq
          cases e
          have := c2 g.2.2.1
          omega
        rw [if_neg oq.1]
        simp only [run_bind, getData_run oq, Option.bind_some]
        rw [if_neg hc, if_neg hd]
        simp only [run_bind, getPrev_run oq, getNext_run oq, Option.bind_some, e, show k + (1 + m) = k + 1 + m by omega]
        rfl

end Cmp

end TreeP
end Tommy
