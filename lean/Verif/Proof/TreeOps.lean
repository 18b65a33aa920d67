import Verif.Proof.TreeSim
import Verif.Spec.List
/-! Insert, remove, search on the pointer tree. -/
set_option linter.unusedSimpArgs false
set_option linter.unusedVariables false
namespace Tommy

variable [Arch]
namespace TreeP
open T

omit [Arch] in
theorem good_sz {t : T} (h : t.Good) : Sz t := by
  induction t with
  | nil => trivial
  | node p i l r ihl ihr =>
    obtain ⟨h1, h2, h3, h4, h5⟩ := h
    refine ⟨ihl h1, ihr h2, ?_⟩
    have := (ihl h1).idx_le
    have := (ihr h2).idx_le
    rcases h5 with h5 | ⟨h5, _⟩ <;> omega

theorem balance_run {l : T} {x : Nat} {r : T} (gl : l.Good) (gr : r.Good) (h : Heap) (hx : h.ok x)
    (hl : Rep h l (h.prev x)) (hr : Rep h r (h.next x)) (hn : (l.nodes ++ x :: r.nodes).Nodup)
    (hlen : (l.nodes ++ x :: r.nodes).length < 2 ^ (sizeBit - 1)) :
    ∃ t h', treeBalance x h = some (t.ptr, h') ∧ Rep h' t t.ptr ∧ Fr h h' (l.nodes ++ x :: r.nodes) ∧ t.Good ∧
      t.nodes = l.nodes ++ x :: r.nodes := by
  obtain ⟨t, b, g, _⟩ := bal_ok (x := x) gl gr
  obtain ⟨h', e, rp, f, _⟩ := bal_sim b h hx hl hr hn (good_sz gl) (good_sz gr) hlen
  exact ⟨t, h', e, rp, f, g, b.nodes⟩

/-- Sets the left child and balances. -/
theorem set_prev_balance {l : T} {x : Nat} {r : T} (gl : l.Good) (gr : r.Good) (h : Heap) (hx : h.ok x)
    (hl : Rep h l l.ptr) (hr : Rep h r (h.next x)) (hn : (l.nodes ++ x :: r.nodes).Nodup)
    (hlen : (l.nodes ++ x :: r.nodes).length < 2 ^ (sizeBit - 1)) :
    ∃ t h', treeBalance x { h with prev := upd h.prev x l.ptr } = some (t.ptr, h') ∧ Rep h' t t.ptr ∧
      Fr h h' (l.nodes ++ x :: r.nodes) ∧ t.Good ∧ t.nodes = l.nodes ++ x :: r.nodes := by
  have hn' := hn
  simp only [List.nodup_append, List.nodup_cons, List.mem_cons] at hn'
  obtain ⟨t, h', e, rp, f, g, n⟩ := balance_run gl gr { h with prev := upd h.prev x l.ptr } hx
    (by simp only [upd_same]; exact hl.setPrev (by grind)) (hr.setPrev (by grind)) hn hlen
  exact ⟨t, h', e, rp, (Fr.setPrev (by simp)).trans f, g, n⟩

theorem set_next_balance {l : T} {x : Nat} {r : T} (gl : l.Good) (gr : r.Good) (h : Heap) (hx : h.ok x)
    (hl : Rep h l (h.prev x)) (hr : Rep h r r.ptr) (hn : (l.nodes ++ x :: r.nodes).Nodup)
    (hlen : (l.nodes ++ x :: r.nodes).length < 2 ^ (sizeBit - 1)) :
    ∃ t h', treeBalance x { h with next := upd h.next x r.ptr } = some (t.ptr, h') ∧ Rep h' t t.ptr ∧
      Fr h h' (l.nodes ++ x :: r.nodes) ∧ t.Good ∧ t.nodes = l.nodes ++ x :: r.nodes := by
  have hn' := hn
  simp only [List.nodup_append, List.nodup_cons, List.mem_cons] at hn'
  obtain ⟨t, h', e, rp, f, g, n⟩ := balance_run gl gr { h with next := upd h.next x r.ptr } hx
    (hl.setNext (by grind)) (by simp only [upd_same]; exact hr.setNext (by grind)) hn hlen
  exact ⟨t, h', e, rp, (Fr.setNext (by simp)).trans f, g, n⟩

theorem moveRight_run {l r : T} (gl : l.Good) (gr : r.Good) (h : Heap) {p q : Nat}
    (hl : Rep h l p) (hr : Rep h r q) (hn : (l.nodes ++ r.nodes).Nodup) (hlen : (l.nodes ++ r.nodes).length < 2 ^ (sizeBit - 1)) :
    ∃ t h', treeMoveRight p q h = some (t.ptr, h') ∧ Rep h' t t.ptr ∧ Fr h h' (l.nodes ++ r.nodes) ∧ t.Good ∧
      t.nodes = l.nodes ++ r.nodes := by
  induction l generalizing h p with
  | nil =>
    have h0 : p = 0 := hl
    refine ⟨r, h, ?_, hr.ptr ▸ hr, Fr.refl _ _, gr, rfl⟩
    rw [treeMoveRight, if_pos h0, hr.ptr]; rfl
  | node x i a b iha ihb =>
    obtain ⟨rfl, ox, ix, ra, rb⟩ := hl
    have hn' := hn
    have hlen' := hlen
    simp only [T.nodes, List.nodup_append, List.nodup_cons, List.mem_append, List.mem_cons] at hn'
    simp only [T.nodes, List.length_append, List.length_cons] at hlen'
    obtain ⟨t1, h1, e1, r1, f1, g1, n1⟩ := ihb gl.2.1 h rb hr (by simp only [List.nodup_append]; grind)
      (by simp only [List.length_append]; omega)
    have hpS : p ∉ b.nodes ++ r.nodes := by simp only [List.mem_append]; grind
    obtain ⟨t, h', e, rp, f, g, n⟩ := set_next_balance (x := p) gl.1 g1 h1 (f1.ok ox)
      (by rw [(f1.out p hpS).2.1]; exact ra.frame f1 (by intro y hy; simp only [List.mem_append]; grind)) r1
      (by rw [n1]; simp only [List.nodup_append, List.nodup_cons, List.mem_append, List.mem_cons]; grind)
      (by rw [n1]; simp only [List.length_append, List.length_cons]; omega)
    refine ⟨t, h', ?_, rp, ?_, g, by rw [n, n1]; simp [T.nodes]⟩
    · rw [treeMoveRight, if_neg ox.1]
      simp only [run_bind, getNext_run ox, Option.bind_some, e1, setNext_run (f1.ok ox), e]
    · rw [n1] at f
      have e : a.nodes ++ p :: (b.nodes ++ r.nodes) = (node p i a b).nodes ++ r.nodes := by simp [T.nodes]
      rw [e] at f
      exact (f1.mono (by simp [T.nodes]; grind)).trans f

section Cmp
open ListSpec (TotalPreorder)
variable {cmp : Nat → Nat → Int}

omit [Arch] in
theorem TP.refl (t : TotalPreorder cmp) (a : Nat) : cmp a a = 0 := by
  have := t.sign a a; omega

omit [Arch] in
theorem TP.lt_trans (t : TotalPreorder cmp) {a b c : Nat} (h1 : cmp a b < 0) (h2 : cmp b c ≤ 0) : cmp a c < 0 := by
  by_cases h : cmp a c < 0
  · exact h
  · have h3 : cmp c a ≤ 0 := by have := t.sign c a; have := t.sign a c; omega
    have := t.trans b c a h2 h3
    have := t.sign a b
    omega

omit [Arch] in
theorem TP.le_lt_trans (t : TotalPreorder cmp) {a b c : Nat} (h1 : cmp a b ≤ 0) (h2 : cmp b c < 0) : cmp a c < 0 := by
  by_cases h : cmp a c < 0
  · exact h
  · have h3 : cmp c a ≤ 0 := by have := t.sign c a; have := t.sign a c; omega
    have := t.trans c a b h3 h1
    have := t.sign b c
    omega

/-- The keys are in strictly increasing order. -/
def Inc (cmp : Nat → Nat → Int) (D : Nat → Nat) (l : List Nat) : Prop := l.Pairwise fun a b => cmp (D a) (D b) < 0

omit [Arch] in
theorem Inc.split {D : Nat → Nat} {l : List Nat} {x : Nat} {r : List Nat} (h : Inc cmp D (l ++ x :: r)) :
    Inc cmp D l ∧ Inc cmp D r ∧ (∀ a ∈ l, cmp (D a) (D x) < 0) ∧ (∀ b ∈ r, cmp (D x) (D b) < 0) ∧
      (∀ a ∈ l, ∀ b ∈ r, cmp (D a) (D b) < 0) := by
  unfold Inc at *
  simp only [List.pairwise_append, List.pairwise_cons, List.mem_cons] at h
  grind

/-- Result of the insert. -/
def InsRes (cmp : Nat → Nat → Int) (D : Nat → Nat) (x : Nat) (ns : List Nat) (found : Nat) (ns' : List Nat) : Prop :=
  (found = x ∧ ∃ a b, ns = a ++ b ∧ ns' = a ++ x :: b ∧ (∀ y ∈ a, cmp (D x) (D y) > 0) ∧ ∀ y ∈ b, cmp (D x) (D y) < 0) ∨
  (found ∈ ns ∧ cmp (D x) (D found) = 0 ∧ ns' = ns)

omit [Arch] in
theorem InsRes.perm {D : Nat → Nat} {x : Nat} {ns : List Nat} {found : Nat} {ns' : List Nat}
    (h : InsRes cmp D x ns found ns') : ns'.Perm (x :: ns) ∨ ns' = ns := by
  rcases h with ⟨_, a, b, rfl, rfl, _⟩ | ⟨_, _, h⟩
  · left; exact List.perm_middle
  · right; exact h

theorem insertNode_run (tp : TotalPreorder cmp) {t : T} (g : t.Good) (h : Heap) {p x : Nat} (hr : Rep h t p)
    (hx : h.ok x) (hxp : h.prev x = 0) (hxn : h.next x = 0) (hxi : h.index x = 0) (hxt : x ∉ t.nodes) (hn : t.nodes.Nodup)
    (hlen : t.nodes.length + 1 < 2 ^ (sizeBit - 1)) (hs : Inc cmp h.data t.nodes) :
    ∃ t' h' found, treeInsertNode cmp p x h = some ((t'.ptr, found), h') ∧ Rep h' t' t'.ptr ∧
      Fr h h' (x :: t.nodes) ∧ t'.Good ∧ InsRes cmp h.data x t.nodes found t'.nodes := by
  induction t generalizing p with
  | nil =>
    have h0 : p = 0 := hr
    refine ⟨node x 0 nil nil, h, x, ?_, ⟨rfl, hx, hxi, hxp, hxn⟩, Fr.refl _ _,
      ⟨trivial, trivial, by simp [T.idx], by simp [T.idx], Or.inr ⟨rfl, rfl, rfl⟩⟩, ?_⟩
    · rw [treeInsertNode, if_pos h0]; rfl
    · exact Or.inl ⟨rfl, [], [], rfl, rfl, by simp, by simp⟩
  | node q i l r ihl ihr =>
    obtain ⟨rfl, oq, iq, rl, rr⟩ := hr
    obtain ⟨s1, s2, s3, s4, s5⟩ := hs.split
    have hxt' := hxt
    have hn' := hn
    have hlen' := hlen
    simp only [T.nodes, List.mem_append, List.mem_cons, not_or] at hxt'
    simp only [T.nodes, List.nodup_append, List.nodup_cons, List.mem_append, List.mem_cons] at hn'
    simp only [T.nodes, List.length_append, List.length_cons] at hlen'
    rw [treeInsertNode]
    by_cases hc : cmp (h.data x) (h.data p) < 0
    · obtain ⟨t1, h1, fd, e1, r1, f1, g1, n1⟩ := ihl g.1 rl hxt'.1 hn'.1 (by omega) s1
      have hpS : p ∉ x :: l.nodes := by simp only [List.mem_cons]; grind
      have mem1 : ∀ y ∈ t1.nodes, y = x ∨ y ∈ l.nodes := by
        intro y hy
        rcases n1.perm with hp | hp
        · simpa using hp.mem_iff.1 hy
        · exact Or.inr (hp ▸ hy)
      have nd1 : t1.nodes.Nodup := by
        rcases n1.perm with hp | hp
        · exact hp.nodup_iff.2 (List.nodup_cons.2 ⟨hxt'.1, hn'.1⟩)
        · rw [hp]; exact hn'.1
      have ln1 : t1.nodes.length ≤ l.nodes.length + 1 := by
        rcases n1.perm with hp | hp
        · rw [hp.length_eq]; simp
        · rw [hp]; omega
      obtain ⟨t', h', e, rp, f, gt, n⟩ := set_prev_balance (x := p) (r := r) g1 g.2.1 h1 (f1.ok oq) r1
        (by rw [(f1.out p hpS).1]; exact rr.frame f1 (by intro y hy; simp only [List.mem_cons]; grind))
        (by simp only [List.nodup_append, List.nodup_cons, List.mem_cons]; grind)
        (by simp only [List.length_append, List.length_cons]; omega)
      refine ⟨t', h', fd, ?_, rp, ?_, gt, ?_⟩
      · rw [if_neg oq.1]
        simp only [run_bind, getData_run hx, getData_run oq, Option.bind_some]
        rw [if_pos hc]
        simp only [run_bind, getPrev_run oq, Option.bind_some, e1, setPrev_run (f1.ok oq), e]
        rfl
      · exact (f1.mono (by simp [T.nodes]; grind)).trans (f.mono (by
          intro y hy; simp only [List.mem_append, List.mem_cons] at hy; simp only [T.nodes, List.mem_append, List.mem_cons]; grind))
      · rw [n]
        rcases n1 with ⟨a1, a, b, a2, a3, a4, a5⟩ | ⟨a1, a2, a3⟩
        · refine Or.inl ⟨a1, a, b ++ p :: r.nodes, by simp [T.nodes, a2], by rw [a3]; simp, a4, ?_⟩
          intro y hy
          simp only [List.mem_append, List.mem_cons] at hy
          rcases hy with hy | rfl | hy
          · exact a5 y hy
          · exact hc
          · exact TP.lt_trans tp hc (Int.le_of_lt (s4 y hy))
        · exact Or.inr ⟨by simp [T.nodes, a1], a2, by rw [a3]; rfl⟩
    · by_cases hd : cmp (h.data x) (h.data p) > 0
      · obtain ⟨t1, h1, fd, e1, r1, f1, g1, n1⟩ := ihr g.2.1 rr hxt'.2.2 hn'.2.1.2 (by omega) s2
        have hpS : p ∉ x :: r.nodes := by simp only [List.mem_cons]; grind
        have mem1 : ∀ y ∈ t1.nodes, y = x ∨ y ∈ r.nodes := by
          intro y hy
          rcases n1.perm with hp | hp
          · simpa using hp.mem_iff.1 hy
          · exact Or.inr (hp ▸ hy)
        have nd1 : t1.nodes.Nodup := by
          rcases n1.perm with hp | hp
          · exact hp.nodup_iff.2 (List.nodup_cons.2 ⟨hxt'.2.2, hn'.2.1.2⟩)
          · rw [hp]; exact hn'.2.1.2
        have ln1 : t1.nodes.length ≤ r.nodes.length + 1 := by
          rcases n1.perm with hp | hp
          · rw [hp.length_eq]; simp
          · rw [hp]; omega
        obtain ⟨t', h', e, rp, f, gt, n⟩ := set_next_balance (x := p) (l := l) g.1 g1 h1 (f1.ok oq)
          (by rw [(f1.out p hpS).2.1]; exact rl.frame f1 (by intro y hy; simp only [List.mem_cons]; grind)) r1
          (by simp only [List.nodup_append, List.nodup_cons, List.mem_cons]; grind)
          (by simp only [List.length_append, List.length_cons]; omega)
        refine ⟨t', h', fd, ?_, rp, ?_, gt, ?_⟩
        · rw [if_neg oq.1]
          simp only [run_bind, getData_run hx, getData_run oq, Option.bind_some]
          rw [if_neg hc, if_pos hd]
          simp only [run_bind, getNext_run oq, Option.bind_some, e1, setNext_run (f1.ok oq), e]
          rfl
        · exact (f1.mono (by simp [T.nodes]; grind)).trans (f.mono (by
            intro y hy; simp only [List.mem_append, List.mem_cons] at hy; simp only [T.nodes, List.mem_append, List.mem_cons]; grind))
        · rw [n]
          rcases n1 with ⟨a1, a, b, a2, a3, a4, a5⟩ | ⟨a1, a2, a3⟩
          · refine Or.inl ⟨a1, l.nodes ++ p :: a, b, by simp [T.nodes, a2], by rw [a3]; simp, ?_, a5⟩
            intro y hy
            simp only [List.mem_append, List.mem_cons] at hy
            rcases hy with hy | rfl | hy
            · exact (tp.sign _ _).1 (TP.lt_trans tp (s3 y hy) (Int.le_of_lt ((tp.sign _ _).2 hd)))
            · exact hd
            · exact a4 y hy
          · exact Or.inr ⟨by simp [T.nodes, a1], a2, by rw [a3]; rfl⟩
      · refine ⟨node p i l r, h, p, ?_, ⟨rfl, oq, iq, rl, rr⟩, Fr.refl _ _, g, Or.inr ⟨by simp [T.nodes], by omega, rfl⟩⟩
        rw [if_neg oq.1]
        simp only [run_bind, getData_run hx, getData_run oq, Option.bind_some]
        rw [if_neg hc, if_neg hd]
        rfl

/-- Result of the remove. -/
def RemRes (cmp : Nat → Nat → Int) (D : Nat → Nat) (d : Nat) (ns : List Nat) (let_ found : Nat) (ns' : List Nat) : Prop :=
  (found = let_ ∧ ns' = ns ∧ ∀ y ∈ ns, cmp d (D y) ≠ 0) ∨
  (cmp d (D found) = 0 ∧ ∃ a b, ns = a ++ found :: b ∧ ns' = a ++ b)

omit [Arch] in
theorem RemRes.sublist {D : Nat → Nat} {d : Nat} {ns : List Nat} {let_ found : Nat} {ns' : List Nat}
    (h : RemRes cmp D d ns let_ found ns') : ns'.Sublist ns := by
  rcases h with ⟨_, rfl, _⟩ | ⟨_, a, b, rfl, rfl⟩
  · exact List.Sublist.refl _
  · simp

theorem removeNode_run (tp : TotalPreorder cmp) {t : T} (g : t.Good) (h : Heap) {p : Nat} (d let_ : Nat) (hr : Rep h t p)
    (hn : t.nodes.Nodup) (hlen : t.nodes.length < 2 ^ (sizeBit - 1)) (hs : Inc cmp h.data t.nodes) :
    ∃ t' h' found, treeRemoveNode cmp p d let_ h = some ((t'.ptr, found), h') ∧ Rep h' t' t'.ptr ∧
      Fr h h' t.nodes ∧ t'.Good ∧ RemRes cmp h.data d t.nodes let_ found t'.nodes := by
  induction t generalizing p with
  | nil =>
    have h0 : p = 0 := hr
    refine ⟨nil, h, let_, ?_, rfl, Fr.refl _ _, trivial, Or.inl ⟨rfl, rfl, by simp [T.nodes]⟩⟩
    rw [treeRemoveNode, if_pos h0]; rfl
  | node q i l r ihl ihr =>
    obtain ⟨rfl, oq, iq, rl, rr⟩ := hr
    obtain ⟨s1, s2, s3, s4, s5⟩ := hs.split
    have hn' := hn
    have hlen' := hlen
    simp only [T.nodes, List.nodup_append, List.nodup_cons, List.mem_append, List.mem_cons] at hn'
    simp only [T.nodes, List.length_append, List.length_cons] at hlen'
    rw [treeRemoveNode]
    by_cases hc : cmp d (h.data p) < 0
    · obtain ⟨t1, h1, fd, e1, r1, f1, g1, n1⟩ := ihl g.1 rl hn'.1 (by omega) s1
      have hpS : p ∉ l.nodes := by grind
      have sb := n1.sublist
      have mem1 : ∀ y ∈ t1.nodes, y ∈ l.nodes := fun y hy => sb.mem hy
      have nd1 : t1.nodes.Nodup := hn'.1.sublist sb
      have ln1 : t1.nodes.length ≤ l.nodes.length := sb.length_le
      obtain ⟨t', h', e, rp, f, gt, n⟩ := set_prev_balance (x := p) (r := r) g1 g.2.1 h1 (f1.ok oq) r1
        (by rw [(f1.out p hpS).1]; exact rr.frame f1 (by intro y hy; grind))
        (by simp only [List.nodup_append, List.nodup_cons, List.mem_cons]; grind)
        (by simp only [List.length_append, List.length_cons]; omega)
      refine ⟨t', h', fd, ?_, rp, ?_, gt, ?_⟩
      · rw [if_neg oq.1]
        simp only [run_bind, getData_run oq, Option.bind_some]
        rw [if_pos hc]
        simp only [run_bind, getPrev_run oq, Option.bind_some, e1, setPrev_run (f1.ok oq), e]
        rfl
      · exact (f1.mono (by simp [T.nodes]; grind)).trans (f.mono (by
          intro y hy; simp only [List.mem_append, List.mem_cons] at hy; simp only [T.nodes, List.mem_append, List.mem_cons]; grind))
      · rw [n]
        rcases n1 with ⟨a1, a2, a3⟩ | ⟨a1, a, b, a2, a3⟩
        · refine Or.inl ⟨a1, by rw [a2]; rfl, ?_⟩
          intro y hy
          simp only [T.nodes, List.mem_append, List.mem_cons] at hy
          rcases hy with hy | rfl | hy
          · exact a3 y hy
          · omega
          · have := TP.lt_trans tp hc (Int.le_of_lt (s4 y hy)); omega
        · exact Or.inr ⟨a1, a, b ++ p :: r.nodes, by simp [T.nodes, a2], by simp [a3]⟩
    · by_cases hd : cmp d (h.data p) > 0
      · obtain ⟨t1, h1, fd, e1, r1, f1, g1, n1⟩ := ihr g.2.1 rr hn'.2.1.2 (by omega) s2
        have hpS : p ∉ r.nodes := by grind
        have sb := n1.sublist
        have mem1 : ∀ y ∈ t1.nodes, y ∈ r.nodes := fun y hy => sb.mem hy
        have nd1 : t1.nodes.Nodup := hn'.2.1.2.sublist sb
        have ln1 : t1.nodes.length ≤ r.nodes.length := sb.length_le
        obtain ⟨t', h', e, rp, f, gt, n⟩ := set_next_balance (x := p) (l := l) g.1 g1 h1 (f1.ok oq)
          (by rw [(f1.out p hpS).2.1]; exact rl.frame f1 (by intro y hy; grind)) r1
          (by simp only [List.nodup_append, List.nodup_cons, List.mem_cons]; grind)
          (by simp only [List.length_append, List.length_cons]; omega)
        refine ⟨t', h', fd, ?_, rp, ?_, gt, ?_⟩
        · rw [if_neg oq.1]
          simp only [run_bind, getData_run oq, Option.bind_some]
          rw [if_neg hc, if_pos hd]
          simp only [run_bind, getNext_run oq, Option.bind_some, e1, setNext_run (f1.ok oq), e]
          rfl
        · exact (f1.mono (by simp [T.nodes]; grind)).trans (f.mono (by
            intro y hy; simp only [List.mem_append, List.mem_cons] at hy; simp only [T.nodes, List.mem_append, List.mem_cons]; grind))
        · rw [n]
          rcases n1 with ⟨a1, a2, a3⟩ | ⟨a1, a, b, a2, a3⟩
          · refine Or.inl ⟨a1, by rw [a2]; rfl, ?_⟩
            intro y hy
            simp only [T.nodes, List.mem_append, List.mem_cons] at hy
            rcases hy with hy | rfl | hy
            · have := (tp.sign _ _).1 (TP.lt_trans tp (s3 y hy) (Int.le_of_lt ((tp.sign _ _).2 hd))); omega
            · omega
            · exact a3 y hy
          · exact Or.inr ⟨a1, l.nodes ++ p :: a, b, by simp [T.nodes, a2], by simp [a3]⟩
      · obtain ⟨t', h', e, rp, f, gt, n⟩ := moveRight_run g.1 g.2.1 h rl rr
          (by simp only [List.nodup_append]; grind) (by simp only [List.length_append]; omega)
        refine ⟨t', h', p, ?_, rp, f.mono (by simp [T.nodes]; grind), gt, Or.inr ⟨by omega, l.nodes, r.nodes, rfl, n⟩⟩
        rw [if_neg oq.1]
        simp only [run_bind, getData_run oq, Option.bind_some]
        rw [if_neg hc, if_neg hd]
        simp only [run_bind, getPrev_run oq, getNext_run oq, Option.bind_some, e]
        rfl

end Cmp

/-- The sequence of signs of `f` on the nodes is decreasing: first positive, then zero, then negative. -/
def Mono (f : Nat → Int) (D : Nat → Nat) (l : List Nat) : Prop :=
  l.Pairwise fun a b => (f (D a) < 0 → f (D b) < 0) ∧ (f (D b) > 0 → f (D a) > 0)

omit [Arch] in
theorem searchNode_run {cmp : Nat → Nat → Int} {t : T} (h : Heap) {p : Nat} (d : Nat) (hr : Rep h t p)
    (hs : Mono (cmp d) h.data t.nodes) :
    ∃ found, treeSearchNode cmp p d h = some (found, h) ∧
      ((found = 0 ∧ ∀ y ∈ t.nodes, cmp d (h.data y) ≠ 0) ∨ (found ∈ t.nodes ∧ cmp d (h.data found) = 0)) := by
  induction t generalizing p with
  | nil =>
    have h0 : p = 0 := hr
    refine ⟨0, ?_, Or.inl ⟨rfl, by simp [T.nodes]⟩⟩
    rw [treeSearchNode, if_pos h0]; rfl
  | node q i l r ihl ihr =>
    obtain ⟨rfl, oq, iq, rl, rr⟩ := hr
    unfold Mono at hs
    simp only [T.nodes, List.pairwise_append, List.pairwise_cons, List.mem_cons] at hs
    rw [treeSearchNode, if_neg oq.1]
    simp only [run_bind, getData_run oq, Option.bind_some]
    by_cases hc : cmp d (h.data p) < 0
    · obtain ⟨fd, e, n⟩ := ihl rl hs.1
      refine ⟨fd, ?_, ?_⟩
      · rw [if_pos hc]; simp only [run_bind, getPrev_run oq, Option.bind_some, e]
      · simp only [T.nodes, List.mem_append, List.mem_cons]
        rcases n with ⟨n1, n2⟩ | ⟨n1, n2⟩
        · refine Or.inl ⟨n1, ?_⟩
          rintro y (hy | rfl | hy)
          · exact n2 y hy
          · omega
          · have := (hs.2.1.1 y hy).1 hc; omega
        · exact Or.inr ⟨Or.inl n1, n2⟩
    · rw [if_neg hc]
      by_cases hd : cmp d (h.data p) > 0
      · obtain ⟨fd, e, n⟩ := ihr rr hs.2.1.2
        refine ⟨fd, ?_, ?_⟩
        · rw [if_pos hd]; simp only [run_bind, getNext_run oq, Option.bind_some, e]
        · simp only [T.nodes, List.mem_append, List.mem_cons]
          rcases n with ⟨n1, n2⟩ | ⟨n1, n2⟩
          · refine Or.inl ⟨n1, ?_⟩
            rintro y (hy | rfl | hy)
            · have := (hs.2.2 y hy p (Or.inl rfl)).2 hd; omega
            · omega
            · exact n2 y hy
          · exact Or.inr ⟨Or.inr (Or.inr n1), n2⟩
      · refine ⟨p, ?_, Or.inr ⟨by simp [T.nodes], by omega⟩⟩
        rw [if_neg hd]; rfl

end TreeP
end Tommy
