import Verif.Proof.Heap
/-! Doubly linked segments of nodes. -/
namespace Tommy


/-- `Seg h p xs n`: the nodes `xs` are doubly linked in this order; the first one has `prev = p`
    and the last one has `next = n`. -/
def Seg (h : Heap) (p : Ptr) : List Ptr → Ptr → Prop
  | [], _ => True
  | x :: xs, n => h.prev x = p ∧ h.next x = xs.headD n ∧ Seg h x xs n

@[simp] theorem seg_nil (h : Heap) (p n : Ptr) : Seg h p [] n := trivial
@[simp] theorem seg_cons (h : Heap) (p n x : Ptr) (xs : List Ptr) :
    Seg h p (x :: xs) n ↔ h.prev x = p ∧ h.next x = xs.headD n ∧ Seg h x xs n := Iff.rfl

/-- Only the `next` links of a segment. -/
def Fwd (h : Heap) : List Ptr → Ptr → Prop
  | [], _ => True
  | x :: xs, n => h.next x = xs.headD n ∧ Fwd h xs n

theorem Seg.fwd {h : Heap} {p n : Ptr} {xs : List Ptr} (s : Seg h p xs n) : Fwd h xs n := by
  induction xs generalizing p with
  | nil => trivial
  | cons x xs ih => exact ⟨s.2.1, ih s.2.2⟩

theorem headD_append (xs ys : List Ptr) (n : Ptr) : (xs ++ ys).headD n = xs.headD (ys.headD n) := by
  cases xs <;> simp

theorem getLastD_append (xs ys : List Ptr) (n : Ptr) :
    (xs ++ ys).getLastD n = ys.getLastD (xs.getLastD n) := by
  induction xs generalizing n with
  | nil => simp
  | cons x xs ih => simp only [List.cons_append, List.getLastD_cons]; exact ih x

theorem seg_append (h : Heap) (p n : Ptr) (xs ys : List Ptr) :
    Seg h p (xs ++ ys) n ↔ Seg h p xs (ys.headD n) ∧ Seg h (xs.getLastD p) ys n := by
  induction xs generalizing p with
  | nil => simp
  | cons x xs ih =>
    simp only [List.cons_append, seg_cons, ih, headD_append, List.getLastD_cons, and_assoc]

theorem seg_congr {h h' : Heap} {p n : Ptr} {xs : List Ptr}
    (hn : ∀ x ∈ xs, h'.next x = h.next x) (hp : ∀ x ∈ xs, h'.prev x = h.prev x)
    (s : Seg h p xs n) : Seg h' p xs n := by
  induction xs generalizing p with
  | nil => trivial
  | cons x xs ih =>
    simp only [seg_cons] at *
    refine ⟨?_, ?_, ih (fun y hy => hn y (by simp [hy])) (fun y hy => hp y (by simp [hy])) s.2.2⟩
    · rw [hp x (by simp)]; exact s.1
    · rw [hn x (by simp)]; exact s.2.1

/-- Changing the `prev` of the first node. -/
theorem seg_change_prev {h h' : Heap} {p p' n x : Ptr} {xs : List Ptr}
    (hn : ∀ y ∈ x :: xs, h'.next y = h.next y) (hp : ∀ y ∈ xs, h'.prev y = h.prev y)
    (hx : h'.prev x = p') (s : Seg h p (x :: xs) n) : Seg h' p' (x :: xs) n := by
  simp only [seg_cons] at *
  refine ⟨hx, ?_, seg_congr (fun y hy => hn y (by simp [hy])) hp s.2.2⟩
  rw [hn x (by simp)]; exact s.2.1

/-- Changing the `next` of the last node. -/
theorem seg_change_next {h h' : Heap} {p n n' x : Ptr} {xs : List Ptr}
    (hn : ∀ y ∈ xs, h'.next y = h.next y) (hp : ∀ y ∈ xs ++ [x], h'.prev y = h.prev y)
    (hx : h'.next x = n') (s : Seg h p (xs ++ [x]) n) : Seg h' p (xs ++ [x]) n' := by
  rw [seg_append] at *
  refine ⟨seg_congr hn (fun y hy => hp y (by simp [hy])) s.1, ?_⟩
  have := s.2
  simp only [seg_cons, seg_nil, List.headD_nil, and_true] at *
  exact ⟨by rw [hp x (by simp)]; exact this.1, hx⟩

/-- `IsList h l xs`: the value `l` of a `tommy_list` represents the sequence of nodes `xs`:
    valid distinct nodes, doubly linked, circular `prev`, 0 terminated `next`. -/
structure IsList (h : Heap) (l : Ptr) (xs : List Ptr) : Prop where
  head : l = xs.headD 0
  ok : ∀ x ∈ xs, h.ok x
  nodup : xs.Nodup
  seg : Seg h (xs.getLastD 0) xs 0

theorem IsList.congr {h h' : Heap} {l : Ptr} {xs : List Ptr} (hl : IsList h l xs)
    (hok : ∀ x ∈ xs, h.ok x → h'.ok x)
    (hn : ∀ x ∈ xs, h'.next x = h.next x) (hp : ∀ x ∈ xs, h'.prev x = h.prev x) :
    IsList h' l xs :=
  ⟨hl.head, fun x hx => hok x hx (hl.ok x hx), hl.nodup, seg_congr hn hp hl.seg⟩

theorem IsList.nil (h : Heap) : IsList h 0 [] := ⟨rfl, by simp, by simp, by simp⟩

theorem IsList.eq_zero_iff {h : Heap} {l : Ptr} {xs : List Ptr} (hl : IsList h l xs) :
    l = 0 ↔ xs = [] := by
  cases xs with
  | nil => simp [hl.head]
  | cons x xs =>
    have := (hl.ok x (by simp)).1
    simp [hl.head, this]

theorem IsList.eq_nil {h : Heap} {xs : List Ptr} (hl : IsList h 0 xs) : xs = [] :=
  hl.eq_zero_iff.1 rfl

/-- A list value determines the sequence of nodes. -/
theorem seg_unique {h : Heap} {p p' : Ptr} {xs ys : List Ptr}
    (hx : ∀ x ∈ xs, h.ok x) (hy : ∀ x ∈ ys, h.ok x) (hh : xs.headD 0 = ys.headD 0)
    (sx : Seg h p xs 0) (sy : Seg h p' ys 0) : xs = ys := by
  induction xs generalizing p p' ys with
  | nil =>
    cases ys with
    | nil => rfl
    | cons y ys => exact absurd hh.symm (hy y (by simp)).1
  | cons x xs ih =>
    cases ys with
    | nil => exact absurd hh (hx x (by simp)).1
    | cons y ys =>
      simp only [List.headD_cons] at hh
      subst hh
      simp only [seg_cons] at sx sy
      congr 1
      exact ih (fun z hz => hx z (by simp [hz])) (fun z hz => hy z (by simp [hz]))
        (sx.2.1.symm.trans sy.2.1) sx.2.2 sy.2.2

end Tommy
