import Verif.Spec.Chain
import Verif.Proof.ListSys
/-! The functions of tommychain.h on chains (C70). -/
namespace Tommy
namespace ChainSpec
open ListSpec

theorem seg_links {h : Heap} : ∀ {xs : List Ptr} {p n : Ptr}, Seg h p xs n →
    ∀ i (hi : i + 1 < xs.length), h.next xs[i] = xs[i + 1] ∧ h.prev xs[i + 1] = xs[i]
  | [], _, _, _ => fun i hi => absurd hi (by simp)
  | [x], _, _, _ => fun i hi => absurd hi (by simp)
  | x :: y :: xs, p, n, s => fun i hi => by
    cases i with
    | zero => exact ⟨s.2.1, s.2.2.1⟩
    | succ i => exact seg_links s.2.2 i (Nat.lt_of_succ_lt_succ hi)

theorem links_seg {h : Heap} : ∀ {xs : List Ptr},
    (∀ i (hi : i + 1 < xs.length), h.next xs[i] = xs[i + 1] ∧ h.prev xs[i + 1] = xs[i]) →
    Seg h (h.prev (xs.headD 0)) xs (h.next (xs.getLastD 0))
  | [], _ => trivial
  | [x], _ => by simp
  | x :: y :: xs, l => by
    have ih := links_seg (xs := y :: xs) fun i hi => l (i + 1) (Nat.succ_lt_succ hi)
    have h0 := l 0 (by simp)
    simp only [List.getElem_cons_zero, List.getElem_cons_succ, Nat.zero_add] at h0
    refine ⟨rfl, h0.1, ?_⟩
    simp only [List.headD_cons, h0.2, List.getLastD_cons] at ih
    rw [List.getLastD_cons, List.getLastD_cons]
    exact ih

theorem head_eq {xs : List Ptr} {a : Ptr} (h : xs.head? = some a) : xs ≠ [] ∧ a = xs.headD 0 := by
  cases xs with
  | nil => simp at h
  | cons x xs => simp at h; simp [h]

theorem last_eq {xs : List Ptr} {a : Ptr} (h : xs.getLast? = some a) : a = xs.getLastD 0 := by
  rw [List.getLastD_eq_getLast?, h]; rfl

theorem chainOf_iff {h : Heap} {c : Chain} {xs : List Ptr} : ChainOf h c xs ↔ IsChain h c xs := by
  constructor
  · intro k
    exact ⟨(head_eq k.head).1, (head_eq k.head).2, last_eq k.tail, k.live, k.once, _, _, links_seg k.links⟩
  · intro k
    obtain ⟨p, n, s⟩ := k.seg
    refine ⟨?_, ?_, k.ok, k.nodup, seg_links s⟩
    · rw [k.head]
      obtain ⟨x, r, rfl⟩ := List.exists_cons_of_ne_nil k.ne
      rfl
    · rw [k.tail]
      obtain ⟨t, a, rfl⟩ := exists_concat k.ne
      simp

theorem only_of {h h' : Heap} {xs : List Ptr} (hd : h'.data = h.data) (fr : Frame h h' (fun z => z ∈ xs)) : OnlyLinks h h' xs :=
  ⟨fr.valid, hd, fr.index, fr.next, fr.prev⟩

theorem merge_all_gt {α : Type} {le : α → α → Bool} : ∀ {xs ys : List α}, (∀ a ∈ xs, ∀ b ∈ ys, le a b = false) →
    List.merge xs ys le = ys ++ xs
  | [], ys, _ => by simp
  | x :: xs, [], _ => by simp
  | x :: xs, y :: ys, hg => by
    rw [List.cons_merge_cons, hg x (by simp) y (by simp)]
    simp only [Bool.false_eq_true, if_false, List.cons_append, List.cons.injEq, true_and]
    exact merge_all_gt fun a ha b hb => hg a ha b (by simp [hb])

/-- The special cases give the same sequence on ordered chains. -/
theorem mergeD_eq {cmp : Nat → Nat → Int} (t : TotalPreorder cmp) {d : Ptr → Nat} {xs ys : List Ptr} (sx : Ordered cmp d xs)
    (sy : Ordered cmp d ys) : mergeD cmp d xs ys = List.merge xs ys (leB cmp d) := by
  have hlast : ∀ {zs : List Ptr}, Ordered cmp d zs → ∀ a ∈ zs, cmp (d a) (d (zs.getLastD 0)) ≤ 0 := by
    intro zs s a ha
    obtain ⟨u, z, rfl⟩ := exists_concat (List.ne_nil_of_mem ha)
    rcases List.mem_append.1 ha with ha | ha
    · simpa using (List.pairwise_append.1 s).2.2 a ha z (by simp)
    · simp at ha; subst ha; simp [t.refl']
  have hhead : ∀ {zs : List Ptr}, Ordered cmp d zs → ∀ a ∈ zs, cmp (d (zs.headD 0)) (d a) ≤ 0 := by
    intro zs s a ha
    obtain ⟨z, u, rfl⟩ := List.exists_cons_of_ne_nil (List.ne_nil_of_mem ha)
    rcases List.mem_cons.1 ha with rfl | ha
    · simp [t.refl']
    · exact (List.pairwise_cons.1 s).1 a ha
  unfold mergeD
  split
  · rename_i hc
    refine (List.merge_of_le fun a b ha hb => ?_).symm
    exact decide_eq_true (t.trans _ _ _ (t.trans _ _ _ (hlast sx a ha) hc) (hhead sy b hb))
  · split
    · rename_i hc
      refine (merge_all_gt fun a ha b hb => ?_).symm
      refine decide_eq_false fun hle => ?_
      have h1 := t.trans _ _ _ (t.trans _ _ _ (hhead sx a ha) hle) (hlast sy b hb)
      have := (t.sign _ _).1 hc
      omega
    · rfl

end ChainSpec
end Tommy
