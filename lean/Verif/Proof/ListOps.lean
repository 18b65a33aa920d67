import Mathlib.Tactic.Tauto
import Verif.Model.List
import Verif.Proof.Seg
/-! What each list operation does to the represented sequence. -/
namespace Tommy

variable [Arch]

/-- The links of the nodes outside `S` and the `valid`, `index` fields of every node are
    unchanged. -/
structure Frame (h h' : Heap) (S : Ptr → Prop) : Prop where
  valid : h'.valid = h.valid
  index : h'.index = h.index
  next : ∀ q, ¬ S q → h'.next q = h.next q
  prev : ∀ q, ¬ S q → h'.prev q = h.prev q

omit [Arch] in
theorem Frame.refl (h : Heap) (S) : Frame h h S := ⟨rfl, rfl, fun _ _ => rfl, fun _ _ => rfl⟩

omit [Arch] in
theorem Frame.trans {h h' h'' : Heap} {S} (a : Frame h h' S) (b : Frame h' h'' S) :
    Frame h h'' S :=
  ⟨b.valid.trans a.valid, b.index.trans a.index,
   fun q hq => (b.next q hq).trans (a.next q hq), fun q hq => (b.prev q hq).trans (a.prev q hq)⟩

omit [Arch] in
theorem Frame.mono {h h' : Heap} {S T : Ptr → Prop} (a : Frame h h' S) (st : ∀ q, S q → T q) :
    Frame h h' T :=
  ⟨a.valid, a.index, fun q hq => a.next q (fun h => hq (st q h)),
   fun q hq => a.prev q (fun h => hq (st q h))⟩

omit [Arch] in
theorem Frame.ok {h h' : Heap} {S} (a : Frame h h' S) (p : Ptr) : h'.ok p ↔ h.ok p :=
  ok_of_valid_eq a.valid p

omit [Arch] in
/-- A list whose nodes are all outside the footprint is untouched. -/
theorem IsList.frame {h h' : Heap} {S : Ptr → Prop} {l : Ptr} {xs : List Ptr}
    (hl : IsList h l xs) (fr : Frame h h' S) (hd : ∀ x ∈ xs, ¬ S x) : IsList h' l xs :=
  hl.congr (fun x _ hx => (fr.ok x).2 hx) (fun x hx => fr.next x (hd x hx))
    (fun x hx => fr.prev x (hd x hx))

omit [Arch] in
theorem exists_concat {xs : List Ptr} (h : xs ≠ []) : ∃ ys y, xs = ys ++ [y] :=
  ⟨xs.dropLast, xs.getLast h, (List.dropLast_concat_getLast h).symm⟩

omit [Arch] in
theorem nil_or_snoc (xs : List Ptr) : xs = [] ∨ ∃ ys y, xs = ys ++ [y] := by
  by_cases h : xs = []
  · exact Or.inl h
  · exact Or.inr (exists_concat h)

omit [Arch] in
theorem IsList.headD_ok {h : Heap} {l : Ptr} {xs : List Ptr} (hl : IsList h l xs)
    (hne : xs ≠ []) : h.ok l := by
  cases xs with
  | nil => exact absurd rfl hne
  | cons x xs => rw [hl.head]; exact hl.ok x (by simp)

omit [Arch] in
/-- `prev` of the head is the last node. -/
theorem IsList.prev_head {h : Heap} {l : Ptr} {xs : List Ptr} (hl : IsList h l xs)
    (hne : xs ≠ []) : h.prev l = xs.getLastD 0 := by
  cases xs with
  | nil => exact absurd rfl hne
  | cons x xs => rw [hl.head]; exact hl.seg.1

omit [Arch] in
theorem listTail_spec {h : Heap} {l : Ptr} {xs : List Ptr} (hl : IsList h l xs) :
    listTail l h = some (xs.getLastD 0, h) := by
  unfold listTail listHead
  by_cases hne : xs = []
  · have := hl.eq_zero_iff.2 hne; simp [this, hne]
  · have h0 : l ≠ 0 := fun e => hne (hl.eq_zero_iff.1 e)
    simp [h0, getPrev_run (hl.headD_ok hne), hl.prev_head hne]

omit [Arch] in
theorem listInsertFirst_spec {h : Heap} {n : Ptr} (hn : h.ok n) :
    ∃ h', listInsertFirst n h = some (n, h') ∧ IsList h' n [n] ∧ h'.data = h.data ∧
      Frame h h' (· = n) := by
  refine ⟨{ h with prev := upd h.prev n n, next := upd h.next n 0 },
    by simp [listInsertFirst, setPrev_run, setNext_run, hn], ?_, rfl, ?_⟩
  · exact ⟨rfl, by simpa [Heap.ok] using hn, by simp, by simp⟩
  · exact ⟨rfl, rfl, fun q hq => upd_ne hq, fun q hq => upd_ne hq⟩

omit [Arch] in
theorem listInsertHeadNotEmpty_spec {h : Heap} {l n : Ptr} {xs : List Ptr} (hl : IsList h l xs)
    (hne : xs ≠ []) (hn : h.ok n) (hnx : n ∉ xs) :
    ∃ h', listInsertHeadNotEmpty l n h = some (n, h') ∧ IsList h' n (n :: xs) ∧
      h'.data = h.data ∧ Frame h h' (fun q => q = n ∨ q ∈ xs) := by
  have hlo := hl.headD_ok hne
  obtain ⟨x, t, rfl⟩ := List.exists_cons_of_ne_nil hne
  have hlx : l = x := hl.head
  subst hlx
  have hnl : n ≠ l := by rintro rfl; simp at hnx
  have hnd := hl.nodup
  rw [List.nodup_cons] at hnd
  refine ⟨{ h with prev := upd (upd h.prev n (h.prev l)) l n, next := upd h.next n l }, by
      simp [listInsertHeadNotEmpty, listHead, setPrev_run, setNext_run, getPrev_run, hn, hlo],
    ?_, rfl, ?_⟩
  · refine ⟨rfl, ?_, ?_, ?_⟩
    · intro y hy
      rcases List.mem_cons.1 hy with rfl | hy
      · exact hn
      · exact hl.ok y hy
    · exact List.nodup_cons.2 ⟨hnx, hl.nodup⟩
    · rw [seg_cons]
      refine ⟨?_, ?_, ?_⟩
      · simp only [upd_ne hnl, upd_same]
        rw [hl.prev_head hne]; simp
      · simp
      · refine seg_change_prev ?_ ?_ ?_ hl.seg
        · intro y hy; exact upd_ne (fun e => hnx (e ▸ hy))
        · intro y hy
          simp only
          have hyl : y ≠ l := fun e => hnd.1 (e ▸ hy)
          have hyn : y ≠ n := fun e => hnx (e ▸ List.mem_cons_of_mem _ hy)
          rw [upd_ne hyl, upd_ne hyn]
        · simp
  · refine ⟨rfl, rfl, fun q hq => ?_, fun q hq => ?_⟩
    · exact upd_ne (fun e => hq (Or.inl e))
    · simp only
      rw [upd_ne (fun e => hq (Or.inr (by simp [e]))), upd_ne (fun e => hq (Or.inl e))]

omit [Arch] in
theorem listInsertTailNotEmpty_spec {h : Heap} {l n : Ptr} {xs : List Ptr} (hl : IsList h l xs)
    (hne : xs ≠ []) (hn : h.ok n) (hnx : n ∉ xs) :
    ∃ h', listInsertTailNotEmpty l n h = some ((), h') ∧ IsList h' l (xs ++ [n]) ∧
      h'.data = h.data ∧ Frame h h' (fun q => q = n ∨ q ∈ xs) := by
  have hlo := hl.headD_ok hne
  have hph := hl.prev_head hne
  obtain ⟨t, y, hty⟩ := exists_concat hne
  have hy : xs.getLastD 0 = y := by simp [hty]
  rw [hy] at hph
  have hyo : h.ok y := hl.ok y (by simp [hty])
  have hny : n ≠ y := by rintro rfl; simp [hty] at hnx
  have hlm : l ∈ xs := by
    obtain ⟨x, t, rfl⟩ := List.exists_cons_of_ne_nil hne
    have := hl.head; simp at this; simp [this]
  have hnl : n ≠ l := by rintro rfl; exact hnx hlm
  refine ⟨{ h with prev := upd (upd h.prev n y) l n, next := upd (upd h.next n 0) y n }, by
      simp [listInsertTailNotEmpty, setPrev_run, setNext_run, getPrev_run, hn, hlo, upd_ne hnl, hph, hyo],
    ?_, rfl, ?_⟩
  · refine ⟨?_, ?_, ?_, ?_⟩
    · rw [hl.head]; obtain ⟨x, t, rfl⟩ := List.exists_cons_of_ne_nil hne; simp
    · intro z hz
      rcases List.mem_append.1 hz with hz | hz
      · exact hl.ok z hz
      · simp at hz; subst hz; exact hn
    · rw [List.nodup_append]
      refine ⟨hl.nodup, by simp, ?_⟩
      intro a ha b hb; simp at hb; subst hb; rintro rfl; exact hnx ha
    · rw [seg_append]
      refine ⟨?_, ?_⟩
      · -- first the prev of the head, then the next of the last
        have hs := hl.seg
        have h1 : Seg { h with prev := upd h.prev l n } n xs 0 := by
          obtain ⟨x, u, rfl⟩ := List.exists_cons_of_ne_nil hne
          have hlx : l = x := hl.head
          subst hlx
          have hnd := hl.nodup
          rw [List.nodup_cons] at hnd
          exact seg_change_prev (h := h) (fun _ _ => rfl) (fun z hz => upd_ne (fun e => hnd.1 (e ▸ hz)))
            (by simp) hs
        have hgl : (xs ++ [n]).getLastD 0 = n := by simp
        rw [hgl]
        have hnd := hl.nodup
        rw [hty] at h1 hnx hnd ⊢
        rw [List.nodup_append] at hnd
        refine seg_change_next ?_ ?_ ?_ h1
        · intro z hz
          have hzy : z ≠ y := hnd.2.2 z hz y (by simp)
          have hzn : z ≠ n := fun e => hnx (by simp [← e, hz])
          simp [upd_apply, hzy, hzn]
        · intro z hz
          have hzn : z ≠ n := fun e => hnx (e ▸ hz)
          simp [upd_apply, hzn]
        · simp
      · have e : xs.getLastD ((xs ++ [n]).getLastD 0) = y := by
          rw [hty, getLastD_append]; simp
        rw [e]
        simp [upd_apply, hnl, hny]
  · have hym : y ∈ xs := by simp [hty]
    refine ⟨rfl, rfl, fun q hq => ?_, fun q hq => ?_⟩
    · simp only
      rw [upd_ne (fun e => hq (Or.inr (by simp [e, hym]))), upd_ne (fun e => hq (Or.inl e))]
    · simp only
      rw [upd_ne (fun e => hq (Or.inr (by simp [e, hlm]))), upd_ne (fun e => hq (Or.inl e))]

omit [Arch] in
theorem IsList.setData {h : Heap} {l : Ptr} {xs : List Ptr} (hl : IsList h l xs) (f : Ptr → Nat) :
    IsList { h with data := f } l xs :=
  hl.congr (fun _ _ h => h) (fun _ _ => rfl) (fun _ _ => rfl)

omit [Arch] in
theorem listInsertHead_spec {h : Heap} {l n : Ptr} {xs : List Ptr} (d : Nat) (hl : IsList h l xs)
    (hn : h.ok n) (hnx : n ∉ xs) :
    ∃ h', listInsertHead l n d h = some (n, h') ∧ IsList h' n (n :: xs) ∧
      h'.data = upd h.data n d ∧ Frame h h' (fun q => q = n ∨ q ∈ xs) := by
  unfold listInsertHead listHead
  by_cases hne : xs = []
  · subst hne
    have h0 : l = 0 := hl.head
    obtain ⟨h', e, hl', hd, fr⟩ := listInsertFirst_spec hn
    have hn' : h'.ok n := (fr.ok n).2 hn
    refine ⟨_, by simp [h0, e, setData_run hn']; rfl, hl'.setData _, by simp [hd], ?_⟩
    exact ⟨fr.valid, fr.index, fun q hq => fr.next q (fun e => hq (Or.inl e)),
      fun q hq => fr.prev q (fun e => hq (Or.inl e))⟩
  · have h0 : l ≠ 0 := fun e => hne (hl.eq_zero_iff.1 e)
    obtain ⟨h', e, hl', hd, fr⟩ := listInsertHeadNotEmpty_spec hl hne hn hnx
    have hn' : h'.ok n := (fr.ok n).2 hn
    refine ⟨_, by simp [h0, e, setData_run hn']; rfl, hl'.setData _, by simp [hd], ?_⟩
    exact ⟨fr.valid, fr.index, fr.next, fr.prev⟩

omit [Arch] in
theorem listInsertTail_spec {h : Heap} {l n : Ptr} {xs : List Ptr} (d : Nat) (hl : IsList h l xs)
    (hn : h.ok n) (hnx : n ∉ xs) :
    ∃ l' h', listInsertTail l n d h = some (l', h') ∧ IsList h' l' (xs ++ [n]) ∧
      h'.data = upd h.data n d ∧ Frame h h' (fun q => q = n ∨ q ∈ xs) := by
  unfold listInsertTail listHead
  by_cases hne : xs = []
  · subst hne
    have h0 : l = 0 := hl.head
    obtain ⟨h', e, hl', hd, fr⟩ := listInsertFirst_spec hn
    have hn' : h'.ok n := (fr.ok n).2 hn
    refine ⟨_, { h' with data := upd h'.data n d }, by simp [h0, e, setData_run hn'],
      hl'.setData _, by simp [hd], ?_⟩
    exact ⟨fr.valid, fr.index, fun q hq => fr.next q (fun e => hq (Or.inl e)),
      fun q hq => fr.prev q (fun e => hq (Or.inl e))⟩
  · have h0 : l ≠ 0 := fun e => hne (hl.eq_zero_iff.1 e)
    obtain ⟨h', e, hl', hd, fr⟩ := listInsertTailNotEmpty_spec hl hne hn hnx
    have hn' : h'.ok n := (fr.ok n).2 hn
    refine ⟨_, { h' with data := upd h'.data n d }, by simp [h0, e, setData_run hn'],
      hl'.setData _, by simp [hd], ?_⟩
    exact ⟨fr.valid, fr.index, fr.next, fr.prev⟩

omit [Arch] in
theorem seg_prev_of_mem_split {h : Heap} {p n x : Ptr} {as bs : List Ptr}
    (s : Seg h p (as ++ x :: bs) n) :
    h.prev x = as.getLastD p ∧ h.next x = bs.headD n := by
  rw [seg_append, seg_cons] at s
  exact ⟨s.2.1, s.2.2.1⟩

omit [Arch] in
theorem getLastD_mem_or {xs : List Ptr} {d : Ptr} : (xs = [] ∧ xs.getLastD d = d) ∨ xs.getLastD d ∈ xs := by
  by_cases h : xs = []
  · left; simp [h]
  · right
    obtain ⟨t, y, rfl⟩ := exists_concat h
    simp

omit [Arch] in
theorem listRemoveExisting_spec {h : Heap} {l n : Ptr} {as bs : List Ptr}
    (hl : IsList h l (as ++ n :: bs)) :
    ∃ l' h', listRemoveExisting l n h = some ((l', h.data n), h') ∧ IsList h' l' (as ++ bs) ∧
      h'.data = h.data ∧ Frame h h' (fun q => q ∈ as ++ n :: bs) := by
  have hno : h.ok n := hl.ok n (by simp)
  obtain ⟨hp, hx⟩ := seg_prev_of_mem_split hl.seg
  have hnd := hl.nodup
  have hnd' : (as ++ bs).Nodup := by
    rw [List.nodup_append] at hnd ⊢
    exact ⟨hnd.1, (List.nodup_cons.1 hnd.2.1).2, fun a ha b hb => hnd.2.2 a ha b (by simp [hb])⟩
  have hna : n ∉ as := fun hm => (List.nodup_append.1 hnd).2.2 n hm n (by simp) rfl
  have hnb : n ∉ bs := (List.nodup_cons.1 (List.nodup_append.1 hnd).2.1).1
  have hlo : h.ok l := hl.headD_ok (by simp)
  have hlm : l ∈ as ++ n :: bs := by
    rw [hl.head]
    cases as <;> simp
  -- case split on the two ends
  rcases nil_or_snoc as with rfl | ⟨as', a, rfl⟩
  · -- n is the head
    have hln : l = n := hl.head
    subst hln
    cases bs with
    | nil =>
      simp only [List.headD_nil] at hx
      refine ⟨0, { h with prev := upd h.prev l (h.prev l) }, ?_, ?_, rfl, ?_⟩
      · simp [listRemoveExisting, listHead, getNext_run, getPrev_run, setPrev_run, getData_run, hno, hx]
      · exact IsList.nil _
      · exact ⟨rfl, rfl, fun _ _ => rfl, fun q hq => upd_ne (fun e => hq (by simp [e]))⟩
    | cons b bs =>
      simp only [List.headD_cons] at hx
      have hbo : h.ok b := hl.ok b (by simp)
      have hb0 : b ≠ 0 := hbo.1
      refine ⟨b, { h with prev := upd h.prev b (h.prev l) }, ?_, ?_, rfl, ?_⟩
      · simp [listRemoveExisting, listHead, getNext_run, getPrev_run, setPrev_run, getData_run, hno, hx,
          hb0, hbo]
      · have hs := hl.seg
        simp only [List.nil_append, seg_cons, List.getLastD_cons] at hs
        refine ⟨rfl, fun y hy => hl.ok y (by simp at hy ⊢; tauto), by simpa using hnd', ?_⟩
        simp only [List.nil_append, List.getLastD_cons]
        have hs2 : Seg h l (b :: bs) 0 := by simp only [seg_cons]; exact hs.2.2
        refine seg_change_prev (h := h) (fun _ _ => rfl) ?_ ?_ hs2
        · intro y hy
          refine upd_ne ?_
          rintro rfl
          simp only [List.nil_append, List.nodup_cons] at hnd'
          exact hnd'.1 hy
        · simp [hs.1]
      · refine ⟨rfl, rfl, fun _ _ => rfl, fun q hq => upd_ne (fun e => hq (by simp [e]))⟩
  · -- n is not the head
    have hln : l ≠ n := by
      rw [hl.head]
      cases as' with
      | nil => simp at hna ⊢; tauto
      | cons c as' => simp at hna ⊢; tauto
    have hao : h.ok a := hl.ok a (by simp)
    have han : a ≠ n := by simp at hna; tauto
    have hp : h.prev n = a := by rw [hp]; simp
    have hlas : l ∈ as' ++ [a] := by
      rw [hl.head]; cases as' <;> simp
    cases bs with
    | nil =>
      simp only [List.headD_nil] at hx
      refine ⟨l, { h with prev := upd h.prev l a, next := upd h.next a 0 }, ?_, ?_, rfl, ?_⟩
      · simp [listRemoveExisting, listHead, getNext_run, getPrev_run, setPrev_run, setNext_run,
          getData_run, hno, hx, hp, hlo, hln, upd_ne (Ne.symm hln), hao]
      · refine ⟨?_, fun y hy => hl.ok y (by simp at hy ⊢; tauto), by simpa using hnd', ?_⟩
        · rw [hl.head]; cases as' <;> simp
        · have hs := hl.seg
          rw [seg_append] at hs
          have h1 : Seg { h with prev := upd h.prev l a } a (as' ++ [a]) n := by
            have hs1 := hs.1
            simp only [List.getLastD_concat, List.headD_cons] at hs1
            obtain ⟨c, u, hcu⟩ := List.exists_cons_of_ne_nil (l := as' ++ [a]) (by simp)
            have hlc : l = c := by rw [hl.head, hcu]; rfl
            rw [hcu] at hs1 hnd' ⊢
            subst hlc
            refine seg_change_prev (h := h) (fun _ _ => rfl) ?_ ?_ hs1
            · intro y hy
              refine upd_ne ?_
              rintro rfl
              simp only [List.append_nil, List.nodup_cons] at hnd'
              exact hnd'.1 hy
            · simp
          simp only [List.append_nil, List.getLastD_concat]
          refine seg_change_next (h := { h with prev := upd h.prev l a }) ?_ (fun _ _ => rfl) ?_ h1
          · intro y hy
            refine upd_ne ?_
            rintro rfl
            simp [List.nodup_append] at hnd'
            exact hnd'.2 y hy rfl
          · simp
      · refine ⟨rfl, rfl, fun q hq => upd_ne (fun e => hq (by simp [e])), fun q hq => upd_ne ?_⟩
        rintro rfl; exact hq hlm
    | cons b bs =>
      simp only [List.headD_cons] at hx
      have hbo : h.ok b := hl.ok b (by simp)
      have hb0 : b ≠ 0 := hbo.1
      have hbn : b ≠ n := by simp at hnb; tauto
      refine ⟨l, { h with prev := upd h.prev b a, next := upd h.next a b }, ?_, ?_, rfl, ?_⟩
      · simp [listRemoveExisting, listHead, getNext_run, getPrev_run, setPrev_run, setNext_run,
          getData_run, hno, hx, hp, hln, upd_ne (Ne.symm hbn), hao, hbo, hb0]
      · have hs := hl.seg
        rw [seg_append, seg_cons] at hs
        refine ⟨?_, fun y hy => hl.ok y (by simp at hy ⊢; tauto), by simpa using hnd', ?_⟩
        · rw [hl.head]; cases as' <;> simp
        · rw [seg_append]
          have hdis : ∀ y ∈ as' ++ [a], y ∉ b :: bs := fun y hy hm =>
            (List.nodup_append.1 hnd').2.2 y hy y hm rfl
          constructor
          · have e1 : ((as' ++ [a]) ++ b :: bs).getLastD 0 = ((as' ++ [a]) ++ n :: b :: bs).getLastD 0 := by
              simp
            rw [e1]
            refine seg_change_next (h := h) ?_ ?_ ?_ hs.1
            · intro y hy
              refine upd_ne ?_
              rintro rfl
              have := (List.nodup_append.1 (List.nodup_append.1 hnd').1).2.2 y hy y (by simp)
              exact this rfl
            · intro y hy
              refine upd_ne ?_
              rintro rfl
              exact hdis y hy (by simp)
            · simp
          · simp only [List.getLastD_concat]
            refine seg_change_prev (h := h) ?_ ?_ ?_ hs.2.2.2
            · intro y hy
              refine upd_ne ?_
              rintro rfl
              exact hdis y (by simp) hy
            · intro y hy
              refine upd_ne ?_
              rintro rfl
              have := (List.nodup_append.1 hnd').2.1
              exact (List.nodup_cons.1 this).1 hy
            · simp
      · exact ⟨rfl, rfl, fun q hq => upd_ne (fun e => hq (by simp [e])),
          fun q hq => upd_ne (fun e => hq (by simp [e]))⟩

omit [Arch] in
theorem listConcat_spec {h : Heap} {l1 l2 : Ptr} {xs ys : List Ptr} (h1 : IsList h l1 xs)
    (h2 : IsList h l2 ys) (hd : ∀ x ∈ xs, x ∉ ys) :
    ∃ l' h', listConcat l1 l2 h = some (l', h') ∧ IsList h' l' (xs ++ ys) ∧
      h'.data = h.data ∧ Frame h h' (fun q => q ∈ xs ++ ys) := by
  unfold listConcat listHead
  by_cases hy : ys = []
  · subst hy
    have h0 : l2 = 0 := h2.head
    exact ⟨l1, h, by simp [h0], by simpa using h1, rfl, Frame.refl _ _⟩
  by_cases hx : xs = []
  · subst hx
    have h0 : l1 = 0 := h1.head
    have h20 : l2 ≠ 0 := fun e => hy (h2.eq_zero_iff.1 e)
    exact ⟨l2, h, by simp [h0, h20], by simpa using h2, rfl, Frame.refl _ _⟩
  have h10 : l1 ≠ 0 := fun e => hx (h1.eq_zero_iff.1 e)
  have h20 : l2 ≠ 0 := fun e => hy (h2.eq_zero_iff.1 e)
  have hp1 := h1.prev_head hx
  have hp2 := h2.prev_head hy
  obtain ⟨t, z, htz⟩ := exists_concat hx
  have hz : xs.getLastD 0 = z := by simp [htz]
  have hzx : z ∈ xs := by simp [htz]
  have hzo : h.ok z := h1.ok z hzx
  obtain ⟨x, xt, hxt⟩ := List.exists_cons_of_ne_nil hx
  obtain ⟨y, yt, hyt⟩ := List.exists_cons_of_ne_nil hy
  have hl1x : l1 = x := by rw [h1.head, hxt]; rfl
  have hl2y : l2 = y := by rw [h2.head, hyt]; rfl
  have hl1m : l1 ∈ xs := by simp [hl1x, hxt]
  have hl2m : l2 ∈ ys := by simp [hl2y, hyt]
  rw [hz] at hp1
  refine ⟨l1, { h with prev := upd (upd h.prev l1 (ys.getLastD 0)) l2 z, next := upd h.next z l2 },
    ?_, ?_, rfl, ?_⟩
  · simp [h10, h20, getPrev_run, setPrev_run, setNext_run, h1.headD_ok hx, h2.headD_ok hy, hp1, hp2, hzo]
  · refine ⟨?_, ?_, ?_, ?_⟩
    · rw [h1.head, hxt]; rfl
    · intro w hw
      rcases List.mem_append.1 hw with hw | hw
      · exact h1.ok w hw
      · exact h2.ok w hw
    · exact List.nodup_append.2 ⟨h1.nodup, h2.nodup, fun a ha b hb e => hd a ha (e ▸ hb)⟩
    · rw [seg_append]
      constructor
      · have s1 : Seg { h with prev := upd h.prev l1 (ys.getLastD 0) } (ys.getLastD 0) xs 0 := by
          have hs := h1.seg
          have hnd := h1.nodup
          rw [hxt] at hs hnd ⊢
          subst hl1x
          refine seg_change_prev (h := h) (fun _ _ => rfl) ?_ (by simp) hs
          intro w hw
          exact upd_ne (fun e => (List.nodup_cons.1 hnd).1 (e ▸ hw))
        have e1 : (xs ++ ys).getLastD 0 = ys.getLastD 0 := by
          rw [getLastD_append, hyt]; rfl
        have e2 : ys.headD 0 = l2 := h2.head.symm
        rw [e1, e2]
        have hnd := h1.nodup
        rw [htz] at s1 hnd ⊢
        refine seg_change_next ?_ ?_ ?_ s1
        · intro w hw
          refine upd_ne ?_
          rintro rfl
          exact (List.nodup_append.1 hnd).2.2 w hw w (by simp) rfl
        · intro w hw
          simp only
          refine upd_ne ?_
          rintro rfl
          exact hd w (htz ▸ hw) hl2m
        · simp
      · have e3 : xs.getLastD ((xs ++ ys).getLastD 0) = z := by rw [htz]; simp
        rw [e3]
        have hs := h2.seg
        have hnd := h2.nodup
        rw [hyt] at hs hnd ⊢
        subst hl2y
        refine seg_change_prev ?_ ?_ (by simp) hs
        · intro w hw
          refine upd_ne ?_
          rintro rfl
          exact hd w hzx (hyt ▸ hw)
        · intro w hw
          have hwy : w ∈ ys := by rw [hyt]; simp [hw]
          simp only
          have hw2 : w ≠ l2 := fun e => (List.nodup_cons.1 hnd).1 (e ▸ hw)
          have hw1 : w ≠ l1 := fun e => hd w (e ▸ hl1m) hwy
          rw [upd_ne hw2, upd_ne hw1]
  · refine ⟨rfl, rfl, fun q hq => upd_ne ?_, fun q hq => ?_⟩
    · rintro rfl; exact hq (by simp [hzx])
    · simp only
      rw [upd_ne (fun e => hq (by simp [e, hl2m])), upd_ne (fun e => hq (by simp [e, hl1m]))]

end Tommy
