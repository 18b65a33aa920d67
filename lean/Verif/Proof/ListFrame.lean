import Verif.Proof.ListSys
/-! Frame of the list calls, foreach, links. -/
set_option linter.unusedSimpArgs false
namespace Tommy

variable [Arch]
namespace ListSpec

omit [Arch] in
theorem seg_next_prev {h : Heap} {p n : Ptr} {xs : List Ptr} (s : Seg h p xs n) :
    ∀ i x y, xs[i]? = some x → xs[i + 1]? = some y → h.next x = y ∧ h.prev y = x := by
  induction xs generalizing p with
  | nil => simp
  | cons z xs ih =>
    intro i x y hx hy
    cases i with
    | zero =>
      simp at hx hy
      subst hx
      cases xs with
      | nil => simp at hy
      | cons w xs =>
        simp at hy; subst hy
        exact ⟨s.2.1, s.2.2.1⟩
    | succ i =>
      simp at hx hy
      exact ih s.2.2 i x y hx hy

omit [Arch] in
theorem seg_last {h : Heap} {p n : Ptr} {xs : List Ptr} (s : Seg h p xs n) :
    ∀ y, xs.getLast? = some y → h.next y = n := by
  intro y hy
  rcases nil_or_snoc xs with rfl | ⟨t, z, rfl⟩
  · simp at hy
  · simp at hy; subst hy
    rw [seg_append] at s
    exact s.2.2.1

omit [Arch] in
theorem IsList.wellLinked {h : Heap} {l : Ptr} {xs : List Ptr} (hl : IsList h l xs) :
    WellLinked h l xs where
  live x hx := hl.ok x hx
  distinct := hl.nodup
  empty e := hl.eq_zero_iff.2 e
  first x hx := by
    rw [hl.head]; cases xs <;> simp_all
  next_prev := seg_next_prev hl.seg
  circular x y hx hy := by
    have hp := hl.prev_head (by rintro rfl; simp at hx)
    have : l = x := by rw [hl.head]; cases xs <;> simp_all
    rw [← this, hp]
    rcases nil_or_snoc xs with rfl | ⟨t, z, rfl⟩
    · simp at hy
    · simpa using hy
  terminated := seg_last hl.seg

omit [Arch] in
theorem foreach_spec {h0 : Heap} (func : Nat → HM Unit) (l : List (Ptr × Nat)) :
    ∀ (h : Heap), Fwd h0 (l.map Prod.fst) 0 → (∀ x ∈ l.map Prod.fst, h0.ok x) →
    (∀ x ∈ l, h0.data x.1 = x.2) → SameNodes h0 h (l.map Prod.fst) →
    (∀ as x bs, l = as ++ x :: bs → ∀ h1 h2, SameNodes h0 h1 (bs.map Prod.fst) →
      func x.2 h1 = some ((), h2) → SameNodes h0 h2 (bs.map Prod.fst)) →
    listForeachLoop func ((l.map Prod.fst).headD 0) h = callAll func (l.map Prod.snd) h := by
  induction l with
  | nil => intro h _ _ _ _ _; rw [listForeachLoop]; simp [callAll]
  | cons x l ih =>
    intro h s ok dat same hf
    obtain ⟨hok, hn, hd⟩ := same x.1 (by simp)
    have ox := hok.1 (ok x.1 (by simp))
    simp only [List.map_cons, List.headD_cons, callAll, run_bind]
    rw [listForeachLoop]
    have h0' : x.1 ≠ 0 := ox.1
    simp only [h0', if_false, run_ite, run_bind, getData_run ox, getNext_run ox, Option.bind_some]
    rw [hd, hn, dat x (by simp), s.1]
    cases hfx : func x.2 h with
    | none => rfl
    | some r =>
      obtain ⟨⟨⟩, h2⟩ := r
      simp only [Option.bind_some]
      have same2 := hf [] x l rfl h h2 (fun y hy => same y (by simp [hy])) hfx
      exact ih h2 s.2 (fun y hy => ok y (by simp [hy])) (fun y hy => dat y (by simp [hy])) same2
        (fun as y bs e => hf (x :: as) y bs (by rw [e]; rfl))

theorem step_frame {s : St} {a : Ab} {op : Op} {out : Out} {s' : St} (i : Inv s a) (hleg : legal a op)
    (hc : isCall op) (e : step op s = some (out, s')) :
    (∀ q, ¬ mayLink a op q → s'.heap.next q = s.heap.next q ∧ s'.heap.prev q = s.heap.prev q) ∧
    (∀ q, ¬ mayData op q → s'.heap.data q = s.heap.data q) ∧
    s'.heap.index = s.heap.index ∧ s'.heap.valid = s.heap.valid ∧
    (∀ w, ¬ mayVar op w → s'.var w = s.var w) := by
  have key : ∀ {h' : Heap} {S : Ptr → Prop}, Frame s.heap h' S → (∀ q, S q → mayLink a op q) →
      (∀ q, ¬ mayLink a op q → h'.next q = s.heap.next q ∧ h'.prev q = s.heap.prev q) := by
    intro h' S fr hs q hq
    have : ¬ S q := fun h => hq (hs q h)
    exact ⟨fr.next q this, fr.prev q this⟩
  have vars : ∀ v p w, ¬ w = v → (upd s.var v p) w = s.var w := fun v p w h => upd_ne h
  cases op with
  | init v =>
    simp only [step, run_bind, setVar, Option.bind_some, run_pure, Option.some.injEq, Prod.mk.injEq] at e
    obtain ⟨_, rfl⟩ := e
    exact ⟨fun q _ => ⟨rfl, rfl⟩, fun q _ => rfl, rfl, rfl, vars v _⟩
  | insertHead v p d =>
    obtain ⟨hv, hp, hnl⟩ := hleg
    obtain ⟨l, hl⟩ := Option.isSome_iff_exists.1 hv
    have hr := i.rep v l hl
    obtain ⟨h', e', il, hd, fr⟩ := listInsertHead_spec d hr.1 (i.ok hp) (i.not_mem hnl hl)
    simp only [step, run_bind, getVar, Option.bind_some, onHeap_run e', setVar, run_pure,
      Option.some.injEq, Prod.mk.injEq] at e
    obtain ⟨_, rfl⟩ := e
    refine ⟨key fr (fun q hq => ?_), fun q hq => ?_, fr.index, fr.valid, vars v _⟩
    · simpa [mayLink, get_of_some hl] using hq
    · rw [hd]; exact upd_ne hq
  | insertTail v p d =>
    obtain ⟨hv, hp, hnl⟩ := hleg
    obtain ⟨l, hl⟩ := Option.isSome_iff_exists.1 hv
    have hr := i.rep v l hl
    obtain ⟨p', h', e', il, hd, fr⟩ := listInsertTail_spec d hr.1 (i.ok hp) (i.not_mem hnl hl)
    simp only [step, run_bind, getVar, Option.bind_some, onHeap_run e', setVar, run_pure,
      Option.some.injEq, Prod.mk.injEq] at e
    obtain ⟨_, rfl⟩ := e
    refine ⟨key fr (fun q hq => ?_), fun q hq => ?_, fr.index, fr.valid, vars v _⟩
    · simpa [mayLink, get_of_some hl] using hq
    · rw [hd]; exact upd_ne hq
  | removeExisting v p =>
    obtain ⟨l, hl, hp⟩ := hleg
    have hr := i.rep v l hl
    obtain ⟨x, hx, rfl⟩ := List.mem_map.1 hp
    obtain ⟨as, bs, rfl⟩ := List.append_of_mem hx
    have hl1 := hr.1
    simp only [List.map_append, List.map_cons] at hl1
    obtain ⟨p', h', e', il, hd, fr⟩ := listRemoveExisting_spec hl1
    simp only [step, run_bind, getVar, Option.bind_some, onHeap_run e', setVar, run_pure,
      Option.some.injEq, Prod.mk.injEq] at e
    obtain ⟨_, rfl⟩ := e
    refine ⟨key fr (fun q hq => ?_), fun q _ => by rw [hd], fr.index, fr.valid, vars v _⟩
    simp only [mayLink, get_of_some hl]
    simpa using hq
  | concat v w =>
    obtain ⟨hvw, hv, hw⟩ := hleg
    obtain ⟨l, hl⟩ := Option.isSome_iff_exists.1 hv
    obtain ⟨m, hm⟩ := Option.isSome_iff_exists.1 hw
    have hr := i.rep v l hl
    have hs := i.rep w m hm
    obtain ⟨p', h', e', il, hd, fr⟩ := listConcat_spec hr.1 hs.1 (i.disj v w l m hvw hl hm)
    simp only [step, run_bind, getVar, Option.bind_some, onHeap_run e', setVar, run_pure,
      Option.some.injEq, Prod.mk.injEq] at e
    obtain ⟨_, rfl⟩ := e
    refine ⟨key fr (fun q hq => ?_), fun q _ => by rw [hd], fr.index, fr.valid, vars v _⟩
    simpa [mayLink, get_of_some hl, get_of_some hm] using hq
  | sort v cmp =>
    obtain ⟨l, hl⟩ := Option.isSome_iff_exists.1 hleg
    have hr := i.rep v l hl
    obtain ⟨p', h', ys, e', il, _, pm, hd, fr⟩ := listSort_spec cmp (R := fun _ _ => True)
      trivial (fun x => trivial) (fun _ _ _ _ _ _ => trivial) hr.1 (i.length_lt hl)
    simp only [step, run_bind, getVar, Option.bind_some, onHeap_run e', setVar, run_pure] at e
    rw [onHeap_run (s := { heap := h', var := upd s.var v p' }) (walk_spec il)] at e
    simp only [Option.bind_some, Option.some.injEq, Prod.mk.injEq] at e
    obtain ⟨_, rfl⟩ := e
    refine ⟨key fr (fun q hq => ?_), fun q _ => by rw [hd], fr.index, fr.valid, vars v _⟩
    simpa [mayLink, get_of_some hl] using hq
  | head v =>
    simp only [step, run_bind, getVar, Option.bind_some, run_pure, Option.some.injEq, Prod.mk.injEq] at e
    obtain ⟨_, rfl⟩ := e
    exact ⟨fun q _ => ⟨rfl, rfl⟩, fun q _ => rfl, rfl, rfl, fun _ _ => rfl⟩
  | tail v =>
    obtain ⟨l, hl⟩ := Option.isSome_iff_exists.1 hleg
    have hr := i.rep v l hl
    simp only [step, run_bind, getVar, Option.bind_some, onHeap_run (listTail_spec hr.1), run_pure,
      Option.some.injEq, Prod.mk.injEq] at e
    obtain ⟨_, rfl⟩ := e
    exact ⟨fun q _ => ⟨rfl, rfl⟩, fun q _ => rfl, rfl, rfl, fun _ _ => rfl⟩
  | empty v =>
    simp only [step, run_bind, getVar, Option.bind_some, run_pure, Option.some.injEq, Prod.mk.injEq] at e
    obtain ⟨_, rfl⟩ := e
    exact ⟨fun q _ => ⟨rfl, rfl⟩, fun q _ => rfl, rfl, rfl, fun _ _ => rfl⟩
  | count v =>
    obtain ⟨l, hl⟩ := Option.isSome_iff_exists.1 hleg
    have hr := i.rep v l hl
    simp only [step, run_bind, getVar, Option.bind_some, onHeap_run (listCount_spec hr.1), run_pure,
      Option.some.injEq, Prod.mk.injEq] at e
    obtain ⟨_, rfl⟩ := e
    exact ⟨fun q _ => ⟨rfl, rfl⟩, fun q _ => rfl, rfl, rfl, fun _ _ => rfl⟩
  | walk v =>
    obtain ⟨l, hl⟩ := Option.isSome_iff_exists.1 hleg
    have hr := i.rep v l hl
    simp only [step, run_bind, getVar, Option.bind_some, onHeap_run (walk_spec hr.1), run_pure,
      Option.some.injEq, Prod.mk.injEq] at e
    obtain ⟨_, rfl⟩ := e
    exact ⟨fun q _ => ⟨rfl, rfl⟩, fun q _ => rfl, rfl, rfl, fun _ _ => rfl⟩
  | alloc p => exact hc.elim
  | free p => exact hc.elim
  | scribble p n q d j => exact hc.elim
  | setIndex p j => exact hc.elim

end ListSpec
end Tommy
